import Verif.Core.LinAlg
import Verif.Core.FactoryLemmas

/-!
# Kernels

`src/wai/ma/transformation/kernel`.  A kernel is modelled by its `apply_vector`, which may change the
kernel object (`gamma` is filled in on first use), so it maps a state and two vectors to a new state
and a result.  `Option α` models `gamma`: `none` is the library's `NAN` constant, the only value for
which the test `self.gamma is NAN` holds.
-/

namespace Verif

open Mat

variable {α σ : Type}

/-- `apply_vector` of a kernel object with state `σ`. -/
abbrev KernelFn (α σ : Type) := σ → Mat α → Mat α → σ × Except PyErr α

/-- Body of the two loops of `_AbstractKernel.py` 53-58 (`both = false`) and 70-76 (`both = true`,
where the value is also stored at the mirrored position). -/
def kernelStep (k : KernelFn α σ) (X Y : Mat α) (both : Bool) (i j : Int) (s : σ) (M : Mat α) :
    σ × Except PyErr (Mat α) :=
  match X.getRow i, Y.getRow j with
  | .error e, _ => (s, .error e)
  | .ok _, .error e => (s, .error e)
  | .ok x, .ok y =>
    match k s x y with
    | (s', .error e) => (s', .error e)
    | (s', .ok v) => (s', do
        let M ← M.set i j v
        if both then M.set j i v else .ok M)

/-- The loop over index pairs; an error stops it, changes to the kernel object remain. -/
def kernelLoop (k : KernelFn α σ) (X Y : Mat α) (both : Bool) :
    List (Int × Int) → σ → Mat α → σ × Except PyErr (Mat α)
  | [], s, M => (s, .ok M)
  | (i, j) :: r, s, M =>
    match kernelStep k X Y both i j s M with
    | (s', .error e) => (s', .error e)
    | (s', .ok M') => kernelLoop k X Y both r s' M'

/-- `AbstractKernel.apply_matrix(X, Y)`, `_AbstractKernel.py` 51-59. -/
def applyMatrix2 [Zero α] (k : KernelFn α σ) (s : σ) (X Y : Mat α) : σ × Except PyErr (Mat α) :=
  match Factory.zeros (X.rows : Int) (Y.rows : Int) with
  | .error e => (s, .error e)
  | .ok Z => kernelLoop k X Y false (pairs (pyRange 0 X.rows) (pyRange 0 Y.rows)) s Z

/-- `AbstractKernel.apply_matrix(X)`, `_AbstractKernel.py` 61-77. -/
def applyMatrix1 [Zero α] (k : KernelFn α σ) (s : σ) (X : Mat α) : σ × Except PyErr (Mat α) :=
  match Factory.zeros (X.rows : Int) (X.rows : Int) with
  | .error e => (s, .error e)
  | .ok Z =>
    kernelLoop k X X true
      ((pyRange 0 X.rows).flatMap fun i => (pyRange i X.rows).map fun j => (i, j)) s Z

/-! ## Linear kernel -/

/-- `LinearKernel.apply_vector`, `_LinearKernel.py` 31-32. -/
def linearVector [Add α] [Mul α] [Zero α] : KernelFn α Unit := fun s x y => (s, x.vectorDot y)

/-- `LinearKernel.apply_matrix`, `_LinearKernel.py` 34-37. -/
def linearMatrix [Add α] [Mul α] [Zero α] (X : Mat α) (Y : Option (Mat α)) : Except PyErr (Mat α) :=
  X.mul ((Y.getD X).transpose)

/-! ## RBF kernel -/

/-- `if self.gamma is NAN: self.gamma = ONE / x.num_columns()`, `_RBFKernel.py` 36-37,
`_PolyKernel.py` 43-44 and 53-54. -/
def resolveGamma [One α] [Div α] [NatCast α] (g : Option α) (x : Mat α) : α :=
  g.getD (1 / (x.cols : α))

/-- `RBFKernel.apply_vector`, `_RBFKernel.py` 34-38.  The norm is computed (and may raise) before
`gamma` is filled in. -/
def rbfVector [Ring α] [Div α] [HasSqrt α] [HasExp α] : KernelFn α (Option α) := fun s x y =>
  match x.sub y with
  | .error e => (s, .error e)
  | .ok d => (some (resolveGamma s x), .ok (HasExp.exp (-1 * resolveGamma s x * d.norm2)))

/-! ## Polynomial kernel -/

/-- `PolyKernel.__init__`, `_PolyKernel.py` 29-33. -/
structure PolyState (α : Type) where
  degree : Nat
  coef0 : α
  gamma : Option α

/-- The state of a new kernel. -/
def PolyState.init [Zero α] : PolyState α := ⟨3, 0, none⟩

/-- `PolyKernel.__setattr__` for `degree`, `_PolyKernel.py` 35-38: values `<= 0` are dropped
silently. -/
def polySetDegree (s : PolyState α) (d : Int) : PolyState α :=
  if d ≤ 0 then s else { s with degree := d.toNat }

/-- `PolyKernel.apply_matrix`, `_PolyKernel.py` 40-49.  `gamma` is filled in before the product is
computed. -/
def polyMatrix [Ring α] [Div α] (s : PolyState α) (X : Mat α) (Y : Option (Mat α)) :
    PolyState α × Except PyErr (Mat α) :=
  ({ s with gamma := some (resolveGamma s.gamma X) }, do
    let P ← X.mul ((Y.getD X).transpose)
    .ok (((P.smul (resolveGamma s.gamma X)).addScalar s.coef0).powElementwise s.degree))

/-- `PolyKernel.apply_vector`, `_PolyKernel.py` 51-55.  The dot product is computed (and may raise)
before `gamma` is filled in. -/
def polyVector [Ring α] [Div α] : KernelFn α (PolyState α) := fun s x y =>
  match x.vectorDot y with
  | .error e => (s, .error e)
  | .ok l => ({ s with gamma := some (resolveGamma s.gamma x) },
      .ok ((resolveGamma s.gamma x * l + s.coef0) ^ s.degree))

/-! ## Loops over a well-behaved kernel -/

/-- If, on the rows of `A` and `B`, the kernel returns `g i j` in every state satisfying `Inv` and
keeps `Inv`, the loop stores the values `g i j` and ends in a state satisfying `Inv`; if it ran at
all, that state was left by a call. -/
theorem kernelLoop_two {m n p : Nat} (k : KernelFn α σ) (A : Matrix (Fin m) (Fin n) α)
    (B : Matrix (Fin p) (Fin n) α) (g : Fin m → Fin p → α) (Inv : σ → Prop)
    (hk : ∀ s i j, Inv s → ∃ s', Inv s' ∧
      k s (of (Matrix.of fun (_ : Fin 1) l => A i l)) (of (Matrix.of fun (_ : Fin 1) l => B j l)) =
        (s', .ok (g i j)))
    (cs : List (Fin m × Fin p)) (s : σ) (hs : Inv s) (Z : Matrix (Fin m) (Fin p) α) :
    ∃ s', Inv s' ∧ (cs ≠ [] → ∃ t i j, Inv t ∧ s' =
        (k t (of (Matrix.of fun (_ : Fin 1) l => A i l))
          (of (Matrix.of fun (_ : Fin 1) l => B j l))).1) ∧
      kernelLoop k (of A) (of B) false (cs.map castPair) s (of Z) =
        (s', .ok (of (Matrix.of fun i j => if (i, j) ∈ cs then g i j else Z i j))) := by
  induction cs generalizing s Z with
  | nil => exact ⟨s, hs, fun h => absurd rfl h, by simp only [List.map_nil, kernelLoop]; congr⟩
  | cons c cs ih =>
    obtain ⟨i, j⟩ := c
    obtain ⟨s1, h1, e1⟩ := hk s i j hs
    have hstep : kernelStep k (of A) (of B) false ((i : Nat) : Int) ((j : Nat) : Int) s (of Z) =
        (s1, .ok (of (Matrix.of fun i' j' => if i' = i ∧ j' = j then g i j else Z i' j'))) := by
      unfold kernelStep
      rw [getRow_of, getRow_of]
      simp only []
      rw [e1]
      simp only []
      rw [set_of]
      rfl
    obtain ⟨s2, h2, h3, e2⟩ := ih s1 h1
      (Matrix.of fun i' j' => if i' = i ∧ j' = j then g i j else Z i' j')
    refine ⟨s2, h2, fun _ => ?_, ?_⟩
    · by_cases hc : cs = []
      · subst hc
        refine ⟨s, i, j, hs, ?_⟩
        rw [e1]
        simp only [List.map_nil, kernelLoop, Prod.mk.injEq] at e2
        exact e2.1.symm
      · exact h3 hc
    · rw [List.map_cons, show castPair (i, j) = (((i : Nat) : Int), ((j : Nat) : Int)) from rfl,
        kernelLoop, hstep]
      simp only []
      rw [e2]
      congr 2
      refine mk_congr fun i' j' => ?_
      simp only [Matrix.of_apply, List.mem_cons, Prod.mk.injEq]
      by_cases h : (i', j') ∈ cs
      · simp [h]
      · by_cases h' : i' = i ∧ j' = j
        · obtain ⟨rfl, rfl⟩ := h'
          simp [h]
        · simp [h, h']

/-- The same for the loop that also stores the mirrored entry. -/
theorem kernelLoop_one {m n : Nat} (k : KernelFn α σ) (A : Matrix (Fin m) (Fin n) α)
    (g : Fin m → Fin m → α) (Inv : σ → Prop)
    (hk : ∀ s i j, Inv s → ∃ s', Inv s' ∧
      k s (of (Matrix.of fun (_ : Fin 1) l => A i l)) (of (Matrix.of fun (_ : Fin 1) l => A j l)) =
        (s', .ok (g i j)))
    (cs : List (Fin m × Fin m)) (hcs : ∀ c ∈ cs, c.1 ≤ c.2) (s : σ) (hs : Inv s)
    (Z : Matrix (Fin m) (Fin m) α) :
    ∃ s', Inv s' ∧ (cs ≠ [] → ∃ t i j, Inv t ∧ s' =
        (k t (of (Matrix.of fun (_ : Fin 1) l => A i l))
          (of (Matrix.of fun (_ : Fin 1) l => A j l))).1) ∧
      kernelLoop k (of A) (of A) true (cs.map castPair) s (of Z) =
        (s', .ok (of (Matrix.of fun i j =>
          if (min i j, max i j) ∈ cs then g (min i j) (max i j) else Z i j))) := by
  induction cs generalizing s Z with
  | nil => exact ⟨s, hs, fun h => absurd rfl h, by simp only [List.map_nil, kernelLoop]; congr⟩
  | cons c cs ih =>
    obtain ⟨i, j⟩ := c
    have hij : i ≤ j := hcs (i, j) (List.mem_cons_self ..)
    obtain ⟨s1, h1, e1⟩ := hk s i j hs
    have hstep : kernelStep k (of A) (of A) true ((i : Nat) : Int) ((j : Nat) : Int) s (of Z) =
        (s1, .ok (of (Matrix.of fun i' j' =>
          if (min i' j', max i' j') = (i, j) then g i j else Z i' j'))) := by
      unfold kernelStep
      rw [getRow_of, getRow_of]
      simp only []
      rw [e1]
      simp only []
      rw [set_of]
      show (s1, (of _).set _ _ _) = _
      rw [set_of]
      congr 2
      refine mk_congr fun i' j' => ?_
      simp only [Matrix.of_apply, Prod.mk.injEq]
      rcases le_total i' j' with h | h
      · rw [min_eq_left h, max_eq_right h]
        by_cases h2 : i' = i ∧ j' = j
        · rw [if_pos h2]
          by_cases h3 : i' = j ∧ j' = i
          · rw [if_pos h3]
          · exact if_neg h3
        · rw [if_neg h2]
          refine if_neg ?_
          rintro ⟨rfl, rfl⟩
          exact h2 ⟨le_antisymm h hij, le_antisymm hij h⟩
      · rw [min_eq_right h, max_eq_left h]
        by_cases h2 : j' = i ∧ i' = j
        · rw [if_pos h2]
          exact if_pos h2.symm
        · rw [if_neg h2, if_neg (fun h3 => h2 h3.symm)]
          refine if_neg ?_
          rintro ⟨rfl, rfl⟩
          exact h2 ⟨le_antisymm h hij, le_antisymm hij h⟩
    obtain ⟨s2, h2, h3, e2⟩ := ih (fun c hc => hcs c (List.mem_cons_of_mem _ hc)) s1 h1
      (Matrix.of fun i' j' => if (min i' j', max i' j') = (i, j) then g i j else Z i' j')
    refine ⟨s2, h2, fun _ => ?_, ?_⟩
    · by_cases hc : cs = []
      · subst hc
        refine ⟨s, i, j, hs, ?_⟩
        rw [e1]
        simp only [List.map_nil, kernelLoop, Prod.mk.injEq] at e2
        exact e2.1.symm
      · exact h3 hc
    · rw [List.map_cons, show castPair (i, j) = (((i : Nat) : Int), ((j : Nat) : Int)) from rfl,
        kernelLoop, hstep]
      simp only []
      rw [e2]
      congr 2
      refine mk_congr fun i' j' => ?_
      simp only [Matrix.of_apply, List.mem_cons]
      by_cases h : (min i' j', max i' j') ∈ cs
      · simp [h]
      · by_cases h' : (min i' j', max i' j') = (i, j)
        · rw [if_neg h, if_pos h', if_pos (Or.inl h')]
          rw [Prod.mk.injEq] at h'
          rw [h'.1, h'.2]
        · rw [if_neg h, if_neg h', if_neg (fun h3 => h3.elim h' h)]

theorem pyRange_finRange' (n : Nat) : pyRange 0 (n : Int) =
    (List.finRange n).map fun (i : Fin n) => ((i.1 : Nat) : Int) := by
  unfold pyRange
  rw [show ((n : Int) - 0).toNat = n by omega, ← List.map_coe_finRange_eq_range, List.map_map]
  apply List.map_congr_left
  intro x _
  simp

theorem pairs_range (m p : Nat) : pairs (pyRange 0 (m : Int)) (pyRange 0 (p : Int)) =
    ((List.finRange m).flatMap fun i => (List.finRange p).map fun j => (i, j)).map castPair := by
  unfold pairs
  rw [pyRange_finRange', pyRange_finRange', List.flatMap_map, List.map_flatMap]
  simp only [List.map_map]
  rfl

/-- `range(i, n)` as indices. -/
def indicesFrom {n : Nat} (i : Fin n) : List (Fin n) :=
  List.ofFn fun (t : Fin (n - i.1)) => (⟨i.1 + t.1, by omega⟩ : Fin n)

theorem mem_indicesFrom {n : Nat} (i j : Fin n) : j ∈ indicesFrom i ↔ i ≤ j := by
  unfold indicesFrom
  rw [List.mem_ofFn]
  constructor
  · rintro ⟨t, rfl⟩
    exact Fin.mk_le_mk.2 (Nat.le_add_right _ _)
  · intro h
    have h' : i.1 ≤ j.1 := h
    exact ⟨⟨j.1 - i.1, by omega⟩, Fin.ext (by simp only []; omega)⟩

theorem pyRange_from {n : Nat} (i : Fin n) : pyRange ((i : Nat) : Int) (n : Int) =
    (indicesFrom i).map fun (j : Fin n) => ((j.1 : Nat) : Int) := by
  unfold pyRange indicesFrom
  rw [show ((n : Int) - ((i : Nat) : Int)).toNat = n - i.1 by omega,
    ← List.map_coe_finRange_eq_range, List.map_map, List.map_ofFn, List.ofFn_eq_map]
  apply List.map_congr_left
  intro x _
  simp

theorem triangle_range (m : Nat) :
    ((pyRange 0 (m : Int)).flatMap fun i => (pyRange i (m : Int)).map fun j => (i, j)) =
    ((List.finRange m).flatMap fun i => (indicesFrom i).map fun j => (i, j)).map castPair := by
  rw [pyRange_finRange', List.flatMap_map, List.map_flatMap]
  refine List.flatMap_congr fun i _ => ?_
  rw [pyRange_from, List.map_map, List.map_map]
  rfl

end Verif
