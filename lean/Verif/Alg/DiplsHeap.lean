import Verif.Alg.KernelHeap
import Verif.Alg.DIPLS

/-!
# DIPLS on matrix objects

`src/wai/ma/algorithm/pls/_DIPLS.py` on objects, for an object whose `Center` objects are not configured yet (a new object, or one after
`reset`).  The statements of one component are in the order of the function model `diplsStep`.
-/

namespace Verif
open Mat Heap Transf

variable {α : Type}

/-! ## Attributes that may be `None` -/

/-- `None`, or an object that holds the value. -/
def HasO (h : Heap α) (o : Option Nat) (v : Option (Mat α)) : Prop :=
  (o = none ∧ v = none) ∨ ∃ r M, o = some r ∧ v = some M ∧ Has h r M

theorem HasO.mono {h h' : Heap α} {L : List Nat} {o : Option Nat} {v : Option (Mat α)} (hf : Frame L h h') (ho : HasO h o v)
    (hL : ∀ r, o = some r → r ∉ L) : HasO h' o v := by
  rcases ho with ho | ⟨r, M, e1, e2, h1⟩
  · exact .inl ho
  · exact .inr ⟨r, M, e1, e2, h1.mono hf (hL r e1)⟩

/-- Two parts of a program that change nothing. -/
theorem nil_trans {a b c : Heap α} (h1 : Frame [] a b) (h2 : Frame [] b c) : Frame [] a c := h1.trans h2 (by simp) (by simp)

/-- The object, if any, is one of those allocated from number `n` on. -/
def NewO (n : Nat) (h : Heap α) (o : Option Nat) (v : Option (Mat α)) : Prop := HasO h o v ∧ ∀ r, o = some r → n ≤ r

theorem NewO.mono {n : Nat} {h h' : Heap α} {o : Option Nat} {v : Option (Mat α)} (hf : Frame [] h h') (ho : NewO n h o v) : NewO n h' o v :=
  ⟨ho.1.mono hf fun _ _ => List.not_mem_nil, ho.2⟩

section dipls
variable [Field α] [HasSqrt α]

/-- `concat`, `_DIPLS.py` 204-215: the argument itself if there is nothing to append it to. -/
def hDiplsConcat (A : Option Nat) (a : Nat) : H α (Option Nat) :=
  match A with
  | none => pure (some a)
  | some A => do
    let B ← mPure2 Mat.concatAlongColumns A a
    pure (some B)

omit [Field α] [HasSqrt α] in
theorem hDiplsConcat_sim {n : Nat} {h : Heap α} {o : Option Nat} {v : Option (Mat α)} {a : Nat} {M : Mat α} (ho : NewO n h o v)
    (ha : Has h a M) (hn : n ≤ a) (hh : n ≤ h.nobj) : Heap.Sim [] h (hDiplsConcat o a) (diplsConcat v M) (NewO n) := by
  rcases ho.1 with ⟨rfl, rfl⟩ | ⟨r, R, rfl, rfl, hr⟩
  · refine Sim.ret ⟨.inr ⟨a, M, rfl, rfl, ha⟩, ?_⟩
    rintro r ⟨⟩
    exact hn
  · refine Sim.new (sim_pure2 (f := Mat.concatAlongColumns) hr ha) fun h1 b B f1 l1 g1 u1 a1 => ?_
    refine Sim.ret ⟨.inr ⟨b, B, rfl, rfl, a1⟩, ?_⟩
    rintro r ⟨⟩
    omega

/-- `_DIPLS.py` 162-163. -/
def hDiplsCov (n : Nat) (Z : Nat) : H α Nat := do
  let t ← mTranspose Z
  let a ← mPure2 Mat.mul t Z
  mPure1 (fun M => .ok (M.smul (1 / ((n : α) - 1)))) a

omit [HasSqrt α] in
theorem hDiplsCov_sim (n : Nat) {h : Heap α} {Z : Nat} {M : Mat α} (hZ : Has h Z M) :
    Heap.Sim [] h (hDiplsCov n Z) (diplsCov n M) (New h) := by
  unfold hDiplsCov diplsCov
  refine Sim.tmp (sim_transpose hZ) fun h1 t f1 l1 g1 u1 a1 => ?_
  refine Sim.new (sim_pure2 (f := Mat.mul) (N := M) a1 (by has)) fun h2 a A f2 l2 g2 u2 a2 => ?_
  exact (sim_pure1 (f := fun M => .ok (M.smul (1 / ((n : α) - 1)))) a2).post fun h3 b _ _ hn => ⟨by have := hn.1; omega, hn.2⟩

/-- Objects held by the variables of the training loop. -/
structure DiplsRefs where
  X : Nat
  Xs : Nat
  Xt : Nat
  y : Nat
  c : Option Nat
  T : Option Nat
  Ts : Option Nat
  Tt : Option Nat
  P : Option Nat
  Ps : Option Nat
  Pt : Option Nat
  W : Option Nat

/-- The variables hold the values of the function model, in objects allocated from number `n` on. -/
structure DiplsInv (n : Nat) (h : Heap α) (a : DiplsRefs) (v : DiplsVars α) : Prop where
  le : n ≤ h.nobj
  X : Has h a.X v.X
  Xs : Has h a.Xs v.Xs
  Xt : Has h a.Xt v.Xt
  y : Has h a.y v.y
  c : NewO n h a.c v.c
  T : NewO n h a.T v.T
  Ts : NewO n h a.Ts v.Ts
  Tt : NewO n h a.Tt v.Tt
  P : NewO n h a.P v.P
  Ps : NewO n h a.Ps v.Ps
  Pt : NewO n h a.Pt v.Pt
  W : NewO n h a.W v.W

omit [Field α] [HasSqrt α] in
theorem DiplsInv.mono {n : Nat} {h h' : Heap α} {a : DiplsRefs} {v : DiplsVars α} (hf : Frame [] h h') (hi : DiplsInv n h a v) :
    DiplsInv n h' a v :=
  ⟨le_trans hi.le hf.le, hi.X.mono hf List.not_mem_nil, hi.Xs.mono hf List.not_mem_nil, hi.Xt.mono hf List.not_mem_nil,
    hi.y.mono hf List.not_mem_nil, hi.c.mono hf, hi.T.mono hf, hi.Ts.mono hf, hi.Tt.mono hf, hi.P.mono hf, hi.Ps.mono hf, hi.Pt.mono hf,
    hi.W.mono hf⟩

/-- The weights, `_DIPLS.py` 160-168. -/
def hDiplsWeights (cfg : DiplsCfg α) (ns nt : Nat) (I X Xs Xt y : Nat) : H α Nat := do
  let yt ← mTranspose y
  let lhs ← mPure2 Mat.mul yt X
  let a ← hDiplsCov ns Xs
  let b ← hDiplsCov nt Xt
  let D ← mPure2 Mat.sub a b
  let q ← mScalar1 (fun M => .ok M.norm2Squared) y
  let D ← mPure1 (fun M => .ok (M.smul (cfg.lambda / (((2 : Nat) : α) * q)))) D
  let M ← mPure2 Mat.add I D
  let R ← mPure1 cfg.inv M
  let l ← mPure1 (fun M => .ok (M.div q)) lhs
  let w ← mPure2 Mat.mul l R
  let w ← mTranspose w
  mPure1 (fun M => M.normalized) w

theorem hDiplsWeights_sim (cfg : DiplsCfg α) {o : DiplsObj α} {h : Heap α} {I X Xs Xt y : Nat} {Iv : Mat α} {v : DiplsVars α}
    (hI : Has h I Iv) (hX : Has h X v.X) (hXs : Has h Xs v.Xs) (hXt : Has h Xt v.Xt) (hy : Has h y v.y) :
    Heap.Sim [] h (hDiplsWeights cfg o.ns o.nt I X Xs Xt y) (diplsWeights cfg o Iv v) (New h) := by
  unfold hDiplsWeights diplsWeights diplsDiff
  simp only [bind_assoc]
  have lI := hI.1
  have lX := hX.1
  have lXs := hXs.1
  have lXt := hXt.1
  have ly := hy.1
  refine Sim.tmp (sim_transpose hy) fun h1 yt f1 l1 g1 u1 a1 => ?_
  refine Sim.new (sim_pure2 (f := Mat.mul) (N := v.X) a1 (by has)) fun h2 lhs L f2 l2 g2 u2 a2 => ?_
  refine Sim.new (hDiplsCov_sim o.ns (M := v.Xs) (by has)) fun h3 a A f3 l3 g3 u3 a3 => ?_
  refine Sim.new (hDiplsCov_sim o.nt (M := v.Xt) (by has)) fun h4 b B f4 l4 g4 u4 a4 => ?_
  refine Sim.new (sim_pure2 (f := Mat.sub) (M := A) (by has) a4) fun h5 D Dv f5 l5 g5 u5 a5 => ?_
  refine Sim.numT (f := fun M => M.norm2Squared) (M := v.y) (by has) ?_
  refine Sim.tmp (sim_pure1 (f := fun M => .ok (M.smul (cfg.lambda / (((2 : Nat) : α) * v.y.norm2Squared)))) a5)
    fun h6 D6 f6 l6 g6 u6 a6 => ?_
  refine Sim.new (sim_pure2 (f := Mat.add) (M := Iv) (by has) a6) fun h7 M Mv f7 l7 g7 u7 a7 => ?_
  refine Sim.new (sim_pure1 (f := cfg.inv) a7) fun h8 R Rv f8 l8 g8 u8 a8 => ?_
  refine Sim.tmp (sim_pure1 (f := fun M => .ok (M.div v.y.norm2Squared)) (M := L) (by has)) fun h9 l f9 l9 g9 u9 a9 => ?_
  refine Sim.new (sim_pure2 (f := Mat.mul) (N := Rv) a9 (by has)) fun h10 w wv f10 l10 g10 u10 a10 => ?_
  refine Sim.tmp (sim_transpose a10) fun h11 w11 f11 l11 g11 u11 a11 => ?_
  exact (sim_pure1 (f := fun M => M.normalized) a11).post fun h12 b _ _ hn => ⟨by have := hn.1; omega, hn.2⟩

/-- `(t^T t).inverse().mul(A).mul(B)` with `A` made by transposing `a`, `_DIPLS.py` 175-178. -/
def hDiplsSolve (cfg : DiplsCfg α) (t a b : Nat) : H α Nat := do
  let t1 ← mTranspose t
  let g ← mPure2 Mat.mul t1 t
  let g ← mPure1 cfg.inv g
  let at' ← mTranspose a
  let r ← mPure2 Mat.mul g at'
  mPure2 Mat.mul r b

/-- Its value. -/
def diplsSolve (cfg : DiplsCfg α) (t a b : Mat α) : Except PyErr (Mat α) := do
  let g ← t.transpose.mul t
  let g ← cfg.inv g
  let r ← g.mul a.transpose
  r.mul b

omit [HasSqrt α] in
theorem hDiplsSolve_sim (cfg : DiplsCfg α) {h : Heap α} {t a b : Nat} {T A B : Mat α} (ht : Has h t T) (ha : Has h a A) (hb : Has h b B) :
    Heap.Sim [] h (hDiplsSolve cfg t a b) (diplsSolve cfg T A B) (New h) := by
  unfold hDiplsSolve diplsSolve
  have lt := ht.1
  have la := ha.1
  have lb := hb.1
  refine Sim.tmp (sim_transpose ht) fun h1 t1 f1 l1 g1 u1 a1 => ?_
  refine Sim.new (sim_pure2 (f := Mat.mul) (N := T) a1 (by has)) fun h2 g G f2 l2 g2 u2 a2 => ?_
  refine Sim.new (sim_pure1 (f := cfg.inv) a2) fun h3 g' G' f3 l3 g3 u3 a3 => ?_
  refine Sim.tmp (sim_transpose (M := A) (by has)) fun h4 t4 f4 l4 g4 u4 a4 => ?_
  refine Sim.new (sim_pure2 (f := Mat.mul) (M := G') (by has) a4) fun h5 r R f5 l5 g5 u5 a5 => ?_
  exact (sim_pure2 (f := Mat.mul) (N := B) a5 (by has)).post fun h6 b _ _ hn => ⟨by have := hn.1; omega, hn.2⟩

/-- `_DIPLS.py` 181-184. -/
def hDiplsDefl (Z t p : Nat) : H α Nat := do
  let a ← mPure2 Mat.mul t p
  mPure2 Mat.sub Z a

omit [HasSqrt α] in
theorem hDiplsDefl_sim {h : Heap α} {Z t p : Nat} {A T P : Mat α} (hZ : Has h Z A) (ht : Has h t T) (hp : Has h p P) :
    Heap.Sim [] h (hDiplsDefl Z t p) (diplsDefl A T P) (New h) := by
  unfold hDiplsDefl diplsDefl
  have lZ := hZ.1
  refine Sim.new (sim_pure2 (f := Mat.mul) ht hp) fun h1 a av f1 l1 g1 u1 a1 => ?_
  exact (sim_pure2 (f := Mat.sub) (M := A) (by has) a1).post fun h6 b _ _ hn => ⟨by have := hn.1; omega, hn.2⟩

/-- What one block yields. -/
structure BlockRefs where
  Z : Nat
  T : Option Nat
  P : Option Nat
  t : Nat

/-- One block. -/
def hDiplsBlock (cfg : DiplsCfg α) (w Z : Nat) (T P : Option Nat) : H α BlockRefs := do
  let t ← mPure2 Mat.mul Z w
  let p ← hDiplsSolve cfg t t Z
  let Z ← hDiplsDefl Z t p
  let T ← hDiplsConcat T t
  let pt ← mTranspose p
  let P ← hDiplsConcat P pt
  pure ⟨Z, T, P, t⟩

omit [HasSqrt α] in
theorem hDiplsBlock_sim (cfg : DiplsCfg α) {n : Nat} {h : Heap α} {w Z : Nat} {T P : Option Nat} {wv A : Mat α} {Tv Pv : Option (Mat α)}
    (hw : Has h w wv) (hZ : Has h Z A) (hT : NewO n h T Tv) (hP : NewO n h P Pv) (hn : n ≤ h.nobj) :
    Heap.Sim [] h (hDiplsBlock cfg w Z T P) (diplsBlock cfg wv A Tv Pv) fun h' b c =>
      New h h' b.Z c.1 ∧ NewO n h' b.T c.2.1 ∧ NewO n h' b.P c.2.2.1 ∧ New h h' b.t c.2.2.2 := by
  unfold hDiplsBlock diplsBlock
  have lw := hw.1
  have lZ := hZ.1
  refine Sim.new (sim_pure2 (f := Mat.mul) hZ hw) fun h1 t tv f1 l1 g1 u1 a1 => ?_
  refine Sim.new (hDiplsSolve_sim cfg (B := A) a1 a1 (by has)) fun h2 p pv f2 l2 g2 u2 a2 => ?_
  refine Sim.new (hDiplsDefl_sim (A := A) (T := tv) (by has) (by has) a2) fun h3 Z3 A3 f3 l3 g3 u3 a3 => ?_
  have hT3 := ((hT.mono f1).mono f2).mono f3
  have hP3 := ((hP.mono f1).mono f2).mono f3
  refine Sim.bind (hDiplsConcat_sim hT3 (M := tv) (by has) (by omega) (by omega)) (fun _ h => h) fun h4 T4 Tv4 f4 k4 => ?_
  have l4 := f4.le
  refine Sim.tmp (sim_transpose (M := pv) (by has)) fun h5 pt f5 l5 g5 u5 a5 => ?_
  refine Sim.bind (hDiplsConcat_sim ((hP3.mono f4).mono f5) a5 (by omega) (by omega)) (fun _ h => h) fun h6 P6 Pv6 f6 k6 => ?_
  have l6 := f6.le
  exact Sim.ret ⟨⟨by show h.nobj ≤ Z3; omega, by has⟩, (k4.mono f5).mono f6, k6, ⟨g1, by has⟩⟩

/-- One component, `_DIPLS.py` 159-197. -/
def hDiplsStep (cfg : DiplsCfg α) (ns nt : Nat) (I : Nat) (_a : Int) (s : DiplsRefs) : H α DiplsRefs := do
  let w ← hDiplsWeights cfg ns nt I s.X s.Xs s.Xt s.y
  let x ← hDiplsBlock cfg w s.X s.T s.P
  let xs ← hDiplsBlock cfg w s.Xs s.Ts s.Ps
  let xt ← hDiplsBlock cfg w s.Xt s.Tt s.Pt
  let ca ← hDiplsSolve cfg x.t s.y x.t
  let y ← hDiplsDefl s.y x.t ca
  let c ← hDiplsConcat s.c ca
  let W ← hDiplsConcat s.W w
  pure ⟨x.Z, xs.Z, xt.Z, y, c, x.T, xs.T, xt.T, x.P, xs.P, xt.P, W⟩

theorem hDiplsStep_sim (cfg : DiplsCfg α) {o : DiplsObj α} {n : Nat} {h : Heap α} {I : Nat} {Iv : Mat α} {s : DiplsRefs} {v : DiplsVars α}
    (hI : Has h I Iv) (hi : DiplsInv n h s v) (a : Int) :
    Heap.Sim [] h (hDiplsStep cfg o.ns o.nt I a s) (diplsStep cfg o Iv a v) (DiplsInv n) := by
  unfold hDiplsStep diplsStep
  have e2 : ∀ t y : Mat α, diplsCoef cfg t y = diplsSolve cfg t y t := fun _ _ => rfl
  simp only [e2]
  have hl := hi.le
  refine Sim.new (hDiplsWeights_sim cfg (o := o) hI hi.X hi.Xs hi.Xt hi.y) fun h1 w wv f1 l1 g1 u1 a1 => ?_
  have i1 := hi.mono f1
  refine Sim.bind (hDiplsBlock_sim cfg a1 i1.X i1.T i1.P i1.le) (fun _ h => h) ?_
  rintro h2 ⟨x, xT, xP, xt⟩ ⟨xv, xTv, xPv, xtv⟩ f2 ⟨b1, b2, b3, b4⟩
  dsimp only at b1 b2 b3 b4 ⊢
  have i2 := i1.mono f2
  have l2 := f2.le
  refine Sim.bind (hDiplsBlock_sim cfg (wv := wv) (by has) i2.Xs i2.Ts i2.Ps i2.le) (fun _ h => h) ?_
  rintro h3 ⟨s, sT, sP, st⟩ ⟨sv, sTv, sPv, stv⟩ f3 ⟨c1, c2, c3, c4⟩
  dsimp only at c1 c2 c3 c4 ⊢
  have i3 := i2.mono f3
  have l3 := f3.le
  refine Sim.bind (hDiplsBlock_sim cfg (wv := wv) (by has) i3.Xt i3.Tt i3.Pt i3.le) (fun _ h => h) ?_
  rintro h4 ⟨t, tT, tP, tt⟩ ⟨tv, tTv, tPv, ttv⟩ f4 ⟨d1, d2, d3, d4⟩
  dsimp only at d1 d2 d3 d4 ⊢
  have i4 := i3.mono f4
  have l4 := f4.le
  have m1 := (b1.2.mono f3 List.not_mem_nil).mono f4 List.not_mem_nil
  have m4 := (b4.2.mono f3 List.not_mem_nil).mono f4 List.not_mem_nil
  have mc := c1.2.mono f4 List.not_mem_nil
  have mw : Has h4 w wv := by has
  have n1 := m1.1
  have n4 := m4.1
  have nc := mc.1
  have nd := d1.2.1
  refine Sim.new (hDiplsSolve_sim cfg m4 i4.y m4) fun h5 ca cav f5 l5 g5 u5 a5 => ?_
  have i5 := i4.mono f5
  refine Sim.new (hDiplsDefl_sim i5.y (T := xtv) (by has) a5) fun h6 y yv f6 l6 g6 u6 a6 => ?_
  have i6 := i5.mono f6
  refine Sim.bind (hDiplsConcat_sim i6.c (M := cav) (by has) (by omega) (by omega)) (fun _ h => h) fun h7 c7 cv7 f7 k7 => ?_
  have i7 := i6.mono f7
  have l7 := f7.le
  refine Sim.bind (hDiplsConcat_sim i7.W (M := wv) (by has) (by omega) (by omega)) (fun _ h => h) fun h8 W8 Wv8 f8 k8 => ?_
  have l8 := f8.le
  have F : Frame [] h4 h8 := nil_trans (nil_trans (nil_trans f5 f6) f7) f8
  exact Sim.ret ⟨by omega, m1.mono F List.not_mem_nil, mc.mono F List.not_mem_nil, d1.2.mono F List.not_mem_nil,
    (a6.mono f7 List.not_mem_nil).mono f8 List.not_mem_nil, k7.mono f8, ((b2.mono f3).mono f4).mono F, (c2.mono f4).mono F, d2.mono F,
    ((b3.mono f3).mono f4).mono F, (c3.mono f4).mono F, d3.mono F, k8⟩

/-- Using an attribute that may be `None`. -/
def hUnNone (A : Option Nat) : H α Nat := H.lift (match A with
  | none => .error .attributeError
  | some A => .ok A)

omit [Field α] [HasSqrt α] in
theorem hUnNone_sim {h : Heap α} {o : Option Nat} {v : Option (Mat α)} (ho : HasO h o v) :
    Heap.Sim [] h (hUnNone o) (unNone v) fun h' b c => h' = h ∧ Has h b c := by
  intro hw
  rcases ho with ⟨rfl, rfl⟩ | ⟨r, M, rfl, rfl, hr⟩
  · exact ⟨.refl _ hw, .error _⟩
  · exact ⟨.refl _ hw, .ok ⟨rfl, hr⟩⟩

/-- The coefficients, `_DIPLS.py` 200. -/
def hDiplsCoefs (cfg : DiplsCfg α) (s : DiplsRefs) : H α Nat := do
  let W ← hUnNone s.W
  let P ← hUnNone s.P
  let c ← hUnNone s.c
  let p ← mTranspose P
  let g ← mPure2 Mat.mul p W
  let g ← mPure1 cfg.inv g
  let a ← mPure2 Mat.mul W g
  let c ← mTranspose c
  mPure2 Mat.mul a c

omit [HasSqrt α] in
theorem hDiplsCoefs_sim (cfg : DiplsCfg α) {n : Nat} {h : Heap α} {s : DiplsRefs} {v : DiplsVars α} (hi : DiplsInv n h s v) :
    Heap.Sim [] h (hDiplsCoefs cfg s) (diplsCoefs cfg v) (New h) := by
  unfold hDiplsCoefs diplsCoefs
  refine Sim.bind (hUnNone_sim hi.W.1) (fun _ h => h) ?_
  rintro _ W Wv - ⟨rfl, hW⟩
  refine Sim.bind (hUnNone_sim hi.P.1) (fun _ h => h) ?_
  rintro _ P Pv - ⟨rfl, hP⟩
  refine Sim.bind (hUnNone_sim hi.c.1) (fun _ h => h) ?_
  rintro h0 c cv - ⟨rfl, hc⟩
  have lW := hW.1
  have lP := hP.1
  have lc := hc.1
  refine Sim.tmp (sim_transpose hP) fun h1 p f1 l1 g1 u1 a1 => ?_
  refine Sim.new (sim_pure2 (f := Mat.mul) (N := Wv) a1 (by has)) fun h2 g G f2 l2 g2 u2 a2 => ?_
  refine Sim.new (sim_pure1 (f := cfg.inv) a2) fun h3 g' G' f3 l3 g3 u3 a3 => ?_
  refine Sim.new (sim_pure2 (f := Mat.mul) (M := Wv) (by has) a3) fun h4 a A f4 l4 g4 u4 a4 => ?_
  refine Sim.tmp (sim_transpose (M := cv) (by has)) fun h5 c5 f5 l5 g5 u5 a5 => ?_
  exact (sim_pure2 (f := Mat.mul) (M := A) (by has) a5).post fun h6 b _ _ hn => ⟨by have := hn.1; omega, hn.2⟩

/-- Objects of a trained object. -/
structure DiplsAttrs (α : Type) where
  strategy : Strategy
  xc : Nat
  xsc : Nat
  xtc : Nat
  b0 : α
  vars : DiplsRefs
  b : Nat

/-- The attributes of a trained object that are used later (the collected scores and loadings and `c` are kept but not read). -/
def diplsRepr : Repr α (DiplsModel α) (DiplsAttrs α) where
  refs a := [a.xc, a.xsc, a.xtc, a.b] ++ a.vars.W.toList
  On m h a := m.obj.strategy = some a.strategy ∧ (∃ s, m.obj.xc = some s ∧ cenRepr.On s h a.xc) ∧ (∃ s, m.obj.xsc = some s ∧ cenRepr.On s h a.xsc) ∧
    (∃ s, m.obj.xtc = some s ∧ cenRepr.On s h a.xtc) ∧ a.b0 = m.b0 ∧ HasO h a.vars.W m.vars.W ∧ Has h a.b m.b
  mono hf hr hm := by
    obtain ⟨m1, ⟨s2, e2, m2⟩, ⟨s3, e3, m3⟩, ⟨s4, e4, m4⟩, m5, m6, m7⟩ := hm
    refine ⟨m1, ⟨s2, e2, cenRepr.mono hf (fun r h => ?_) m2⟩, ⟨s3, e3, cenRepr.mono hf (fun r h => ?_) m3⟩,
      ⟨s4, e4, cenRepr.mono hf (fun r h => ?_) m4⟩, m5, m6.mono hf fun r h => hr r (by simp [h]), m7.mono hf (hr _ (by simp))⟩
    all_goals
      rw [List.mem_singleton.mp h]
      exact hr _ (by simp)

/-- Centring and training, `_DIPLS.py` 147-202. -/
def hDiplsFit (cfg : DiplsCfg α) (st : Strategy) (ns nt : Nat) (I Xs Xt X y : Nat) : H α (DiplsAttrs α) := do
  let x ← hCenterFit X
  let xs ← hCenterFit Xs
  let xt ← hCenterFit Xt
  let b0 ← mScalar1 (fun M => .ok M.meanAll) y
  let y ← mPure1 (fun M => .ok (M.subScalar b0)) y
  let v ← mLoop (hDiplsStep cfg ns nt I) (pyRange 0 cfg.K) ⟨x.2, xs.2, xt.2, y, none, none, none, none, none, none, none, none⟩
  let b ← hDiplsCoefs cfg v
  pure ⟨st, x.1, xs.1, xt.1, b0, v, b⟩

theorem hDiplsFit_sim (cfg : DiplsCfg α) {o : DiplsObj α} {st : Strategy} (ho : o.strategy = some st) (h1 : o.xc = some center.init)
    (h2 : o.xsc = some center.init) (h3 : o.xtc = some center.init) {h : Heap α} {I Xs Xt X y : Nat} {Iv A B C D : Mat α} (hI : Has h I Iv)
    (hXs : Has h Xs A) (hXt : Has h Xt B) (hX : Has h X C) (hy : Has h y D) :
    Heap.Sim [] h (hDiplsFit cfg st o.ns o.nt I Xs Xt X y) (diplsFit cfg o Iv A B C D) (diplsRepr.Fresh h) := by
  unfold hDiplsFit diplsFit
  rw [h1, h2, h3]
  have e : ∀ M : Mat α, optCentre (some center.init) M = cenFit M := fun _ => rfl
  simp only [e]
  have lI := hI.1
  have lXs := hXs.1
  have lXt := hXt.1
  have ly := hy.1
  refine Sim.bind (hCenterFit_sim' hX) (fun _ h => h) ?_
  rintro h4 ⟨mx, x⟩ ⟨sx, xv⟩ f4 ⟨b1, b2, b3⟩
  dsimp only at b1 b2 b3 ⊢
  have l4 := f4.le
  refine Sim.bind (hCenterFit_sim' (M := A) (by has)) (fun _ h => h) ?_
  rintro h5 ⟨ms, s⟩ ⟨ss, sv⟩ f5 ⟨c1, c2, c3⟩
  dsimp only at c1 c2 c3 ⊢
  have l5 := f5.le
  refine Sim.bind (hCenterFit_sim' (M := B) (by has)) (fun _ h => h) ?_
  rintro h6 ⟨mt, t⟩ ⟨ts, tv⟩ f6 ⟨d1, d2, d3⟩
  dsimp only at d1 d2 d3 ⊢
  have l6 := f6.le
  refine Sim.numT (f := fun M => M.meanAll) (M := D) (by has) ?_
  refine Sim.tmp (sim_pure1 (f := fun M => .ok (M.subScalar D.meanAll)) (M := D) (by has)) fun h7 y7 f7 l7 g7 u7 a7 => ?_
  have F : Frame [] h4 h7 := nil_trans (nil_trans f5 f6) f7
  have G : Frame [] h5 h7 := nil_trans f6 f7
  have N : ∀ n : Nat, NewO n h7 none none := fun n => ⟨.inl ⟨rfl, rfl⟩, by simp⟩
  have I7 : Has h7 I Iv := by has
  have inv : DiplsInv h.nobj h7 ⟨x, s, t, y7, none, none, none, none, none, none, none, none⟩
      ⟨xv, sv, tv, D.subScalar D.meanAll, none, none, none, none, none, none, none, none⟩ :=
    ⟨by omega, b1.2.mono F List.not_mem_nil, c1.2.mono G List.not_mem_nil, d1.2.mono f7 List.not_mem_nil, a7, N _, N _, N _, N _, N _, N _,
      N _, N _⟩
  refine Sim.bind (Sim.loop (h0 := h7) (DiplsInv h.nobj) _ (fun k _ h8 s8 v8 f8 hi =>
    hDiplsStep_sim cfg (o := o) (I7.mono f8 List.not_mem_nil) hi k) h7 _ _ (.refl _ f7.wf) inv) (fun _ h => h) fun h8 v vv f8 hi => ?_
  refine Sim.new (hDiplsCoefs_sim cfg hi) fun h9 b bv f9 l9 g9 u9 a9 => ?_
  have l8 := f8.le
  have F' : Frame [] h4 h9 := nil_trans (nil_trans F f8) f9
  have G' : Frame [] h5 h9 := nil_trans (nil_trans G f8) f9
  have H' : Frame [] h6 h9 := nil_trans (nil_trans f7 f8) f9
  refine Sim.ret ⟨⟨ho, ⟨_, rfl, cenRepr.mono F' (fun _ _ => List.not_mem_nil) b2⟩, ⟨_, rfl, cenRepr.mono G' (fun _ _ => List.not_mem_nil) c2⟩,
    ⟨_, rfl, cenRepr.mono H' (fun _ _ => List.not_mem_nil) d2⟩, rfl, (hi.W.mono f9).1, a9⟩, fun r hr => ?_⟩
  have hr' : r ∈ [mx, ms, mt, b] ++ v.W.toList := hr
  simp only [List.mem_append, List.mem_cons, List.not_mem_nil, or_false, Option.mem_toList] at hr'
  rcases hr' with (rfl | rfl | rfl | rfl) | hr'
  · omega
  · omega
  · omega
  · omega
  · exact hi.W.2 r hr'

/-- Source rows, target rows and training rows, `_DIPLS.py` 124-145. -/
def hDiplsSelect (st : Strategy) (ns : Nat) (X : Nat) : H α (Nat × Nat × Nat) := do
  let D ← getContents X
  let Xs ← mPure1 (fun M => M.getRows (.tuple 0 (ns : Int))) X
  let Xt ← mPure1 (fun M => M.getRows (.tuple (ns : Int) (D.rows : Int))) X
  match st with
  | .unsupervised => do
    let c ← mCopy Xs
    pure (Xs, Xt, c)
  | .supervised => pure (Xs, Xt, X)
  | .semisupervised => do
    let c ← mPure1 (fun M => M.getRows (.tuple 0 (2 * (ns : Int)))) X
    pure (Xs, Xt, c)

omit [Field α] [HasSqrt α] in
theorem hDiplsSelect_sim {o : DiplsObj α} {st : Strategy} (ho : o.strategy = some st) {h : Heap α} {X : Nat} {M : Mat α} (hX : Has h X M) :
    Heap.Sim [] h (hDiplsSelect st o.ns X) (diplsSelect o M) fun h' b c => Has h' b.1 c.1 ∧ Has h' b.2.1 c.2.1 ∧ Has h' b.2.2 c.2.2 := by
  unfold hDiplsSelect diplsSelect
  rw [ho]
  have lX := hX.1
  dsimp only
  refine Sim.look hX ?_
  refine Sim.new (sim_pure1 (f := fun M => M.getRows (.tuple 0 (o.ns : Int))) hX) fun h1 s S f1 l1 g1 u1 a1 => ?_
  refine Sim.new (sim_pure1 (f := fun N => N.getRows (.tuple (o.ns : Int) (M.rows : Int))) (M := M) (by has)) fun h2 t T f2 l2 g2 u2 a2 => ?_
  cases st with
  | unsupervised => exact Sim.tmp (sim_copy (M := S) (by has)) fun h3 c f3 l3 g3 u3 a3 => Sim.ret ⟨by has, by has, a3⟩
  | supervised => exact Sim.ret ⟨by has, by has, by has⟩
  | semisupervised =>
    exact Sim.new (sim_pure1 (f := fun M => M.getRows (.tuple 0 (2 * (o.ns : Int)))) (M := M) (by has))
      fun h3 c C f3 l3 g3 u3 a3 => Sim.ret ⟨by has, by has, a3⟩

/-- Result of training on objects. -/
inductive DiplsRes (α : Type) where
  | message (s : String)
  | trained (a : DiplsAttrs α)

/-- A message holds no matrix. -/
def diplsResRepr : Repr α (DiplsResult α) (DiplsRes α) where
  refs
    | .message _ => []
    | .trained a => diplsRepr (α := α).refs a
  On m h a := match m, a with
    | .message s, .message s' => s = s'
    | .trained m, .trained a => diplsRepr.On m h a
    | _, _ => False
  mono {L h h' a m} hf hr hm := by
    cases m with
    | message s => cases a with
      | message s' => exact hm
      | trained a => exact hm
    | trained m => cases a with
      | message s' => exact hm
      | trained a => exact diplsRepr.mono hf hr hm

/-- Training with at least two source and two target samples. -/
def hDiplsRun (cfg : DiplsCfg α) (st : Strategy) (ns nt : Nat) (I X y : Nat) : H α (DiplsRes α) := do
  let s ← hDiplsSelect st ns X
  let m ← hDiplsFit cfg st ns nt I s.1 s.2.1 s.2.2 y
  pure (.trained m)

/-- `do_perform_initialization`, `_DIPLS.py` 107-202. -/
def hDiplsPerform (cfg : DiplsCfg α) (st : Strategy) (ns nt : Nat) (X y : Nat) : H α (DiplsRes α) := do
  let D ← getContents X
  let I ← mCreate (Factory.eye (α := α) (D.cols : Int) (D.cols : Int))
  if ns = 0 ∨ nt = 0 then pure (.message msgNoInit)
  else if ns = 1 ∨ nt = 1 then pure (.message msgFew)
  else hDiplsRun cfg st ns nt I X y

/-- Training refines the function model. -/
theorem hDiplsPerform_sim (cfg : DiplsCfg α) {o : DiplsObj α} {st : Strategy} (ho : o.strategy = some st) (h1 : o.xc = some center.init)
    (h2 : o.xsc = some center.init) (h3 : o.xtc = some center.init) {h : Heap α} {X y : Nat} {A V : Mat α} (hX : Has h X A) (hy : Has h y V) :
    Heap.Sim [] h (hDiplsPerform cfg st o.ns o.nt X y) (diplsPerform cfg o A V) (diplsResRepr.Fresh h) := by
  unfold hDiplsPerform diplsPerform
  have lX := hX.1
  have ly := hy.1
  refine Sim.look hX ?_
  refine Sim.new (sim_create _) fun h4 I Iv f4 l4 g4 u4 a4 => ?_
  by_cases e1 : o.ns = 0 ∨ o.nt = 0
  · rw [if_pos e1, if_pos e1]
    exact Sim.ret ⟨rfl, fun r hr => absurd hr List.not_mem_nil⟩
  · rw [if_neg e1, if_neg e1]
    by_cases e2 : o.ns = 1 ∨ o.nt = 1
    · rw [if_pos e2, if_pos e2]
      exact Sim.ret ⟨rfl, fun r hr => absurd hr List.not_mem_nil⟩
    · rw [if_neg e2, if_neg e2]
      unfold hDiplsRun
      refine Sim.bind (hDiplsSelect_sim ho (M := A) (by has)) (fun _ h => h) ?_
      rintro h5 ⟨s, t, x⟩ ⟨sv, tv, xv⟩ f5 ⟨b1, b2, b3⟩
      dsimp only at b1 b2 b3 ⊢
      have l5 := f5.le
      refine Sim.bind (hDiplsFit_sim cfg ho h1 h2 h3 (Iv := Iv) (D := V) (by has) b1 b2 b3 (by has)) (fun _ h => h) fun h6 a m f6 hm => ?_
      exact Sim.ret ⟨hm.1, fun r hr => by have := hm.2 r hr; omega⟩

/-- `transform` of a trained object, `_DIPLS.py` 104-105. -/
def hDiplsTransformT (a : DiplsAttrs α) (Z : Nat) : H α Nat := do
  let z ← hCenterApply (· - ·) a.xc Z
  let W ← hUnNone a.vars.W
  mPure2 Mat.mul z W

/-- The means `predict` subtracts, `_DIPLS.py` 221-229. -/
def DiplsAttrs.recentre (a : DiplsAttrs α) : Nat :=
  match a.strategy with
  | .unsupervised => a.xtc
  | .supervised => a.xc
  | .semisupervised => a.xc

/-- `predict` of a trained object, `_DIPLS.py` 217-235. -/
def hDiplsPredictT (a : DiplsAttrs α) (Z : Nat) : H α Nat := do
  let z ← hCenterApply (· - ·) a.recentre Z
  let r ← mPure2 Mat.mul z a.b
  mPure1 (fun M => .ok (M.addScalar a.b0)) r

omit [HasSqrt α] in
theorem optCentre_configured {s : CenterState α} {h : Heap α} {a : Nat} (hs : cenRepr.On s h a) (M : Mat α) :
    optCentre (some s) M = (transform center M s).2 >>= fun B => .ok (s, B) := by
  obtain ⟨m, rfl, hm⟩ := hs
  rfl

omit [HasSqrt α] in
theorem hDiplsTransformT_sim {h : Heap α} {a : DiplsAttrs α} {m : DiplsModel α} (hm : diplsRepr.On m h a) {Z : Nat} {M : Mat α}
    (hZ : Has h Z M) : Heap.Sim [] h (hDiplsTransformT a Z) (diplsTransform m M) (New h) := by
  obtain ⟨-, ⟨s, e, hs⟩, -, -, -, hW, -⟩ := hm
  unfold hDiplsTransformT diplsTransform
  rw [e, optCentre_configured hs, bind_assoc]
  refine Sim.new (hCenterApply_sim hs hZ).1 fun h1 z zv f1 l1 g1 u1 a1 => ?_
  rw [except_bind_ok]
  refine Sim.bind (hUnNone_sim (hW.mono f1 fun _ _ => List.not_mem_nil)) (fun _ h => h) ?_
  rintro h2 W Wv - ⟨rfl, aW⟩
  exact (sim_pure2 (f := Mat.mul) a1 aW).post fun h6 b _ _ hn => ⟨by have := hn.1; omega, hn.2⟩

omit [HasSqrt α] in
theorem hDiplsPredictT_sim {h : Heap α} {a : DiplsAttrs α} {m : DiplsModel α} (hm : diplsRepr.On m h a) {Z : Nat} {M : Mat α}
    (hZ : Has h Z M) : Heap.Sim [] h (hDiplsPredictT a Z) (diplsPredict m M) (New h) := by
  obtain ⟨e0, ⟨s, e, hs⟩, -, ⟨s', e', hs'⟩, eb, -, hb⟩ := hm
  have key : ∃ c, cenRepr.On c h a.recentre ∧ diplsPredict m M = (optCentre (some c) M >>= fun z => z.2.mul m.b >>= fun r =>
      .ok (r.addScalar m.b0)) := by
    unfold diplsPredict DiplsAttrs.recentre
    rw [e0]
    cases a.strategy with
    | unsupervised => exact ⟨s', hs', by rw [e']⟩
    | supervised => exact ⟨s, hs, by rw [e]⟩
    | semisupervised => exact ⟨s, hs, by rw [e]⟩
  obtain ⟨c, hc, ep⟩ := key
  rw [ep, optCentre_configured hc, bind_assoc]
  unfold hDiplsPredictT
  have lb := hb.1
  refine Sim.new (hCenterApply_sim hc hZ).1 fun h1 z zv f1 l1 g1 u1 a1 => ?_
  rw [except_bind_ok]
  refine Sim.new (sim_pure2 (f := Mat.mul) (N := m.b) a1 (by has)) fun h2 r rv f2 l2 g2 u2 a2 => ?_
  rw [eb]
  exact (sim_pure1 (f := fun M => .ok (M.addScalar m.b0)) a2).post fun h6 b _ _ hn => ⟨by have := hn.1; omega, hn.2⟩

/-- `predict` and `transform` of an object whose training returned a message raise, `_AbstractPLS.py` 157-158 and 179-180. -/
def hDiplsUse (f : DiplsAttrs α → Nat → H α Nat) (r : DiplsRes α) (Z : Nat) : H α Nat :=
  match r with
  | .message _ => H.lift (.error .runtimeError)
  | .trained a => f a Z

/-- Its value. -/
def diplsUse (f : DiplsModel α → Mat α → Except PyErr (Mat α)) (r : DiplsResult α) (Z : Mat α) : Except PyErr (Mat α) :=
  match r with
  | .message _ => .error .runtimeError
  | .trained m => f m Z

omit [Field α] [HasSqrt α] in
theorem hDiplsUse_sim {fh : DiplsAttrs α → Nat → H α Nat} {ff : DiplsModel α → Mat α → Except PyErr (Mat α)}
    (hf : ∀ h a m Z C, diplsRepr.On m h a → Has h Z C → Heap.Sim [] h (fh a Z) (ff m C) (New h)) {h : Heap α} {r : DiplsRes α}
    {m : DiplsResult α} (hm : diplsResRepr.On m h r) {Z : Nat} {M : Mat α} (hZ : Has h Z M) :
    Heap.Sim [] h (hDiplsUse fh r Z) (diplsUse ff m M) (New h) := by
  cases m with
  | message s => cases r with
    | message s' => exact fun hw => ⟨.refl _ hw, .error _⟩
    | trained a => exact hm.elim
  | trained m => cases r with
    | message s' => exact hm.elim
    | trained a => exact hf h a m Z M hm hZ

/-! ## The three ways to train -/

/-- `initialize_unsupervised`, `_DIPLS.py` 237-255; the arguments are the source predictors, target predictors, source response. -/
def hDiplsUnsupervised (cfg : DiplsCfg α) (Xs Xt ys : Nat) : H α (DiplsRes α) := do
  let S ← getContents Xs
  let T ← getContents Xt
  let X ← mPure2 Mat.concatAlongRows Xs Xt
  hDiplsPerform cfg .unsupervised S.rows T.rows X ys

/-- `initialize_supervised`, `_DIPLS.py` 257-277. -/
def hDiplsSupervised (cfg : DiplsCfg α) (Xs Xt ys yt : Nat) : H α (DiplsRes α) := do
  let S ← getContents Xs
  let T ← getContents Xt
  let X ← mPure2 Mat.concatAlongRows Xs Xt
  let y ← mPure2 Mat.concatAlongRows ys yt
  hDiplsPerform cfg .supervised S.rows T.rows X y

/-- `initialize_semisupervised`, `_DIPLS.py` 279-303. -/
def hDiplsSemisupervised (cfg : DiplsCfg α) (Xs Xt Xu ys yt : Nat) : H α (DiplsRes α) := do
  let S ← getContents Xs
  let T ← getContents Xt
  let X ← mPure2 Mat.concatAlongRows Xs Xt
  let X ← mPure2 Mat.concatAlongRows X Xu
  let y ← mPure2 Mat.concatAlongRows ys yt
  hDiplsPerform cfg .semisupervised S.rows T.rows X y

theorem hDiplsUnsupervised_sim (cfg : DiplsCfg α) {h : Heap α} {Xs Xt ys : Nat} {A B C : Mat α} (h1 : Has h Xs A) (h2 : Has h Xt B)
    (h3 : Has h ys C) : Heap.Sim [] h (hDiplsUnsupervised cfg Xs Xt ys) (diplsUnsupervised cfg diplsFresh A B C) (diplsResRepr.Fresh h) := by
  unfold hDiplsUnsupervised diplsUnsupervised
  refine Sim.look h1 (Sim.look h2 ?_)
  refine Sim.new (sim_pure2 (f := Mat.concatAlongRows) h1 h2) fun h4 X Xv f4 l4 g4 u4 a4 => ?_
  refine (hDiplsPerform_sim cfg (o := { diplsFresh with ns := A.rows, nt := B.rows, strategy := some .unsupervised }) (V := C) rfl rfl rfl rfl
    a4 (by has)).post fun h5 b c f5 hb => ⟨hb.1, fun r hr => by have := hb.2 r hr; omega⟩

theorem hDiplsSupervised_sim (cfg : DiplsCfg α) {h : Heap α} {Xs Xt ys yt : Nat} {A B C D : Mat α} (h1 : Has h Xs A) (h2 : Has h Xt B)
    (h3 : Has h ys C) (h4 : Has h yt D) :
    Heap.Sim [] h (hDiplsSupervised cfg Xs Xt ys yt) (diplsSupervised cfg diplsFresh A B C D) (diplsResRepr.Fresh h) := by
  unfold hDiplsSupervised diplsSupervised
  refine Sim.look h1 (Sim.look h2 ?_)
  refine Sim.new (sim_pure2 (f := Mat.concatAlongRows) h1 h2) fun h5 X Xv f5 l5 g5 u5 a5 => ?_
  refine Sim.new (sim_pure2 (f := Mat.concatAlongRows) (M := C) (N := D) (by has) (by has)) fun h6 y yv f6 l6 g6 u6 a6 => ?_
  refine (hDiplsPerform_sim cfg (o := { diplsFresh with ns := A.rows, nt := B.rows, strategy := some .supervised }) (A := Xv) rfl rfl rfl rfl
    (by has) a6).post fun h7 b c f7 hb => ⟨hb.1, fun r hr => by have := hb.2 r hr; omega⟩

theorem hDiplsSemisupervised_sim (cfg : DiplsCfg α) {h : Heap α} {Xs Xt Xu ys yt : Nat} {A B U C D : Mat α} (h1 : Has h Xs A)
    (h2 : Has h Xt B) (hu : Has h Xu U) (h3 : Has h ys C) (h4 : Has h yt D) :
    Heap.Sim [] h (hDiplsSemisupervised cfg Xs Xt Xu ys yt) (diplsSemisupervised cfg diplsFresh A B U C D) (diplsResRepr.Fresh h) := by
  unfold hDiplsSemisupervised diplsSemisupervised
  refine Sim.look h1 (Sim.look h2 ?_)
  refine Sim.new (sim_pure2 (f := Mat.concatAlongRows) h1 h2) fun h5 X Xv f5 l5 g5 u5 a5 => ?_
  refine Sim.new (sim_pure2 (f := Mat.concatAlongRows) (N := U) a5 (by has)) fun h6 X6 Xv6 f6 l6 g6 u6 a6 => ?_
  refine Sim.new (sim_pure2 (f := Mat.concatAlongRows) (M := C) (N := D) (by has) (by has)) fun h7 y yv f7 l7 g7 u7 a7 => ?_
  refine (hDiplsPerform_sim cfg (o := { diplsFresh with ns := A.rows, nt := B.rows, strategy := some .semisupervised }) (A := Xv6) rfl rfl rfl
    rfl (by has) a7).post fun h8 b c f8 hb => ⟨hb.1, fun r hr => by have := hb.2 r hr; omega⟩

end dipls

end Verif
