import Verif.Core.Utils
import Mathlib.Order.Basic
import Mathlib.Tactic.Order
import Mathlib.Tactic.Push

/-! # Helper lemmas about `core/utils.py` -/

namespace Verif.Utils
open Verif

variable {α : Type}

theorem bind_ok_iff {β γ : Type} {x : Except PyErr β} {f : β → Except PyErr γ} {c : γ} :
    (x >>= f) = .ok c ↔ ∃ b, x = .ok b ∧ f b = .ok c := by
  cases x with
  | error e => constructor
               · intro h; cases h
               · rintro ⟨b, h, _⟩; cases h
  | ok b => constructor
            · intro h; exact ⟨b, rfl, h⟩
            · rintro ⟨b', h, h'⟩; cases h; exact h'

/-! ## Every successful run is a permutation -/

theorem swap_perm {index index' : List Nat} {l r : Int} (h : swap index l r = .ok index') :
    index'.Perm index := by
  unfold swap item put at h
  simp only [bind_ok_iff, pure, Except.pure, Except.ok.injEq] at h
  obtain ⟨help, ⟨k, hk, rfl⟩, v, ⟨k', hk', rfl⟩, ind, ⟨k'', hk'', rfl⟩, k3, hk3, rfl⟩ := h
  rw [hk] at hk''
  cases hk''
  have hlen : (index.set ↑k (index.get k')).length = index.length := List.length_set
  have : (k3 : Nat) = (k' : Nat) := by
    have a := pyIndex_ok_iff.1 hk'
    have b := pyIndex_ok_iff.1 hk3
    omega
  rw [this]
  exact List.set_set_perm k.2 k'.2

theorem conditionalSwap_perm {cmp : Cmp α} {array : List α} {index index' : List Nat} {l r : Int}
    (h : conditionalSwap cmp array index l r = .ok index') : index'.Perm index := by
  unfold conditionalSwap at h
  simp only [bind_ok_iff] at h
  obtain ⟨a, _, b, _, h⟩ := h
  split at h
  · exact swap_perm h
  · cases h; exact List.Perm.refl _

theorem sortLRC_perm {cmp : Cmp α} {array : List α} {index : List Nat} {l r : Int} {res}
    (h : sortLeftRightAndCenter cmp array index l r = .ok res) : res.1.Perm index := by
  unfold sortLeftRightAndCenter at h
  simp only [bind_ok_iff] at h
  obtain ⟨i1, h1, i2, h2, i3, h3, h4⟩ := h
  cases h4
  exact (conditionalSwap_perm h3).trans ((conditionalSwap_perm h2).trans (conditionalSwap_perm h1))

theorem partitionLoop_perm {cmp : Cmp α} {array : List α} {pivot : α} {big fuel : Nat}
    {index : List Nat} {l r : Int} {res}
    (h : partitionLoop cmp array pivot big fuel index l r = .ok res) : res.1.Perm index := by
  induction fuel generalizing index l r with
  | zero => cases h
  | succ f ih =>
    unfold partitionLoop at h
    simp only [bind_ok_iff] at h
    obtain ⟨l', _, r', _, h⟩ := h
    split at h
    · cases h; exact List.Perm.refl _
    · simp only [bind_ok_iff] at h
      obtain ⟨i1, h1, h⟩ := h
      exact (ih h).trans (swap_perm h1)

theorem partitionIntLoop_perm {cmp : Cmp α} {array : List α} {pivot : α} {big fuel : Nat}
    {index : List Nat} {l r : Int} {res}
    (h : partitionIntLoop cmp array pivot big fuel index l r = .ok res) : res.1.Perm index := by
  induction fuel generalizing index l r with
  | zero => cases h
  | succ f ih =>
    unfold partitionIntLoop at h
    split at h
    · simp only [bind_ok_iff] at h
      obtain ⟨l', _, r', _, h⟩ := h
      split at h
      · simp only [bind_ok_iff] at h
        obtain ⟨i1, h1, h⟩ := h
        exact (ih h).trans (swap_perm h1)
      · exact ih h
    · cases h; exact List.Perm.refl _

theorem partition_perm {cmp : Cmp α} {isReal : Bool} {fuel : Nat} {array : List α}
    {index : List Nat} {l r : Int} {pivot : α} {res}
    (h : partition cmp isReal fuel array index l r pivot = .ok res) : res.1.Perm index := by
  unfold partition at h
  split at h
  · exact partitionLoop_perm h
  · unfold partitionInt at h
    simp only [bind_ok_iff] at h
    obtain ⟨p, _, ⟨i1, l', r'⟩, h1, h⟩ := h
    have := partitionIntLoop_perm h1
    simp only [] at h
    split at h
    · simp only [bind_ok_iff] at h
      obtain ⟨a, _, h⟩ := h
      split at h <;> (cases h; exact this)
    · cases h; exact this

theorem quickSort_perm {cmp : Cmp α} {isReal : Bool} {big fuel : Nat} {array : List α}
    {index index' : List Nat} {l r : Int}
    (h : quickSort cmp isReal big array fuel index l r = .ok index') : index'.Perm index := by
  induction fuel generalizing index index' l r with
  | zero => cases h
  | succ f ih =>
    unfold quickSort at h
    simp only [] at h
    split at h
    · cases h; exact List.Perm.refl _
    split at h
    · exact conditionalSwap_perm h
    split at h
    · simp only [bind_ok_iff] at h
      obtain ⟨i1, h1, i2, h2, h3⟩ := h
      exact (conditionalSwap_perm h3).trans ((conditionalSwap_perm h2).trans (conditionalSwap_perm h1))
    · simp only [bind_ok_iff] at h
      obtain ⟨⟨i1, c⟩, h1, i2, h2, p, _, ⟨i3, c'⟩, h3, i4, h4, i5, h5, h6⟩ := h
      have e1 := sortLRC_perm h1
      have e3 := partition_perm h3
      exact (ih h6).trans <| (ih h5).trans <| (swap_perm h4).trans <| e3.trans <|
        (swap_perm h2).trans e1

theorem sort_perm {cmp : Cmp α} {isReal : Bool} {fuel : Nat} {array : List α} {index : List Nat}
    (h : sort cmp isReal fuel array = .ok index) : index.Perm (List.range array.length) := by
  unfold sort at h
  simp only [] at h
  split at h
  · exact quickSort_perm h
  · cases h; exact List.Perm.refl _

/-! ## Element access through the index -/

section X
variable (array : List α) (d : α)

/-- The element at position `k` of the index. -/
def X (index : List Nat) (k : Nat) : α := array.getD (index.getD k 0) d

/-- The index only mentions valid positions. -/
def Valid (index : List Nat) : Prop := ∀ i ∈ index, i < array.length

variable {array d}

theorem Valid.perm {i i' : List Nat} (h : Valid array i) (hp : i'.Perm i) : Valid array i' :=
  fun k hk => h k (hp.mem_iff.1 hk)

theorem item_ok {β : Type} {l : List β} {k : Nat} (h : k < l.length) : item l (k : Int) = .ok l[k] := by
  unfold item
  rw [pyIndex_natCast k h]
  rfl

theorem elem_ok {index : List Nat} (hv : Valid array index) {k : Nat} (hk : k < index.length) :
    elem array index (k : Int) = .ok (X array d index k) := by
  unfold elem
  rw [item_ok hk]
  show item array ((index[k] : Nat) : Int) = _
  have h1 := hv index[k] (List.getElem_mem hk)
  rw [item_ok h1]
  unfold X
  simp [List.getD_eq_getElem?_getD, List.getElem?_eq_getElem hk, List.getElem?_eq_getElem h1]

theorem swap_ok {index : List Nat} {i j : Nat} (hi : i < index.length) (hj : j < index.length) :
    ∃ index', swap index (i : Int) (j : Int) = .ok index' ∧
      ∀ k, X array d index' k = if k = j then X array d index i
        else if k = i then X array d index j else X array d index k := by
  refine ⟨(index.set i index[j]).set j index[i], ?_, ?_⟩
  · unfold swap put
    rw [item_ok hi, item_ok hj]
    simp only [bind, Except.bind]
    rw [pyIndex_natCast i hi]
    simp only [pure, Except.pure]
    rw [pyIndex_natCast j (by rw [List.length_set]; exact hj)]
  · intro k
    unfold X
    simp only [List.getD_eq_getElem?_getD]
    by_cases hkj : k = j
    · subst hkj
      rw [if_pos rfl, List.getElem?_set_self (by simpa using hj), List.getElem?_eq_getElem hi]
    · rw [if_neg hkj, List.getElem?_set_ne (Ne.symm hkj)]
      by_cases hki : k = i
      · subst hki
        rw [if_pos rfl, List.getElem?_set_self hi, List.getElem?_eq_getElem hj]
      · rw [if_neg hki, List.getElem?_set_ne (Ne.symm hki)]

end X

/-! ## A comparison with NaN -/

variable {κ : Type} [LinearOrder κ]

/-- Comparison of floats: `none` is NaN, everything else is linearly ordered. -/
def gtKey : Option κ → Option κ → Bool
  | some x, some y => decide (y < x)
  | _, _ => false

/-- The operators of a type whose elements have an optional key. -/
def keyCmp (key : α → Option κ) : Cmp α := ⟨fun a b => gtKey (key b) (key a), fun a b => gtKey (key a) (key b)⟩

variable {key : α → Option κ}

theorem keyCmp_lt (a b : α) : (keyCmp key).lt a b = (keyCmp key).gt b a := rfl

theorem gt_irrefl (a : α) : (keyCmp key).gt a a = false := by
  show gtKey (key a) (key a) = false
  cases key a <;> simp [gtKey]

theorem gt_asymm {a b : α} (h : (keyCmp key).gt a b = true) : (keyCmp key).gt b a = false := by
  change gtKey (key a) (key b) = true at h
  show gtKey (key b) (key a) = false
  cases h1 : key a <;> cases h2 : key b <;> simp_all [gtKey]
  exact le_of_lt h

/-- Without NaN, "not greater" is transitive. -/
theorem ngt_trans {a b c : α} (hb : key b ≠ none) (h1 : (keyCmp key).gt a b = false)
    (h2 : (keyCmp key).gt b c = false) : (keyCmp key).gt a c = false := by
  change gtKey (key a) (key b) = false at h1
  change gtKey (key b) (key c) = false at h2
  show gtKey (key a) (key c) = false
  cases h3 : key a <;> cases h4 : key b <;> cases h5 : key c <;> simp_all [gtKey]
  exact le_trans h1 h2

/-- Three conditional swaps put three elements in order as far as the comparisons can tell. -/
theorem med3 (p q s : α) :
    let g := (keyCmp key).gt
    let p1 := if g p q = true then q else p
    let q1 := if g p q = true then p else q
    let p2 := if g p1 s = true then s else p1
    let s2 := if g p1 s = true then p1 else s
    let q3 := if g q1 s2 = true then s2 else q1
    let s3 := if g q1 s2 = true then q1 else s2
    g p2 q3 = false ∧ g q3 s3 = false := by
  intro g p1 q1 p2 s2 q3 s3
  have as : ∀ a b, g a b = true → g b a = false := fun a b h => gt_asymm h
  have nt : ∀ a b c, key b ≠ none → g a b = false → g b c = false → g a c = false :=
    fun a b c hb h1 h2 => ngt_trans hb h1 h2
  have nn : ∀ a b, g a b = true → key a ≠ none ∧ key b ≠ none := by
    intro a b h
    change gtKey (key a) (key b) = true at h
    constructor <;> intro hn <;> rw [hn] at h
    · cases h
    · cases hk : key a <;> rw [hk] at h <;> cases h
  have nl : ∀ a b, key a = none → g a b = false := by
    intro a b h
    show gtKey (key a) (key b) = false
    rw [h]; rfl
  simp only [p1, q1, p2, s2, q3, s3]
  by_cases h1 : g p q = true
  · simp only [h1, if_true]
    have n1 := nn _ _ h1
    have a1 := as _ _ h1
    by_cases h2 : g q s = true
    · simp only [h2, if_true]
      have n2 := nn _ _ h2
      have a2 := as _ _ h2
      simp only [h1, if_true]
      exact ⟨a2, a1⟩
    · simp only [h2, if_false, Bool.false_eq_true]
      have h2' : g q s = false := by simpa using h2
      by_cases h3 : g p s = true
      · simp only [h3, if_true]; exact ⟨h2', as _ _ h3⟩
      · simp only [h3, if_false, Bool.false_eq_true]; exact ⟨a1, by simp⟩
  · simp only [h1, if_false, Bool.false_eq_true]
    have h1' : g p q = false := by simpa using h1
    by_cases h2 : g p s = true
    · simp only [h2, if_true]
      have n2 := nn _ _ h2
      have a2 := as _ _ h2
      by_cases h3 : g q p = true
      · simp only [h3, if_true]; exact ⟨a2, as _ _ h3⟩
      · simp only [h3, if_false, Bool.false_eq_true]
        exact ⟨nt _ _ _ n2.1 a2 h1', trivial⟩
    · simp only [h2, if_false, Bool.false_eq_true]
      have h2' : g p s = false := by simpa using h2
      by_cases h3 : g q s = true
      · simp only [h3, if_true]; exact ⟨h2', as _ _ h3⟩
      · simp only [h3, if_false, Bool.false_eq_true]
        exact ⟨h1', by simp⟩

/-! ## The real-number branch succeeds and sorts -/

section run
variable (array : List α) (d : α)

/-- `index'` is a rearrangement of `index` inside the positions `lo..hi`. -/
structure R (lo hi : Nat) (index index' : List Nat) : Prop where
  perm : index'.Perm index
  out : ∀ k, k < lo ∨ hi < k → X array d index' k = X array d index k
  pres : ∀ Q : α → Prop, (∀ k, lo ≤ k → k ≤ hi → Q (X array d index k)) →
    ∀ k, lo ≤ k → k ≤ hi → Q (X array d index' k)

variable {array d}

theorem R.refl (lo hi : Nat) (index : List Nat) : R array d lo hi index index :=
  ⟨List.Perm.refl _, fun _ _ => rfl, fun _ h => h⟩

theorem R.trans {lo hi : Nat} {a b c : List Nat} (h1 : R array d lo hi a b)
    (h2 : R array d lo hi b c) : R array d lo hi a c :=
  ⟨h2.perm.trans h1.perm, fun k hk => (h2.out k hk).trans (h1.out k hk),
    fun Q h => h2.pres Q (h1.pres Q h)⟩

theorem R.mono {lo hi lo' hi' : Nat} {a b : List Nat} (h : R array d lo hi a b) (h1 : lo' ≤ lo)
    (h2 : hi ≤ hi') : R array d lo' hi' a b := by
  refine ⟨h.perm, fun k hk => h.out k (by omega), fun Q hQ k hk1 hk2 => ?_⟩
  by_cases hk : lo ≤ k ∧ k ≤ hi
  · exact h.pres Q (fun k' a b => hQ k' (by omega) (by omega)) k hk.1 hk.2
  · rw [h.out k (by omega)]; exact hQ k hk1 hk2

theorem swap_R {index : List Nat} {lo hi i j : Nat} (hi1 : lo ≤ i) (hi2 : i ≤ hi) (hj1 : lo ≤ j)
    (hj2 : j ≤ hi) (hlen : hi < index.length) :
    ∃ index', swap index (i : Int) (j : Int) = .ok index' ∧ R array d lo hi index index' ∧
      ∀ k, X array d index' k = if k = j then X array d index i
        else if k = i then X array d index j else X array d index k := by
  obtain ⟨index', h1, h2⟩ := swap_ok (array := array) (d := d) (i := i) (j := j) (index := index)
    (by omega) (by omega)
  refine ⟨index', h1, ⟨swap_perm h1, ?_, ?_⟩, h2⟩
  · intro k hk; rw [h2, if_neg (by omega), if_neg (by omega)]
  · intro Q hQ k hk1 hk2
    rw [h2]
    split
    · exact hQ i hi1 hi2
    split
    · exact hQ j hj1 hj2
    · exact hQ k hk1 hk2

theorem condSwap_R {cmp : Cmp α} {index : List Nat} (hv : Valid array index) {lo hi i j : Nat}
    (hi1 : lo ≤ i) (hi2 : i ≤ hi) (hj1 : lo ≤ j) (hj2 : j ≤ hi) (hlen : hi < index.length) :
    ∃ index', conditionalSwap cmp array index (i : Int) (j : Int) = .ok index' ∧
      R array d lo hi index index' ∧
      ∀ k, X array d index' k =
        if cmp.gt (X array d index i) (X array d index j) = true then
          (if k = j then X array d index i else if k = i then X array d index j else X array d index k)
        else X array d index k := by
  unfold conditionalSwap
  rw [elem_ok (d := d) hv (show i < index.length by omega),
    elem_ok (d := d) hv (show j < index.length by omega)]
  simp only [bind, Except.bind]
  by_cases hg : cmp.gt (X array d index i) (X array d index j) = true
  · rw [if_pos hg]
    simp only [hg, if_true]
    exact swap_R hi1 hi2 hj1 hj2 hlen
  · rw [if_neg hg]
    exact ⟨index, rfl, R.refl _ _ _, fun k => by rw [if_neg hg]⟩

theorem advance_ok {index : List Nat} (hv : Valid array index) {pivot : α} {cmp : Cmp α}
    {m : Nat} (hm : m < index.length) (hstop : cmp.lt (X array d index m) pivot = false) :
    ∀ (fuel l : Nat), l ≤ m → m - l < fuel →
    ∃ l' : Nat, advance cmp array index pivot fuel (l : Int) = .ok (l' : Int) ∧ l ≤ l' ∧ l' ≤ m ∧
      cmp.lt (X array d index l') pivot = false ∧
      ∀ k, l ≤ k → k < l' → cmp.lt (X array d index k) pivot = true := by
  intro fuel
  induction fuel with
  | zero => intro l _ h; omega
  | succ f ih =>
    intro l hl hf
    unfold advance
    rw [elem_ok (d := d) hv (show l < index.length by omega)]
    simp only [bind, Except.bind]
    by_cases hlt : cmp.lt (X array d index l) pivot = true
    · rw [if_pos hlt]
      have hne : l ≠ m := by rintro rfl; rw [hstop] at hlt; cases hlt
      obtain ⟨l', h1, h2, h3, h4, h5⟩ := ih (l + 1) (by omega) (by omega)
      refine ⟨l', by exact_mod_cast h1, by omega, h3, h4, fun k hk1 hk2 => ?_⟩
      by_cases hkl : k = l
      · rw [hkl]; exact hlt
      · exact h5 k (by omega) hk2
    · rw [if_neg hlt]
      exact ⟨l, rfl, le_rfl, hl, by simpa using hlt, fun k a b => by omega⟩

theorem retreat_ok {index : List Nat} (hv : Valid array index) {pivot : α} {cmp : Cmp α}
    {m : Nat} (hstop : cmp.gt (X array d index m) pivot = false) :
    ∀ (fuel r : Nat), m ≤ r → r < index.length → r - m < fuel →
    ∃ r' : Nat, retreat cmp array index pivot fuel (r : Int) = .ok (r' : Int) ∧ m ≤ r' ∧ r' ≤ r ∧
      cmp.gt (X array d index r') pivot = false ∧
      ∀ k, r' < k → k ≤ r → cmp.gt (X array d index k) pivot = true := by
  intro fuel
  induction fuel with
  | zero => intro r _ _ h; omega
  | succ f ih =>
    intro r hr hlen hf
    unfold retreat
    rw [elem_ok (d := d) hv hlen]
    simp only [bind, Except.bind]
    by_cases hgt : cmp.gt (X array d index r) pivot = true
    · rw [if_pos hgt]
      have hne : r ≠ m := by rintro rfl; rw [hstop] at hgt; cases hgt
      obtain ⟨r', h1, h2, h3, h4, h5⟩ := ih (r - 1) (by omega) (by omega) (by omega)
      have hcast : ((r - 1 : Nat) : Int) = (r : Int) - 1 := by omega
      rw [hcast] at h1
      refine ⟨r', h1, h2, by omega, h4, fun k hk1 hk2 => ?_⟩
      by_cases hkr : k = r
      · rw [hkr]; exact hgt
      · exact h5 k hk1 (by omega)
    · rw [if_neg hgt]
      exact ⟨r, rfl, hr, le_rfl, by simpa using hgt, fun k a b => by omega⟩

theorem partitionLoop_ok {pivot : α} {big left right : Nat} :
    ∀ (fuel : Nat) (index : List Nat) (l r : Nat), Valid array index → right < index.length →
    right < big → left ≤ l → l < r → r + 1 ≤ right → r - l < fuel →
    (∀ k, left ≤ k → k ≤ l → (keyCmp key).gt (X array d index k) pivot = false) →
    (∀ k, r ≤ k → k ≤ right → (keyCmp key).gt pivot (X array d index k) = false) →
    ∃ index' c : _, partitionLoop (keyCmp key) array pivot big fuel index (l : Int) (r : Int) =
        .ok (index', ((c : Nat) : Int)) ∧ R array d (left + 1) (right - 2) index index' ∧
      left + 1 ≤ c ∧ c + 1 ≤ right ∧
      (∀ k, left ≤ k → k < c → (keyCmp key).gt (X array d index' k) pivot = false) ∧
      (∀ k, c ≤ k → k ≤ right → (keyCmp key).gt pivot (X array d index' k) = false) := by
  intro fuel
  induction fuel with
  | zero => intro index l r _ _ _ _ _ _ h; omega
  | succ f ih =>
    intro index l r hv hlen hbig hl hlr hr hf ha hb
    unfold partitionLoop
    obtain ⟨l', e1, e2, e3, e4, e5⟩ := advance_ok (d := d) (cmp := keyCmp key) (pivot := pivot) hv
      (m := r) (by omega) (hb r le_rfl (by omega)) big (l + 1) (by omega) (by omega)
    obtain ⟨r', g1, g2, g3, g4, g5⟩ := retreat_ok (d := d) (cmp := keyCmp key) (pivot := pivot) hv
      (m := l) (ha l hl le_rfl) big (r - 1) (by omega) (by omega) (by omega)
    have c1 : ((l + 1 : Nat) : Int) = (l : Int) + 1 := by omega
    have c2 : ((r - 1 : Nat) : Int) = (r : Int) - 1 := by omega
    rw [c1] at e1
    rw [c2] at g1
    rw [e1, show (Except.ok (l' : Int) >>= fun l => do
        let r ← retreat (keyCmp key) array index pivot big ((r : Int) - 1)
        if l ≥ r then pure (index, l)
        else do
          let index ← swap index l r
          partitionLoop (keyCmp key) array pivot big f index l r) =
        (do
        let r ← retreat (keyCmp key) array index pivot big ((r : Int) - 1)
        if (l' : Int) ≥ r then pure (index, (l' : Int))
        else do
          let index ← swap index l' r
          partitionLoop (keyCmp key) array pivot big f index l' r) from rfl, g1]
    show ∃ index' c, (if (l' : Int) ≥ (r' : Int) then pure (index, (l' : Int))
        else do
          let index ← swap index l' r'
          partitionLoop (keyCmp key) array pivot big f index l' r') = _ ∧ _
    have A : ∀ k, left ≤ k → k < l' → (keyCmp key).gt (X array d index k) pivot = false := by
      intro k k1 k2
      by_cases hk : k ≤ l
      · exact ha k k1 hk
      · exact gt_asymm (e5 k (by omega) k2)
    have B : ∀ k, r' < k → k ≤ right → (keyCmp key).gt pivot (X array d index k) = false := by
      intro k k1 k2
      by_cases hk : r ≤ k
      · exact hb k hk k2
      · exact gt_asymm (g5 k k1 (by omega))
    by_cases hge : (l' : Int) ≥ (r' : Int)
    · rw [if_pos hge]
      refine ⟨index, l', rfl, R.refl _ _ _, by omega, by omega, A, fun k k1 k2 => ?_⟩
      by_cases hk : k = l'
      · rw [hk]; exact e4
      · exact B k (by omega) k2
    · rw [if_neg hge]
      obtain ⟨i1, s1, s2, s3⟩ := swap_R (array := array) (d := d) (index := index)
        (lo := left + 1) (hi := right - 2) (i := l') (j := r')
        (by omega) (by omega) (by omega) (by omega) (by omega)
      rw [s1]
      have hlen1 : i1.length = index.length := s2.perm.length_eq
      obtain ⟨i2, c, p1, p2, p3, p4, p5, p6⟩ := ih i1 l' r' (hv.perm s2.perm) (by omega) hbig (by omega)
        (by omega) (by omega) (by omega)
        (by
          intro k k1 k2
          rw [s3, if_neg (by omega)]
          split
          · exact g4
          · exact A k k1 (by omega))
        (by
          intro k k1 k2
          rw [s3]
          split
          · exact e4
          rw [if_neg (by omega)]
          exact B k (by omega) k2)
      exact ⟨i2, c, p1, s2.trans p2, p3, p4, p5, p6⟩

theorem sortLRC_ok {index : List Nat} (hv : Valid array index) {left right : Nat}
    (hlr : left + 3 ≤ right) (hlen : right < index.length) :
    ∃ index', sortLeftRightAndCenter (keyCmp key) array index (left : Int) (right : Int) =
        .ok (index', (((left + right) / 2 : Nat) : Int)) ∧ R array d left right index index' ∧
      (keyCmp key).gt (X array d index' left) (X array d index' ((left + right) / 2)) = false ∧
      (keyCmp key).gt (X array d index' ((left + right) / 2)) (X array d index' right) = false := by
  have hc : ((left : Int) + (right : Int)) / 2 = (((left + right) / 2 : Nat) : Int) := by
    push_cast; rfl
  unfold sortLeftRightAndCenter
  simp only [hc]
  generalize hcc : (left + right) / 2 = c
  have c1 : left < c := by omega
  have c2 : c < right := by omega
  obtain ⟨i1, a1, a2, a3⟩ := condSwap_R (d := d) (cmp := keyCmp key) hv (lo := left) (hi := right)
    (i := left) (j := c) (by omega) (by omega) (by omega) (by omega) hlen
  obtain ⟨i2, b1, b2, b3⟩ := condSwap_R (d := d) (cmp := keyCmp key) (hv.perm a2.perm) (lo := left)
    (hi := right) (i := left) (j := right) (by omega) (by omega) (by omega) (by omega)
    (by rw [a2.perm.length_eq]; exact hlen)
  obtain ⟨i3, d1, d2, d3⟩ := condSwap_R (d := d) (cmp := keyCmp key)
    ((hv.perm a2.perm).perm b2.perm) (lo := left)
    (hi := right) (i := c) (j := right) (by omega) (by omega) (by omega) (by omega)
    (by rw [b2.perm.length_eq, a2.perm.length_eq]; exact hlen)
  refine ⟨i3, ?_, a2.trans (b2.trans d2), ?_⟩
  · rw [a1]
    show (do
      let index ← conditionalSwap (keyCmp key) array i1 left right
      let index ← conditionalSwap (keyCmp key) array index c right
      pure (index, (c : Int)) : Except PyErr (List Nat × Int)) = _
    rw [b1]
    show (do
      let index ← conditionalSwap (keyCmp key) array i2 c right
      pure (index, (c : Int)) : Except PyErr (List Nat × Int)) = _
    rw [d1]; rfl
  · have n1 : left ≠ c := by omega
    have n2 : left ≠ right := by omega
    have n3 : c ≠ right := by omega
    rw [d3 left, d3 c, d3 right, b3 left, b3 c, b3 right, a3 left, a3 c, a3 right]
    simp only [n1, n2, n3, n1.symm, n2.symm, n3.symm, if_false, if_true]
    generalize X array d index left = p
    generalize X array d index c = q
    generalize X array d index right = s
    simp only [ite_self]
    exact med3 (key := key) p q s

/-- The whole of `quick_sort` on `np.float64` elements. -/
theorem quickSort_ok {big : Nat} :
    ∀ (fuel : Nat) (index : List Nat) (left right : Nat), Valid array index →
    right < index.length → right < big → left ≤ right → right - left < fuel →
    ∃ index', quickSort (keyCmp key) true big array fuel index (left : Int) (right : Int) = .ok index' ∧
      R array d left right index index' ∧
      ((∀ k, key (array.getD k d) ≠ none) → ∀ i j, left ≤ i → i ≤ j → j ≤ right →
        (keyCmp key).gt (X array d index' i) (X array d index' j) = false) := by
  intro fuel
  induction fuel with
  | zero => intro index left right _ _ _ _ h; omega
  | succ f ih =>
    intro index left right hv hlen hbig hle hf
    unfold quickSort
    simp only []
    by_cases d0 : (right : Int) - left = 0
    · rw [if_pos d0]
      refine ⟨index, rfl, R.refl _ _ _, fun _ i j h1 h2 h3 => ?_⟩
      have : i = j := by omega
      subst this; exact gt_irrefl _
    rw [if_neg d0]
    by_cases d1 : (right : Int) - left = 1
    · rw [if_pos d1]
      obtain ⟨i1, a1, a2, a3⟩ := condSwap_R (d := d) (cmp := keyCmp key) hv (lo := left) (hi := right)
        (i := left) (j := right) (by omega) (by omega) (by omega) (by omega) hlen
      refine ⟨i1, a1, a2, fun _ i j h1 h2 h3 => ?_⟩
      by_cases hij : i = j
      · subst hij; exact gt_irrefl _
      · have e1 : i = left := by omega
        have e2 : j = right := by omega
        subst e1 e2
        rw [a3, a3]
        split
        · rename_i hg
          simp only [if_true]; exact gt_asymm hg
        · rename_i hg; simpa using hg
    rw [if_neg d1]
    by_cases d2 : (right : Int) - left = 2
    · rw [if_pos d2]
      have hr : right = left + 2 := by omega
      subst hr
      have cst : (left : Int) + 1 = ((left + 1 : Nat) : Int) := by omega
      rw [cst]
      obtain ⟨i1, a1, a2, a3⟩ := condSwap_R (d := d) (cmp := keyCmp key) hv (lo := left)
        (hi := left + 2) (i := left) (j := left + 1) (by omega) (by omega) (by omega) (by omega) hlen
      obtain ⟨i2, b1, b2, b3⟩ := condSwap_R (d := d) (cmp := keyCmp key) (hv.perm a2.perm)
        (lo := left) (hi := left + 2) (i := left) (j := left + 2) (by omega) (by omega) (by omega)
        (by omega) (by rw [a2.perm.length_eq]; exact hlen)
      obtain ⟨i3, c1, c2, c3⟩ := condSwap_R (d := d) (cmp := keyCmp key)
        ((hv.perm a2.perm).perm b2.perm) (lo := left) (hi := left + 2) (i := left + 1)
        (j := left + 2) (by omega) (by omega) (by omega) (by omega)
        (by rw [b2.perm.length_eq, a2.perm.length_eq]; exact hlen)
      refine ⟨i3, ?_, a2.trans (b2.trans c2), ?_⟩
      · rw [a1]
        show (do
          let index ← conditionalSwap (keyCmp key) array i1 left ((left + 2 : Nat) : Int)
          conditionalSwap (keyCmp key) array index ((left + 1 : Nat) : Int) ((left + 2 : Nat) : Int)) = _
        rw [b1]
        exact c1
      · intro hnn
        have t01 : (keyCmp key).gt (X array d i3 left) (X array d i3 (left + 1)) = false ∧
            (keyCmp key).gt (X array d i3 (left + 1)) (X array d i3 (left + 2)) = false := by
          have n1 : left ≠ left + 1 := by omega
          have n2 : left ≠ left + 2 := by omega
          have n3 : left + 1 ≠ left + 2 := by omega
          rw [c3 left, c3 (left + 1), c3 (left + 2), b3 left, b3 (left + 1), b3 (left + 2), a3 left,
            a3 (left + 1), a3 (left + 2)]
          simp only [n1, n2, n3, n1.symm, n2.symm, n3.symm, if_false, if_true]
          generalize X array d index left = p
          generalize X array d index (left + 1) = q
          generalize X array d index (left + 2) = s
          simp only [ite_self]
          exact med3 (key := key) p q s
        intro i j h1 h2 h3
        by_cases hij : i = j
        · subst hij; exact gt_irrefl _
        · rcases (show (i = left ∧ j = left + 1) ∨ (i = left ∧ j = left + 2) ∨
              (i = left + 1 ∧ j = left + 2) by omega) with ⟨rfl, rfl⟩ | ⟨rfl, rfl⟩ | ⟨rfl, rfl⟩
          · exact t01.1
          · exact ngt_trans (hnn _) t01.1 t01.2
          · exact t01.2
    rw [if_neg d2]
    have h3 : left + 3 ≤ right := by omega
    obtain ⟨i1, a1, a2, a3, a4⟩ := sortLRC_ok (d := d) (key := key) hv h3 hlen
    rw [a1]
    show ∃ index', (do
      let index ← swap i1 (((left + right) / 2 : Nat) : Int) ((right : Int) - 1)
      let pivot ← elem array index ((right : Int) - 1)
      let (index, center) ← partition (keyCmp key) true big array index left right pivot
      let index ← swap index center ((right : Int) - 1)
      let index ← quickSort (keyCmp key) true big array f index left (center - 1)
      quickSort (keyCmp key) true big array f index (center + 1) right) = .ok index' ∧ _
    generalize hcc : (left + right) / 2 = c at *
    have hc1 : left < c := by omega
    have hc2 : c + 2 ≤ right := by omega
    have cst : (right : Int) - 1 = ((right - 1 : Nat) : Int) := by omega
    rw [cst]
    have hlen1 : i1.length = index.length := a2.perm.length_eq
    obtain ⟨i2, b1, b2, b3⟩ := swap_R (array := array) (d := d) (index := i1) (lo := left)
      (hi := right) (i := c) (j := right - 1) (by omega) (by omega) (by omega) (by omega) (by omega)
    rw [b1]
    have hv2 := (hv.perm a2.perm).perm b2.perm
    have hlen2 : i2.length = index.length := b2.perm.length_eq.trans hlen1
    show ∃ index', (do
      let pivot ← elem array i2 ((right - 1 : Nat) : Int)
      let (index, center) ← partition (keyCmp key) true big array i2 left right pivot
      let index ← swap index center ((right - 1 : Nat) : Int)
      let index ← quickSort (keyCmp key) true big array f index left (center - 1)
      quickSort (keyCmp key) true big array f index (center + 1) right) = .ok index' ∧ _
    rw [elem_ok (d := d) hv2 (show right - 1 < i2.length by omega)]
    have hpv : X array d i2 (right - 1) = X array d i1 c := by rw [b3, if_pos rfl]
    obtain ⟨i3, m, p1, p2, p3, p4, p5, p6⟩ := partitionLoop_ok (d := d) (key := key)
      (pivot := X array d i2 (right - 1)) (big := big) (left := left) (right := right) big i2 left
      (right - 1) hv2 (by omega) hbig le_rfl (by omega) (by omega) (by omega)
      (by
        intro k k1 k2
        have : k = left := by omega
        subst this
        rw [hpv, b3, if_neg (by omega), if_neg (by omega)]; exact a3)
      (by
        intro k k1 k2
        rcases (show k = right - 1 ∨ k = right by omega) with rfl | rfl
        · exact gt_irrefl _
        · rw [hpv, b3 k, if_neg (by omega), if_neg (by omega)]; exact a4)
    generalize hpp : X array d i2 (right - 1) = pv at *
    have hpart : partition (keyCmp key) true big array i2 (left : Int) (right : Int) pv = .ok (i3, (m : Int)) := by
      show partitionLoop (keyCmp key) array pv big big i2 left ((right : Int) - 1) = _
      rw [cst]; exact p1
    show ∃ index', (do
      let (index, center) ← partition (keyCmp key) true big array i2 left right pv
      let index ← swap index center ((right - 1 : Nat) : Int)
      let index ← quickSort (keyCmp key) true big array f index left (center - 1)
      quickSort (keyCmp key) true big array f index (center + 1) right) = .ok index' ∧ _
    rw [hpart]
    show ∃ index', (do
      let index ← swap i3 (m : Int) ((right - 1 : Nat) : Int)
      let index ← quickSort (keyCmp key) true big array f index left ((m : Int) - 1)
      quickSort (keyCmp key) true big array f index ((m : Int) + 1) right) = .ok index' ∧ _
    have hlen3 : i3.length = index.length := p2.perm.length_eq.trans hlen2
    obtain ⟨i4, s1, s2, s3⟩ := swap_R (array := array) (d := d) (index := i3) (lo := left)
      (hi := right) (i := m) (j := right - 1) (by omega) (by omega) (by omega) (by omega) (by omega)
    rw [s1]
    have hlen4 : i4.length = index.length := s2.perm.length_eq.trans hlen3
    have hv3 := hv2.perm p2.perm
    have hv4 := hv3.perm s2.perm
    have cm1 : (m : Int) - 1 = ((m - 1 : Nat) : Int) := by omega
    have cm2 : (m : Int) + 1 = ((m + 1 : Nat) : Int) := by omega
    rw [cm1, cm2]
    show ∃ index', (do
      let index ← quickSort (keyCmp key) true big array f i4 left ((m - 1 : Nat) : Int)
      quickSort (keyCmp key) true big array f index ((m + 1 : Nat) : Int) right) = .ok index' ∧ _
    -- the pivot sits at position `m`
    have hX3 : X array d i3 (right - 1) = pv := by
      rw [p2.out (right - 1) (by omega), hpp]
    have hX4 : X array d i4 m = pv := by
      rw [s3]
      split
      · rename_i he; rw [he, hX3]
      · rw [if_pos rfl, hX3]
    have L4 : ∀ k, left ≤ k → k < m → (keyCmp key).gt (X array d i4 k) pv = false := by
      intro k k1 k2
      rw [s3, if_neg (by omega), if_neg (by omega)]; exact p5 k k1 k2
    have R4 : ∀ k, m + 1 ≤ k → k ≤ right → (keyCmp key).gt pv (X array d i4 k) = false := by
      intro k k1 k2
      rw [s3]
      split
      · exact p6 m le_rfl (by omega)
      · rw [if_neg (by omega)]; exact p6 k (by omega) k2
    obtain ⟨i5, q1, q2, q3⟩ := ih i4 left (m - 1) hv4 (by omega) (by omega) (by omega) (by omega)
    have hlen5 : i5.length = index.length := q2.perm.length_eq.trans hlen4
    obtain ⟨i6, r1, r2, r3⟩ := ih i5 (m + 1) right (hv4.perm q2.perm) (by omega) hbig (by omega) (by omega)
    rw [q1]
    refine ⟨i6, r1, ?_, ?_⟩
    · exact a2.trans <| b2.trans <| (p2.mono (by omega) (by omega)).trans <| s2.trans <|
        (q2.mono le_rfl (by omega)).trans (r2.mono (by omega) le_rfl)
    · intro hnn
      have L5 : ∀ k, left ≤ k → k ≤ m - 1 → (keyCmp key).gt (X array d i5 k) pv = false :=
        q2.pres (fun a => (keyCmp key).gt a pv = false) fun k k1 k2 => L4 k k1 (by omega)
      have R5 : ∀ k, m + 1 ≤ k → k ≤ right → (keyCmp key).gt pv (X array d i5 k) = false := by
        intro k k1 k2; rw [q2.out k (by omega)]; exact R4 k k1 k2
      have L6 : ∀ k, left ≤ k → k ≤ m - 1 → (keyCmp key).gt (X array d i6 k) pv = false := by
        intro k k1 k2; rw [r2.out k (by omega)]; exact L5 k k1 k2
      have R6 : ∀ k, m + 1 ≤ k → k ≤ right → (keyCmp key).gt pv (X array d i6 k) = false :=
        r2.pres (fun a => (keyCmp key).gt pv a = false) R5
      have M6 : X array d i6 m = pv := by
        rw [r2.out m (by omega), q2.out m (by omega), hX4]
      intro i j j1 j2 j3
      by_cases hj : j < m
      · rw [r2.out i (by omega), r2.out j (by omega)]
        exact q3 hnn i j j1 j2 (by omega)
      by_cases hi : m < i
      · exact r3 hnn i j (by omega) j2 j3
      have hl : (keyCmp key).gt (X array d i6 i) pv = false := by
        by_cases h : i = m
        · rw [h, M6]; exact gt_irrefl _
        · exact L6 i j1 (by omega)
      have hr : (keyCmp key).gt pv (X array d i6 j) = false := by
        by_cases h : j = m
        · rw [h, M6]; exact gt_irrefl _
        · exact R6 j (by omega) j3
      exact ngt_trans (by rw [← hpp]; exact hnn _) hl hr

end run

theorem sort_ok (array : List α) (fuel : Nat) (hf : array.length < fuel) :
    ∃ index, sort (keyCmp key) true fuel array = .ok index ∧
      ((∀ a ∈ array, key a ≠ none) → ∀ d i j, i ≤ j → j < array.length →
        (keyCmp key).gt (X array d index i) (X array d index j) = false) := by
  unfold sort
  simp only []
  by_cases h : array.length > 1
  · rw [if_pos h]
    obtain ⟨a, as, rfl⟩ : ∃ a as, array = a :: as := by
      cases array with
      | nil => simp at h
      | cons a as => exact ⟨a, as, rfl⟩
    have cst : ((a :: as).length : Int) - 1 = (((a :: as).length - 1 : Nat) : Int) := by omega
    rw [cst, show (0 : Int) = ((0 : Nat) : Int) from rfl]
    obtain ⟨i, hi, hr, hs⟩ := quickSort_ok (key := key) (array := a :: as) (d := a) (big := fuel) fuel
      (initialIndex (a :: as).length) 0 ((a :: as).length - 1)
      (fun i hi => by simpa [initialIndex] using hi) (by simp [initialIndex]) (by omega) (by omega)
      (by omega)
    refine ⟨i, hi, fun hnn d p q hpq hq => ?_⟩
    have hlen : i.length = (a :: as).length := by rw [hr.perm.length_eq]; simp [initialIndex]
    have hv : Valid (a :: as) i :=
      Valid.perm (i := initialIndex (a :: as).length) (fun i hi => by simpa [initialIndex] using hi) hr.perm
    have e : ∀ k, k < (a :: as).length → X (a :: as) d i k = X (a :: as) a i k := by
      intro k hk
      have h1 := elem_ok (d := d) hv (show k < i.length by omega)
      rw [elem_ok (d := a) hv (show k < i.length by omega)] at h1
      exact (Except.ok.inj h1).symm
    rw [e p (by omega), e q hq]
    refine hs (fun k => ?_) p q (by omega) hpq (by omega)
    apply hnn
    rw [List.getD_eq_getElem?_getD]
    cases hk : (a :: as)[k]? with
    | none => exact List.mem_cons_self
    | some b => exact List.mem_of_getElem? hk
  · rw [if_neg h]
    refine ⟨_, rfl, fun _ d p q hpq hq => ?_⟩
    have : p = q := by omega
    subst this; exact gt_irrefl _

end Verif.Utils
