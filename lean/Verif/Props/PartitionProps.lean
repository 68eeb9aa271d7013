import Verif.Props.UtilsProps

/-!
# C144 the integer partition

`_partition_int` on its own keeps the promise of a Hoare partition.  The trouble that `sort` has with plain integers (C22, C23)
comes from `quick_sort`, which treats the returned position as the place of the pivot.

The pivot is converted with `real(…)`; the model keeps it exact, which is right for integers up to `2 ^ 53`.
-/

namespace Verif.Utils
open Verif

variable {α : Type} {array : List α} {d : α}

/-- `swap` touches two positions only. -/
theorem swap_out {index index' : List Nat} {i j k : Nat} (h : swap index (i : Int) (j : Int) = .ok index') (hi : k ≠ i) (hj : k ≠ j) :
    index'[k]? = index[k]? := by
  unfold swap put at h
  simp only [bind_ok_iff, pure, Except.pure, Except.ok.injEq] at h
  obtain ⟨help, _, v, _, ind, ⟨k1, hk1, rfl⟩, k2, hk2, rfl⟩ := h
  have a := pyIndex_ok_iff.1 hk1
  have b := pyIndex_ok_iff.1 hk2
  rw [List.getElem?_set_ne (by omega), List.getElem?_set_ne (by omega)]

/-- The first inner loop stops at `r` or at an element that is not smaller than the pivot. -/
theorem advanceInt_ok {index : List Nat} (hv : Valid array index) {pivot : α} {cmp : Cmp α} {r : Nat} (hr : r < index.length) :
    ∀ (fuel l : Nat), l ≤ r → r - l < fuel →
    ∃ l' : Nat, advanceInt cmp array index pivot (r : Int) fuel (l : Int) = .ok (l' : Int) ∧ l ≤ l' ∧ l' ≤ r ∧
      (l' < r → cmp.lt (X array d index l') pivot = false) ∧
      ∀ k, l ≤ k → k < l' → cmp.lt (X array d index k) pivot = true := by
  intro fuel
  induction fuel with
  | zero => intro l _ h; omega
  | succ f ih =>
    intro l hl hf
    unfold advanceInt
    rw [elem_ok (d := d) hv (show l < index.length by omega)]
    simp only [bind, Except.bind]
    by_cases hlt : (cmp.lt (X array d index l) pivot && decide ((l : Int) < r)) = true
    · rw [if_pos hlt]
      rw [Bool.and_eq_true, decide_eq_true_iff] at hlt
      obtain ⟨l', e, h1, h2, h3, h4⟩ := ih (l + 1) (by omega) (by omega)
      refine ⟨l', by rw [← e]; rfl, by omega, h2, h3, fun k k1 k2 => ?_⟩
      by_cases hk : k = l
      · rw [hk]; exact hlt.1
      · exact h4 k (by omega) k2
    · rw [if_neg hlt]
      refine ⟨l, rfl, le_rfl, hl, fun h => ?_, fun k k1 k2 => by omega⟩
      by_contra hc
      rw [Bool.not_eq_false] at hc
      exact hlt (by rw [hc, Bool.true_and, decide_eq_true_iff]; omega)

/-- The second inner loop stops at `l` or at an element that is not greater than the pivot. -/
theorem retreatInt_ok {index : List Nat} (hv : Valid array index) {pivot : α} {cmp : Cmp α} {l : Nat} :
    ∀ (fuel r : Nat), l ≤ r → r < index.length → r - l < fuel →
    ∃ r' : Nat, retreatInt cmp array index pivot (l : Int) fuel (r : Int) = .ok (r' : Int) ∧ l ≤ r' ∧ r' ≤ r ∧
      (l < r' → cmp.gt (X array d index r') pivot = false) ∧
      ∀ k, r' < k → k ≤ r → cmp.gt (X array d index k) pivot = true := by
  intro fuel
  induction fuel with
  | zero => intro r _ _ h; omega
  | succ f ih =>
    intro r hr hlen hf
    unfold retreatInt
    rw [elem_ok (d := d) hv hlen]
    simp only [bind, Except.bind]
    by_cases hgt : (cmp.gt (X array d index r) pivot && decide ((l : Int) < r)) = true
    · rw [if_pos hgt]
      rw [Bool.and_eq_true, decide_eq_true_iff] at hgt
      obtain ⟨r', e, h1, h2, h3, h4⟩ := ih (r - 1) (by omega) (by omega) (by omega)
      refine ⟨r', by rw [← e]; congr 1; omega, h1, by omega, h3, fun k k1 k2 => ?_⟩
      by_cases hk : k = r
      · rw [hk]; exact hgt.1
      · exact h4 k k1 (by omega)
    · rw [if_neg hgt]
      refine ⟨r, rfl, hr, le_rfl, fun h => ?_, fun k k1 k2 => by omega⟩
      by_contra hc
      rw [Bool.not_eq_false] at hc
      exact hgt (by rw [hc, Bool.true_and, decide_eq_true_iff]; omega)

/-- The main loop, for any comparison in which nothing is both smaller and greater than the pivot. -/
theorem partitionIntLoop_ok {cmp : Cmp α} {pivot : α} {big left right mid : Nat}
    (hlg : ∀ a, cmp.lt a pivot = true → cmp.gt a pivot = false) (hself : cmp.lt pivot pivot = false)
    (hself' : cmp.gt pivot pivot = false) :
    ∀ (fuel : Nat) (index : List Nat) (l r : Nat), Valid array index → right < index.length → right < big → r + 2 ≤ l + fuel →
      left ≤ l → r ≤ right → l ≤ r + 1 →
      (∀ k, left ≤ k → k < l → cmp.gt (X array d index k) pivot = false) →
      (∀ k, r < k → k ≤ right → cmp.lt (X array d index k) pivot = false) →
      ((l ≤ mid ∧ mid ≤ r ∧ X array d index mid = pivot) ∨ (left < l ∧ r < right)) →
    ∃ index' l' r', partitionIntLoop cmp array pivot big fuel index (l : Int) (r : Int) = .ok (index', ((l' : Nat) : Int), ((r' : Nat) : Int)) ∧
      R array d left right index index' ∧ (∀ k, k < left ∨ right < k → index'[k]? = index[k]?) ∧ left ≤ l' ∧ r' ≤ right ∧ (l' = r' ∨ l' = r' + 1) ∧
      (∀ k, left ≤ k → k < l' → cmp.gt (X array d index' k) pivot = false) ∧
      (∀ k, r' < k → k ≤ right → cmp.lt (X array d index' k) pivot = false) ∧
      ((l' = mid ∧ r' = mid ∧ X array d index' mid = pivot) ∨ (left < l' ∧ r' < right)) := by
  have hgl : ∀ a, cmp.gt a pivot = true → cmp.lt a pivot = false := by
    intro a h
    by_contra hc
    rw [Bool.not_eq_false] at hc
    rw [hlg a hc] at h
    cases h
  intro fuel
  induction fuel with
  | zero => intro index l r _ _ _ hf _ _ h; omega
  | succ f ih =>
    intro index l r hv hlen hbig hf hl hr hlr hA hB hC
    unfold partitionIntLoop
    by_cases hlt : l < r
    · rw [if_pos (by omega)]
      obtain ⟨l', e1, e2, e3, e4, e5⟩ := advanceInt_ok (d := d) (cmp := cmp) (pivot := pivot) hv (r := r) (by omega) big l
        (by omega) (by omega)
      rw [e1]
      simp only [bind, Except.bind]
      obtain ⟨r', g1, g2, g3, g4, g5⟩ := retreatInt_ok (d := d) (cmp := cmp) (pivot := pivot) hv (l := l') big r
        (by omega) (by omega) (by omega)
      rw [g1]
      simp only []
      have A : ∀ k, left ≤ k → k < l' → cmp.gt (X array d index k) pivot = false := by
        intro k k1 k2
        by_cases hk : k < l
        · exact hA k k1 hk
        · exact hlg _ (e5 k (by omega) k2)
      have B : ∀ k, r' < k → k ≤ right → cmp.lt (X array d index k) pivot = false := by
        intro k k1 k2
        by_cases hk : r < k
        · exact hB k hk k2
        · exact hgl _ (g5 k k1 (by omega))
      have C : (l' ≤ mid ∧ mid ≤ r' ∧ X array d index mid = pivot) ∨ (left < l' ∧ r' < right) := by
        rcases hC with ⟨c1, c2, c3⟩ | ⟨c1, c2⟩
        · left
          have d1 : l' ≤ mid := by
            by_contra hc
            have := e5 mid c1 (by omega)
            rw [c3, hself] at this
            cases this
          refine ⟨d1, ?_, c3⟩
          by_contra hc
          have := g5 mid (by omega) c2
          rw [c3, hself'] at this
          cases this
        · right; omega
      by_cases hlt' : l' < r'
      · rw [if_pos (by omega)]
        obtain ⟨i1, s1, s2, s3⟩ := swap_R (array := array) (d := d) (index := index) (lo := left) (hi := right) (i := l') (j := r')
          (by omega) (by omega) (by omega) (by omega) (by omega)
        rw [s1]
        simp only []
        have hlen1 : i1.length = index.length := s2.perm.length_eq
        obtain ⟨i2, l2, r2, p1, p2, p4, p3⟩ := ih i1 (l' + 1) (r' - 1) (hv.perm s2.perm) (by omega) hbig (by omega) (by omega)
          (by omega) (by omega)
          (by
            intro k k1 k2
            rw [s3, if_neg (by omega)]
            split
            · exact g4 hlt'
            · exact A k k1 (by omega))
          (by
            intro k k1 k2
            rw [s3]
            split
            · exact e4 (by omega)
            · rw [if_neg (by omega)]; exact B k (by omega) k2)
          (Or.inr ⟨by omega, by omega⟩)
        refine ⟨i2, l2, r2, ?_, s2.trans p2, fun k hk => (p4 k hk).trans (swap_out s1 (by omega) (by omega)), p3⟩
        rw [← p1]
        congr 1
        omega
      · rw [if_neg (by omega)]
        exact ih index l' r' hv hlen hbig (by omega) (by omega) (by omega) (by omega) A B C
    · rw [if_neg (by omega)]
      refine ⟨index, l, r, rfl, R.refl _ _ _, fun _ _ => rfl, hl, hr, by omega, hA, hB, ?_⟩
      rcases hC with ⟨c1, c2, c3⟩ | h
      · exact Or.inl ⟨by omega, by omega, c3⟩
      · exact Or.inr h

end Verif.Utils

namespace Verif.Props
open Verif Utils

/-- C144.  `_partition_int(array, index, l, r)` on integers, for a range `l < r` of a valid index: it returns (no exception, no endless
loop) a position `m` with `l ≤ m < r`; the index entries have only been rearranged, and only inside the range; reading the array
through the new index, everything at positions `l … m` is at most the pivot and everything at `m + 1 … r` is at least the pivot,
where the pivot is the element that was in the middle of the range. -/
theorem C144_partition_int (array : List Int) (index : List Nat) (hv : ∀ i ∈ index, i < array.length) (l r : Nat) (hlr : l < r)
    (hr : r < index.length) (fuel : Nat) (hf : r + 2 ≤ fuel) :
    ∃ (index' : List Nat) (m : Nat), partitionInt intCmp fuel array index l r = .ok (index', (m : Int)) ∧ l ≤ m ∧ m < r ∧
      index'.Perm index ∧ (∀ k, k < l ∨ r < k → index'[k]? = index[k]?) ∧
      ∀ p, array[index.getD ((l + r) / 2) 0]? = some p →
        (∀ k a, l ≤ k → k ≤ m → array[index'.getD k 0]? = some a → a ≤ p) ∧
        (∀ k a, m < k → k ≤ r → array[index'.getD k 0]? = some a → p ≤ a) := by
  have hkey : intCmp = keyCmp (fun a : Int => some a) := rfl
  have hX : ∀ (ind : List Nat) (k : Nat) (a : Int), array[ind.getD k 0]? = some a → Utils.X array 0 ind k = a := by
    intro ind k a h
    unfold Utils.X
    rw [List.getD_eq_getElem?_getD, h]
    rfl
  have hmid : (((l + r) / 2 : Nat) : Int) = ((l : Int) + r) / 2 := by omega
  obtain ⟨i1, l1, r1, p1, p2, p3, p4, p5, p6, p7, p8, p9⟩ := partitionIntLoop_ok (array := array) (d := 0) (cmp := intCmp)
    (pivot := Utils.X array 0 index ((l + r) / 2)) (big := fuel) (left := l) (right := r) (mid := (l + r) / 2)
    (by intro a h; rw [hkey] at h ⊢; rw [keyCmp_lt] at h; exact gt_asymm h)
    (by rw [hkey, keyCmp_lt]; exact gt_irrefl _) (by rw [hkey]; exact gt_irrefl _)
    fuel index l r hv hr (by omega) (by omega) le_rfl le_rfl (by omega) (fun k h1 h2 => by omega) (fun k h1 h2 => by omega)
    (Or.inl ⟨by omega, by omega, rfl⟩)
  set pv := Utils.X array 0 index ((l + r) / 2) with hpv
  have hlen1 : i1.length = index.length := p2.perm.length_eq
  have hle : ∀ a : Int, intCmp.gt a pv = false → a ≤ pv := by
    intro a h
    have h' : decide (a > pv) = false := h
    rw [decide_eq_false_iff_not] at h'
    omega
  have hge : ∀ a : Int, intCmp.lt a pv = false → pv ≤ a := by
    intro a h
    have h' : decide (a < pv) = false := h
    rw [decide_eq_false_iff_not] at h'
    omega
  have start : partitionInt intCmp fuel array index l r = (if (l1 : Int) = r1 then
      (elem array i1 (r1 : Int) >>= fun a => if intCmp.gt a pv then pure (i1, (r1 : Int) - 1) else pure (i1, (r1 : Int)))
      else pure (i1, (r1 : Int))) := by
    unfold partitionInt
    rw [← hmid, elem_ok (d := 0) hv (by omega)]
    show (partitionIntLoop intCmp array pv fuel fuel index l r >>= _) = _
    rw [p1]
    rfl
  suffices fin : ∃ m : Nat, partitionInt intCmp fuel array index l r = .ok (i1, (m : Int)) ∧ l ≤ m ∧ m < r ∧
      (∀ k, l ≤ k → k ≤ m → Utils.X array 0 i1 k ≤ pv) ∧ (∀ k, m < k → k ≤ r → pv ≤ Utils.X array 0 i1 k) by
    obtain ⟨m, e, h1, h2, h3, h4⟩ := fin
    refine ⟨i1, m, e, h1, h2, p2.perm, p3, fun p hp => ?_⟩
    have hp' : pv = p := hX _ _ _ hp
    refine ⟨fun k a k1 k2 ha => ?_, fun k a k1 k2 ha => ?_⟩
    · rw [← hX _ _ _ ha, ← hp']; exact h3 k k1 k2
    · rw [← hX _ _ _ ha, ← hp']; exact h4 k k1 k2
  by_cases hb : l1 = r1
  · rw [if_pos (by omega), elem_ok (d := 0) (Valid.perm hv p2.perm) (show r1 < i1.length by omega)] at start
    by_cases hg : intCmp.gt (Utils.X array 0 i1 r1) pv = true
    · have hB : l < l1 ∧ r1 < r := by
        rcases p9 with ⟨_, b, c⟩ | h
        · rw [b, c, hkey, gt_irrefl] at hg
          cases hg
        · exact h
      refine ⟨r1 - 1, ?_, by omega, by omega, fun k k1 k2 => hle _ (p7 k k1 (by omega)), fun k k1 k2 => ?_⟩
      · rw [start]
        show (if intCmp.gt (Utils.X array 0 i1 r1) pv then pure (i1, (r1 : Int) - 1) else pure (i1, (r1 : Int))) = _
        rw [if_pos hg, show ((r1 - 1 : Nat) : Int) = (r1 : Int) - 1 by omega]
        rfl
      · by_cases hk : k = r1
        · rw [hk]
          have h' : decide (Utils.X array 0 i1 r1 > pv) = true := hg
          rw [decide_eq_true_iff] at h'
          omega
        · exact hge _ (p8 k (by omega) k2)
    · refine ⟨r1, ?_, by omega, by rcases p9 with ⟨_, b, _⟩ | h <;> omega, fun k k1 k2 => ?_, fun k k1 k2 => hge _ (p8 k k1 k2)⟩
      · rw [start]
        show (if intCmp.gt (Utils.X array 0 i1 r1) pv then pure (i1, (r1 : Int) - 1) else pure (i1, (r1 : Int))) = _
        rw [if_neg hg]
        rfl
      · by_cases hk : k = r1
        · rw [hk]; exact hle _ (Bool.not_eq_true _ ▸ hg)
        · exact hle _ (p7 k k1 (by omega))
  · rw [if_neg (by omega)] at start
    exact ⟨r1, start, by omega, by rcases p9 with ⟨_, b, _⟩ | h <;> omega, fun k k1 k2 => hle _ (p7 k k1 (by omega)),
      fun k k1 k2 => hge _ (p8 k k1 k2)⟩

/-- Concrete case: the whole range of `[4, 1, 3, 3, 0]` with pivot `3`. -/
example : partitionInt intCmp 10 [4, 1, 3, 3, 0] [0, 1, 2, 3, 4] 0 4 = .ok ([4, 1, 3, 2, 0], 2) := by decide +kernel

end Verif.Props
