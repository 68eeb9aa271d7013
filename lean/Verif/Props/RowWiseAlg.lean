import Verif.Props.RowWise
import Verif.Props.PcaProps
import Verif.Props.SparseProps
import Verif.Props.KernelPlsProps
import Verif.Props.CcaProps
import Verif.Props.DiplsProps
import Verif.Props.NipalsProps
import Verif.Alg.Preproc
import Verif.Alg.OPLS
import Verif.Alg.VCPLS
import Verif.Alg.PRM
import Verif.Alg.SIMPLS
import Verif.Alg.NIPALS
import Verif.Alg.KernelPLS
import Verif.Alg.SparsePLS
import Verif.Alg.DIPLS
import Verif.Alg.CCA
import Verif.Alg.GLSW

/-!
# C103 for the trained algorithms
-/

namespace Verif.Props
open Verif Mat Transf

variable {α β M : Type}

/-! ## Loops over the rows -/

/-- A loop whose pass `k` replaces row `k` by a value depending on that row only, or fails. -/
theorem loop_rows {r K : Nat} (step : Int → Mat β → Except PyErr (Mat β)) (A0 : Matrix (Fin (r + 1)) (Fin K) β)
    (ψ : Fin (r + 1) → Option (Fin K → β))
    (hok : ∀ (k : Fin (r + 1)) (A : Matrix (Fin (r + 1)) (Fin K) β) t, A k = A0 k → ψ k = some t →
      step ((k : Nat) : Int) (of A) = .ok (of (A.updateRow k t)))
    (herr : ∀ (k : Fin (r + 1)) (A : Matrix (Fin (r + 1)) (Fin K) β), A k = A0 k → ψ k = none →
      ∃ e, step ((k : Nat) : Int) (of A) = .error e) (B : Mat β) :
    loopM step (pyRange 0 ((r + 1 : Nat) : Int)) (of A0) = .ok B ↔
      ∃ C : Matrix (Fin (r + 1)) (Fin K) β, B = of C ∧ ∀ i, ψ i = some (C i) := by
  classical
  let S : Nat → Mat β := fun k => of (Matrix.of fun i j => if i.1 < k then ((ψ i).getD (A0 i)) j else A0 i j)
  have hstep : ∀ k (hk : k < r + 1), (∃ t, ψ ⟨k, hk⟩ = some t) → step (k : Int) (S k) = .ok (S (k + 1)) := by
    rintro k hk ⟨t, ht⟩
    refine (hok ⟨k, hk⟩ _ t ?_ ht).trans ?_
    · funext j
      simp
    · rw [ok_inj]
      refine mk_congr fun i j => ?_
      rw [Matrix.updateRow_apply]
      simp only [Matrix.of_apply]
      by_cases hi : i = ⟨k, hk⟩
      · subst hi
        rw [if_pos rfl, if_pos (Nat.lt_succ_self k), ht]
        rfl
      · have hi' : i.1 ≠ k := fun h => hi (Fin.ext h)
        rw [if_neg hi]
        by_cases h : i.1 < k
        · rw [if_pos h, if_pos (by omega)]
        · rw [if_neg h, if_neg (by omega)]
  have hS0 : S 0 = of A0 := mk_congr fun i j => by simp
  by_cases hall : ∀ i, ∃ t, ψ i = some t
  · have hl := loopM_range step S (r + 1) fun k hk => hstep k hk (hall _)
    rw [← hS0, hl, ok_inj]
    choose C hC using hall
    have hS : S (r + 1) = of (Matrix.of C) := mk_congr fun i j => by
      simp only [Matrix.of_apply, hC]
      rw [if_pos i.2]
      rfl
    rw [hS]
    constructor
    · rintro rfl
      exact ⟨_, rfl, hC⟩
    · rintro ⟨D, rfl, hD⟩
      exact mk_congr fun i j => congrFun (Option.some_injective _ ((hC i).symm.trans (hD i))) j
  · constructor
    · intro h
      exfalso
      obtain ⟨i, hi⟩ := not_forall.1 hall
      have hex : ∃ k, ∃ hk : k < r + 1, ψ ⟨k, hk⟩ = none :=
        ⟨i.1, i.2, by cases h : ψ i with | none => rfl | some t => exact absurd ⟨t, h⟩ hi⟩
      obtain ⟨hk, hn⟩ := Nat.find_spec hex
      have hmin : ∀ j < Nat.find hex, step (j : Int) (S j) = .ok (S (j + 1)) := fun j hj =>
        hstep j (by omega) (by
          cases h : ψ ⟨j, by omega⟩ with
          | some t => exact ⟨t, rfl⟩
          | none => exact absurd ⟨by omega, h⟩ (Nat.find_min hex hj))
      obtain ⟨e, he⟩ := herr ⟨_, hk⟩ (Matrix.of fun i j => if i.1 < Nat.find hex then ((ψ i).getD (A0 i)) j else A0 i j)
        (by funext j; exact if_neg (Nat.lt_irrefl _)) hn
      have := loopM_range_error step S (r + 1) (Nat.find hex) hk e hmin he
      rw [hS0, h] at this
      cases this
    · rintro ⟨C, -, hC⟩
      exact absurd (fun i => ⟨_, hC i⟩) hall

/-! ## PLS1 and VCPLS -/

section pls1
variable [Field α]

omit [Field α] in
theorem rw_setColumn_shape {A B v : Mat α} {j : Int} (h : A.setColumn j v = .ok B) : B.rows = A.rows ∧ B.cols = A.cols := by
  unfold setColumn at h
  cases h1 : v.mustBeVector with
  | error e => rw [h1] at h; cases h
  | ok u =>
    cases h2 : pyIndex A.cols j with
    | error e => rw [h1, h2] at h; cases h
    | ok c =>
      rw [h1, h2] at h
      cases h
      exact ⟨rfl, rfl⟩

/-- The scores of a row form a row. -/
theorem pls1Row_shape (K : Nat) (W P x T : Mat α) (h : pls1Row (K : Int) W P x = .ok T) : T.rows = 1 ∧ T.cols = K := by
  unfold pls1Row at h
  have hz : Factory.zeros (α := α) (1 : Int) (K : Int) = .ok (of (0 : Matrix (Fin 1) (Fin K) α)) :=
    Factory.zeros_nat Nat.one_pos K
  rw [hz, except_bind_ok] at h
  cases h1 : loopM (pls1RowStep W P) (pyRange 0 (K : Int)) (x, of (0 : Matrix (Fin 1) (Fin K) α)) with
  | error e => rw [h1] at h; cases h
  | ok s =>
    rw [h1, except_bind_ok, ok_inj] at h
    subst h
    refine loopM_inv (pls1RowStep W P) (fun s => s.2.rows = 1 ∧ s.2.cols = K) ?_ _ _ _ ⟨rfl, rfl⟩ h1
    rintro k s s' ⟨hs1, hs2⟩ hs
    unfold pls1RowStep at hs
    cases a1 : W.getColumn k with
    | error e => rw [a1] at hs; cases hs
    | ok w =>
      rw [a1, except_bind_ok] at hs
      cases a2 : s.1.mul w with
      | error e => rw [a2] at hs; cases hs
      | ok t =>
        rw [a2, except_bind_ok] at hs
        cases a3 : s.2.setColumn k t with
        | error e => rw [a3] at hs; cases hs
        | ok T =>
          rw [a3, except_bind_ok] at hs
          cases a4 : P.getColumn k with
          | error e => rw [a4] at hs; cases hs
          | ok p =>
            rw [a4, except_bind_ok] at hs
            cases a5 : t.asReal with
            | error e => rw [a5] at hs; cases hs
            | ok tr =>
              rw [a5, except_bind_ok] at hs
              cases a6 : s.1.sub (p.transpose.smul tr) with
              | error e => rw [a6] at hs; cases hs
              | ok x =>
                rw [a6, except_bind_ok, ok_inj] at hs
                subst hs
                obtain ⟨b1, b2⟩ := rw_setColumn_shape a3
                exact ⟨b1.trans hs1, b2.trans hs2⟩

/-- The row of a data set as a 1×c matrix. -/
def asRow {c : Nat} (x : Fin c → α) : Mat α := of (Matrix.of fun (_ : Fin 1) => x)

open Classical in
/-- **C103** `transform` of PLS1 and VCPLS, for every model (whatever matrices it holds). -/
theorem C103_pls1_transform (K : Nat) (m : Pls1Model α) : RowWise (pls1Transform (K : Int) m) := by
  intro c
  refine ⟨K, fun x => match pls1Row (K : Int) m.W m.P (asRow x) with
    | .ok T => if h : T.rows = 1 ∧ T.cols = K then some fun j => T.data ⟨0, by omega⟩ (j.cast h.2.symm) else none
    | .error _ => none, fun r Z B => ?_⟩
  unfold pls1Transform
  rw [show (of Z).rows = r + 1 from rfl, Factory.zeros_nat (Nat.succ_pos r), except_bind_ok]
  refine loop_rows _ 0 (fun i => _) ?_ ?_ B
  · intro k A t _ ht
    unfold pls1TransformRow
    have e1 : (of Z).getRow ((k : Nat) : Int) = .ok (asRow (Z k)) := getRow_of Z k
    rw [e1, except_bind_ok]
    cases hT : pls1Row (K : Int) m.W m.P (asRow (Z k)) with
    | error e => simp only [hT] at ht; cases ht
    | ok T =>
      obtain ⟨h1, h2⟩ := pls1Row_shape K _ _ _ _ hT
      simp only [hT] at ht
      rw [dif_pos ⟨h1, h2⟩, Option.some_inj] at ht
      obtain ⟨m', n', T⟩ := T
      simp only at h1 h2
      subst h1 h2
      refine (setRow_of A k T).trans ?_
      rw [← ht]
      rfl
  · intro k A _ ht
    unfold pls1TransformRow
    have e1 : (of Z).getRow ((k : Nat) : Int) = .ok (asRow (Z k)) := getRow_of Z k
    rw [e1, except_bind_ok]
    cases hT : pls1Row (K : Int) m.W m.P (asRow (Z k)) with
    | error e => exact ⟨e, rfl⟩
    | ok T =>
      simp only [hT] at ht
      rw [dif_pos (pls1Row_shape K _ _ _ _ hT)] at ht
      cases ht

/-- **C103** `predict` of PLS1 and VCPLS. -/
theorem C103_pls1_predict (K : Nat) (m : Pls1Model α) : RowWise (pls1Predict (K : Int) m) := by
  intro c
  refine ⟨1, fun x => match (do
      let T ← pls1Row (K : Int) m.W m.P (asRow x)
      let tb ← T.mul m.bHat
      tb.asReal : Except PyErr α) with
    | .ok v => some fun _ => v
    | .error _ => none, fun r Z B => ?_⟩
  unfold pls1Predict
  have hz : Factory.zeros (α := α) ((of Z).rows : Int) 1 = .ok (of (0 : Matrix (Fin (r + 1)) (Fin 1) α)) :=
    Factory.zeros_nat (Nat.succ_pos r) 1
  rw [hz, except_bind_ok]
  refine loop_rows _ 0 (fun i => _) ?_ ?_ B
  · intro k A t _ ht
    unfold pls1PredictRow
    have e1 : (of Z).getRow ((k : Nat) : Int) = .ok (asRow (Z k)) := getRow_of Z k
    rw [e1, except_bind_ok]
    cases hT : pls1Row (K : Int) m.W m.P (asRow (Z k)) with
    | error e => simp only [hT] at ht; cases ht
    | ok T =>
      simp only [hT, except_bind_ok] at ht ⊢
      cases hM : T.mul m.bHat with
      | error e => simp only [hM] at ht; cases ht
      | ok tb =>
        simp only [hM, except_bind_ok] at ht ⊢
        cases hV : tb.asReal with
        | error e => simp only [hV] at ht; cases ht
        | ok v =>
          simp only [hV, Option.some_inj] at ht
          subst ht
          simp only [except_bind_ok]
          refine (set_of A k 0 v).trans ?_
          rw [ok_inj]
          refine mk_congr fun i j => ?_
          rw [Matrix.updateRow_apply, Matrix.of_apply, Subsingleton.elim j 0]
          by_cases hi : i = k
          · rw [if_pos ⟨hi, rfl⟩, if_pos hi]
          · rw [if_neg fun h => hi h.1, if_neg hi]
  · intro k A _ ht
    unfold pls1PredictRow
    have e1 : (of Z).getRow ((k : Nat) : Int) = .ok (asRow (Z k)) := getRow_of Z k
    rw [e1, except_bind_ok]
    cases hT : pls1Row (K : Int) m.W m.P (asRow (Z k)) with
    | error e => exact ⟨e, rfl⟩
    | ok T =>
      simp only [hT, except_bind_ok] at ht ⊢
      cases hM : T.mul m.bHat with
      | error e => exact ⟨e, rfl⟩
      | ok tb =>
        simp only [hM, except_bind_ok] at ht ⊢
        cases hV : tb.asReal with
        | error e => exact ⟨e, rfl⟩
        | ok v => simp only [hV] at ht; cases ht

end pls1

/-! ## Denormalising the predictions -/

section denorm
variable [Field α]

/-- The loop of `_AbstractSingleResponsePLS.do_predict`. -/
theorem RowWise.denorm (mean sd : α) :
    RowWise (fun R : Mat α => loopM (denormStep mean sd) (pyRange 0 R.rows) R) := by
  intro c
  rcases c with _ | c
  · refine ⟨0, fun _ => none, fun r Z B => ?_⟩
    refine loop_rows _ Z (fun _ => none) (fun _ _ _ _ h => by cases h) (fun k A _ _ => ?_) B
    refine ⟨.indexError, ?_⟩
    have e1 : (of A).get ((k : Nat) : Int) 0 = .error .indexError := by
      have e : pyIndex (of A).rows ((k : Nat) : Int) = .ok k := pyIndex_fin k
      unfold Mat.get
      rw [e]
      rfl
    unfold denormStep
    rw [e1]
    rfl
  · refine ⟨c + 1, fun x => some (Function.update x 0 (x 0 * sd + mean)), fun r Z B => ?_⟩
    refine loop_rows _ Z (fun i => some (Function.update (Z i) 0 (Z i 0 * sd + mean))) ?_ (fun _ _ _ h => by cases h) B
    intro k A t hA ht
    rw [Option.some_inj] at ht
    unfold denormStep
    have e1 : (of A).get ((k : Nat) : Int) 0 = .ok (A k 0) := get_of A k 0
    rw [e1, except_bind_ok]
    refine (set_of A k 0 _).trans ?_
    rw [ok_inj]
    refine mk_congr fun i j => ?_
    rw [Matrix.updateRow_apply, Matrix.of_apply, ← ht]
    by_cases hi : i = k
    · subst hi
      rw [if_pos rfl, Function.update_apply, hA]
      by_cases hj : j = 0
      · rw [if_pos ⟨rfl, hj⟩, if_pos hj]
      · rw [if_neg fun h => hj h.2, if_neg hj]
    · rw [if_neg fun h => hi h.1, if_neg hi]

/-- **C103** `predict` of a single-response algorithm. -/
theorem C103_single_predict (predict : M → Mat α → Except PyErr (Mat α)) (m : SingleModel α M)
    (h : RowWise (predict m.base)) : RowWise (singlePredict predict m) := by
  refine (h.bind (g := fun R => if m.hasTrans then loopM (denormStep m.mean m.sd) (pyRange 0 R.rows) R else .ok R)
    ?_).congr fun _ => rfl
  cases m.hasTrans with
  | true => exact (RowWise.denorm m.mean m.sd).congr fun _ => if_pos rfl
  | false => exact RowWise.id.congr fun _ => if_neg Bool.false_ne_true

theorem denormRow_ok {r c : Nat} (ms ds : List α) (h1 : c ≤ ms.length) (h2 : c ≤ ds.length)
    (A : Matrix (Fin r) (Fin c) α) (k : Fin r) (n : Nat) (hn : n ≤ c) :
    loopM (fun j R => multiDenormCell ms ds ((k : Nat) : Int) j R) (pyRange 0 (n : Int)) (of A) =
      .ok (of (Matrix.of fun i (j : Fin c) =>
        if i = k ∧ j.1 < n then A i j * ds[j.1]'(by omega) + ms[j.1]'(by omega) else A i j)) := by
  let S : Nat → Mat α := fun n => of (Matrix.of fun i (j : Fin c) =>
        if i = k ∧ j.1 < n then A i j * ds[j.1]'(by omega) + ms[j.1]'(by omega) else A i j)
  have h0 : S 0 = of A := mk_congr fun i j => by simp
  rw [← h0]
  refine loopM_range _ S n fun t ht => ?_
  unfold multiDenormCell
  have e1 : (S t).get ((k : Nat) : Int) (t : Int) = .ok (A k ⟨t, by omega⟩) := by
    refine (get_of _ k ⟨t, by omega⟩).trans ?_
    rw [Matrix.of_apply, if_neg fun h => Nat.lt_irrefl _ h.2]
  have e2 : Utils.item ds (t : Int) = .ok (ds[t]'(by omega)) := by
    unfold Utils.item
    rw [pyIndex_natCast t (by omega)]
    rfl
  have e3 : Utils.item ms (t : Int) = .ok (ms[t]'(by omega)) := by
    unfold Utils.item
    rw [pyIndex_natCast t (by omega)]
    rfl
  rw [e1, except_bind_ok, e2, except_bind_ok, e3, except_bind_ok]
  refine (set_of _ k ⟨t, by omega⟩ _).trans ?_
  rw [ok_inj]
  refine mk_congr fun i j => ?_
  simp only [Matrix.of_apply]
  by_cases hi : i = k
  · subst hi
    by_cases hj : j = ⟨t, by omega⟩
    · subst hj
      rw [if_pos ⟨rfl, rfl⟩, if_pos ⟨rfl, Nat.lt_succ_self t⟩]
    · have : j.1 ≠ t := fun h => hj (Fin.ext h)
      rw [if_neg fun h => hj h.2]
      by_cases hlt : j.1 < t
      · rw [if_pos ⟨rfl, hlt⟩, if_pos ⟨rfl, by omega⟩]
      · rw [if_neg fun h => hlt h.2, if_neg fun h => hlt (by omega)]
  · rw [if_neg fun h => hi h.1, if_neg fun h => hi h.1, if_neg fun h => hi h.1]

/-- … and raises if there are more responses than stored statistics. -/
theorem denormRow_bad {r c : Nat} (ms ds : List α) (hc : ¬ (c ≤ ms.length ∧ c ≤ ds.length)) (k : Fin (r + 1))
    (A : Matrix (Fin (r + 1)) (Fin c) α) :
    ∃ e, loopM (fun j R => multiDenormCell ms ds ((k : Nat) : Int) j R) (pyRange 0 ((of A).cols : Int)) (of A) = .error e := by
  have hl : ∃ l, l < c ∧ l ≤ ms.length ∧ l ≤ ds.length ∧ (l = ms.length ∨ l = ds.length) :=
    ⟨min ms.length ds.length, by omega, by omega, by omega, by omega⟩
  obtain ⟨l, hl, hlm, hld, hle⟩ := hl
  let S : Nat → Mat α := fun n => of (Matrix.of fun i (j : Fin c) =>
    if h : i = k ∧ j.1 < n ∧ n ≤ l then A i j * ds[j.1]'(by omega) + ms[j.1]'(by omega) else A i j)
  have h0 : S 0 = of A := mk_congr fun i j => by simp
  have hcell : ∀ t (ht : t < c), (S t).get ((k : Nat) : Int) (t : Int) = .ok (A k ⟨t, by omega⟩) := fun t ht => by
    refine (get_of _ k ⟨t, by omega⟩).trans ?_
    rw [Matrix.of_apply, dif_neg fun h => Nat.lt_irrefl _ h.2.1]
  have hE : ∃ e, multiDenormCell ms ds ((k : Nat) : Int) (l : Int) (S l) = .error e := by
    unfold multiDenormCell
    rw [hcell l hl, except_bind_ok]
    by_cases hd : l = ds.length
    · refine ⟨.indexError, ?_⟩
      unfold Utils.item
      rw [pyIndex_error_iff.2 (.inr (by omega))]
      rfl
    · have hm : l = ms.length := by omega
      refine ⟨.indexError, ?_⟩
      unfold Utils.item
      rw [pyIndex_natCast l (by omega), pyIndex_error_iff.2 (.inr (by omega))]
      rfl
  obtain ⟨e, he⟩ := hE
  refine ⟨e, ?_⟩
  rw [← h0]
  refine loopM_range_error _ S c l hl e (fun t ht => ?_) he
  unfold multiDenormCell
  rw [hcell t (by omega), except_bind_ok]
  unfold Utils.item
  rw [pyIndex_natCast t (by omega), pyIndex_natCast t (by omega)]
  refine (set_of _ k ⟨t, by omega⟩ _).trans ?_
  rw [ok_inj]
  refine mk_congr fun i j => ?_
  simp only [Matrix.of_apply]
  by_cases hi : i = k
  · subst hi
    by_cases hj : j = ⟨t, by omega⟩
    · subst hj
      rw [if_pos ⟨rfl, rfl⟩, dif_pos ⟨rfl, Nat.lt_succ_self t, by omega⟩]
      rfl
    · have : j.1 ≠ t := fun h => hj (Fin.ext h)
      rw [if_neg fun h => hj h.2]
      by_cases hlt : j.1 < t
      · rw [dif_pos ⟨rfl, hlt, by omega⟩, dif_pos ⟨rfl, by omega, by omega⟩]
      · rw [dif_neg fun h => hlt h.2.1, dif_neg fun h => hlt (by omega)]
  · rw [if_neg fun h => hi h.1, dif_neg fun h => hi h.1, dif_neg fun h => hi h.1]

/-- The loops of `_AbstractMultiResponsePLS.do_predict`. -/
theorem RowWise.multiDenorm (ms ds : List α) :
    RowWise (fun R : Mat α => loopM (fun i R => loopM (fun j R => multiDenormCell ms ds i j R) (pyRange 0 R.cols) R)
      (pyRange 0 R.rows) R) := by
  intro c
  by_cases hc : c ≤ ms.length ∧ c ≤ ds.length
  · obtain ⟨h1, h2⟩ := hc
    refine ⟨c, fun x => some fun j => x j * ds[j.1]'(by omega) + ms[j.1]'(by omega), fun r Z B => ?_⟩
    refine loop_rows _ Z (fun i => some fun j => Z i j * ds[j.1]'(by omega) + ms[j.1]'(by omega)) ?_
      (fun _ _ _ h => by cases h) B
    intro k A t hA ht
    rw [Option.some_inj] at ht
    refine (denormRow_ok ms ds h1 h2 A k c (le_refl c)).trans ?_
    rw [ok_inj]
    refine mk_congr fun i j => ?_
    rw [Matrix.updateRow_apply, Matrix.of_apply, ← ht]
    by_cases hi : i = k
    · subst hi
      rw [if_pos ⟨rfl, j.2⟩, if_pos rfl, hA]
    · rw [if_neg fun h => hi h.1, if_neg hi]
  · refine ⟨0, fun _ => none, fun r Z B => ?_⟩
    refine ⟨fun h => ?_, fun ⟨C, _, hC⟩ => absurd (hC 0) (by simp)⟩
    exfalso
    have h' := (loop_rows (K := c) _ Z (fun _ => none) (fun _ _ _ _ h => by cases h) (fun k A _ _ => denormRow_bad ms ds hc k A) B).1 h
    obtain ⟨C, -, hC⟩ := h'
    exact absurd (hC 0) (by simp)

/-- **C103** `predict` of a multi-response algorithm. -/
theorem C103_multi_predict (predict : M → Mat α → Except PyErr (Mat α)) (m : MultiModel α M)
    (h : RowWise (predict m.base)) : RowWise (multiPredict predict m) := by
  refine (h.bind (g := fun R => if m.hasTrans then
      loopM (fun i R => loopM (fun j R => multiDenormCell m.means m.sds i j R) (pyRange 0 R.cols) R)
        (pyRange 0 R.rows) R
    else .ok R) ?_).congr fun _ => rfl
  cases m.hasTrans with
  | true => exact (RowWise.multiDenorm m.means m.sds).congr fun _ => if_pos rfl
  | false => exact RowWise.id.congr fun _ => if_neg Bool.false_ne_true

end denorm

/-! ## One product -/

section product
variable [Field α]

/-- **C103** SIMPLS. -/
theorem C103_simpls_transform (m : SimplsModel α) : RowWise (simplsTransform m) := RowWise.mul m.W
/-- **C103** SIMPLS. -/
theorem C103_simpls_predict (m : SimplsModel α) : RowWise (simplsPredict m) := RowWise.mul m.B

/-- **C103** GLSW, EPO and YGradientGLSW. -/
theorem C103_glsw (G : Option (Mat α)) : RowWise (glswTransform G) := by
  cases G with
  | none => exact RowWise.fail .runtimeError
  | some G => exact RowWise.mul G

/-- **C103** OPLS: removing the orthogonal variation. -/
theorem C103_opls_transform (m : OplsModel α M) : RowWise (oplsTransform m) := by
  refine (RowWise.zip .invalidShape (· - ·) RowWise.id
    ((RowWise.mul m.W).bind (RowWise.mul m.P.transpose))).congr fun Z => ?_
  show oplsFilter m.W m.P Z = (Z.mul m.W >>= fun T => T.mul m.P.transpose) >>= fun b => Z.sub b
  unfold oplsFilter
  cases Z.mul m.W with
  | error e => rfl
  | ok T =>
    show (T.mul m.P.transpose >>= fun o => Z.sub o) = _
    rfl

/-- **C103** OPLS with a row-wise base algorithm. -/
theorem C103_opls_predict (base : BasePls α M) (m : OplsModel α M) (h : RowWise (base.predict m.base)) :
    RowWise (oplsPredict base m) := ((C103_opls_transform m).bind h).congr fun _ => rfl

end product

/-- **C103** PRM. -/
theorem C103_prm_predict [Field α] [LinearOrder α] [HasSqrt α] (m : PrmModel α) : RowWise (prmPredict m) :=
  RowWise.mul m.B

/-! ## NIPALS and SparsePLS -/

section std
variable [Field α] [HasSqrt α]

/-- A `Standardize` fitted by its first `transform`. -/
theorem standardize_first (isZero : α → Bool) (D : Mat α) {B : Mat α}
    (h : (transform (standardize isZero) D (standardize isZero).init).2 = .ok B) :
    (standardize isZero).configure D (standardize isZero).init =
      ((transform (standardize isZero) D (standardize isZero).init).1, .ok ()) := by
  rcases hc : (standardize isZero).configure D (standardize isZero).init with ⟨s, r⟩
  unfold transform at h ⊢
  rw [if_neg (show ¬ (standardize isZero).configured (standardize isZero).init = true from Bool.false_ne_true)] at h ⊢
  rw [hc] at h ⊢
  cases r with
  | error e => cases h
  | ok u => rfl

/-- The row-wise fitted state left by a successful first `transform`. -/
theorem rowWise_first (isZero : α → Bool) (D : Mat α) {B : Mat α}
    (h : (transform (standardize isZero) D (standardize isZero).init).2 = .ok B) :
    RowWise (fun Z => (transform (standardize isZero) Z
      (transform (standardize isZero) D (standardize isZero).init).1).2) :=
  C103_standardize isZero D _ _ (standardize_first isZero D h)

omit [HasSqrt α] in
theorem RowWise.scaleByRowVector (v : Mat α) : RowWise (fun Z : Mat α => Z.scaleByRowVector v) := by
  by_cases hv : v.isColumnVector = true
  · refine RowWise.total fun c => ?_
    have hv1 : v.cols = 1 := by
      unfold isColumnVector at hv
      rw [Bool.and_eq_true] at hv
      exact beq_iff_eq.1 hv.2
    by_cases hc : c = v.rows
    · subst hc
      obtain ⟨m, n, V⟩ := v
      obtain rfl : n = 1 := hv1
      refine .inr ⟨m, fun x j => x j * V j 0, fun r Z => ?_⟩
      unfold Mat.scaleByRowVector mustBeColumnVector
      rw [if_pos hv, except_bind_ok, if_pos rfl]
      exact vectorOp_row (· * ·) Z V.transpose
    · refine .inl fun r Z => ⟨.invalidShape, ?_⟩
      unfold Mat.scaleByRowVector mustBeColumnVector
      rw [if_pos hv, except_bind_ok, if_neg hc]
  · refine (RowWise.fail .valueError).congr fun Z => ?_
    unfold Mat.scaleByRowVector mustBeColumnVector
    rw [if_neg hv]
    rfl

/-- What training a NIPALS leaves behind. -/
theorem nipalsTrain_states (c : NipalsCfg α) (X Y : Mat α) (m : NipalsModel α) (h : nipalsTrain c X Y = .ok m) :
    (∃ B, (transform (standardize c.isZero) X (standardize c.isZero).init).2 = .ok B) ∧
    (∃ B, (transform (standardize c.isZero) Y (standardize c.isZero).init).2 = .ok B) ∧
    m.stdX = (transform (standardize c.isZero) X (standardize c.isZero).init).1 ∧
    m.stdY = (transform (standardize c.isZero) Y (standardize c.isZero).init).1 := by
  unfold nipalsTrain at h
  generalize transform (standardize c.isZero) X (standardize c.isZero).init = sx at h ⊢
  generalize transform (standardize c.isZero) Y (standardize c.isZero).init = sy at h ⊢
  dsimp only at h
  cases a1 : sx.2 with
  | error e => rw [a1] at h; cases h
  | ok X' =>
    rw [a1, except_bind_ok] at h
    cases a2 : sy.2 with
    | error e => rw [a2] at h; cases h
    | ok Y' =>
      rw [a2, except_bind_ok] at h
      refine ⟨⟨_, rfl⟩, ⟨_, rfl⟩, ?_⟩
      cases a3 : nipalsInit c X' Y' with
      | error e => rw [a3] at h; cases h
      | ok s =>
        rw [a3, except_bind_ok] at h
        cases a4 : loopM (nipalsStep c) (pyRange 0 c.K) s with
        | error e => rw [a4] at h; cases h
        | ok s =>
          rw [a4, except_bind_ok] at h
          cases a5 : nipalsRot c s.W s.P with
          | error e => rw [a5] at h; cases h
          | ok xr =>
            rw [a5, except_bind_ok] at h
            cases a6 : nipalsYRot c s with
            | error e => rw [a6] at h; cases h
            | ok yr =>
              rw [a6, except_bind_ok] at h
              cases a7 : xr.mul s.Q.transpose with
              | error e => rw [a7] at h; cases h
              | ok b =>
                rw [a7, except_bind_ok] at h
                cases a8 : sy.1.stds with
                | none => rw [a8] at h; cases h
                | some d =>
                  rw [a8] at h
                  dsimp only at h
                  cases a9 : b.scaleByRowVector d with
                  | error e => rw [a9] at h; cases h
                  | ok coef =>
                    rw [a9, except_bind_ok, ok_inj] at h
                    subst h
                    exact ⟨rfl, rfl⟩

/-- **C103** `predict` of a trained NIPALS. -/
theorem C103_nipals_predict (c : NipalsCfg α) (X Y : Mat α) (m : NipalsModel α) (h : nipalsTrain c X Y = .ok m) :
    RowWise (nipalsPredict c m) := by
  obtain ⟨⟨BX, hX⟩, ⟨BY, hY⟩, e1, e2⟩ := nipalsTrain_states c X Y m h
  have hx := rowWise_first c.isZero X hX
  rw [← e1] at hx
  obtain ⟨mu, sd, e3, hmu, _⟩ := standardize_fitted c.isZero Y _ _ (standardize_first c.isZero Y hY)
  rw [← e2] at e3
  refine (hx.bind ((RowWise.mul m.coef).bind (RowWise.vectorOp (· + ·) mu hmu))).congr fun Z => ?_
  unfold nipalsPredict
  rw [e3]
  rfl

/-- **C103** `transform` of a trained NIPALS. -/
theorem C103_nipals_transform (c : NipalsCfg α) (X Y : Mat α) (m : NipalsModel α) (h : nipalsTrain c X Y = .ok m) :
    RowWise (nipalsTransform c m) := by
  obtain ⟨⟨BX, hX⟩, _, e1, _⟩ := nipalsTrain_states c X Y m h
  have hx := rowWise_first c.isZero X hX
  rw [← e1] at hx
  exact (hx.bind (RowWise.mul m.xRot)).congr fun Z => rfl

/-- **C103** `transform_response` of a trained NIPALS. -/
theorem C103_nipals_transform_response (c : NipalsCfg α) (X Y : Mat α) (m : NipalsModel α)
    (h : nipalsTrain c X Y = .ok m) : RowWise (nipalsTransformResponse c m) := by
  obtain ⟨_, ⟨BY, hY⟩, _, e2⟩ := nipalsTrain_states c X Y m h
  have hy := rowWise_first c.isZero Y hY
  rw [← e2] at hy
  exact (hy.bind (RowWise.mul m.yRot)).congr fun Z => rfl

end std

section sparse
variable [Field α] [LinearOrder α] [HasSqrt α]

omit [Field α] [LinearOrder α] [HasSqrt α] in
theorem colsLoop_bad {n p : Nat} (X : Matrix (Fin n) (Fin p) α) (A : List Nat) (h : ∃ i ∈ A, p ≤ i) (k : Nat) (N : Mat α) :
    ∃ e, colsLoop (of X) A k N = .error e := by
  induction A generalizing k N with
  | nil => obtain ⟨i, hi, _⟩ := h; cases hi
  | cons a A ih =>
    rw [colsLoop]
    cases h1 : (of X).getColumn (a : Int) with
    | error e => exact ⟨e, rfl⟩
    | ok v =>
      rw [except_bind_ok]
      cases h2 : N.setColumn (k : Int) v with
      | error e => exact ⟨e, rfl⟩
      | ok N' =>
        rw [except_bind_ok]
        refine ih ?_ _ _
        obtain ⟨i, hi, hp⟩ := h
        rcases List.mem_cons.1 hi with rfl | hi
        · exfalso
          unfold getColumn at h1
          have e : pyIndex (of X).cols (i : Int) = .error .indexError := pyIndex_error_iff.2 (.inr (Int.ofNat_le.2 hp))
          rw [e] at h1
          cases h1
        · exact ⟨i, hi, hp⟩

omit [LinearOrder α] [HasSqrt α] in
theorem RowWise.spCols (A : List Nat) : RowWise (fun Z : Mat α => Verif.spCols Z A) := by
  refine RowWise.total fun c => ?_
  by_cases h : ∀ i ∈ A, i < c
  · exact .inr ⟨A.length, fun x j => x ⟨A[j.1], h _ (List.getElem_mem j.2)⟩, fun r Z => spCols_of (Nat.succ_pos r) Z A h⟩
  · push Not at h
    refine .inl fun r Z => ?_
    unfold Verif.spCols
    have hz : Factory.zeros (α := α) ((of Z).rows : Int) (A.length : Int) = .ok (of (0 : Matrix (Fin (r + 1)) (Fin A.length) α)) :=
      Factory.zeros_nat (Nat.succ_pos r) _
    rw [hz, except_bind_ok]
    exact colsLoop_bad Z A h 0 _

theorem spTrain_states (c : SpCfg α) (X Y : Mat α) (m : SpModel α) (h : spTrain c X Y = .ok m) :
    (∃ B, (transform (standardize c.isZero) X (standardize c.isZero).init).2 = .ok B) ∧
    (∃ B, (transform (standardize c.isZero) Y (standardize c.isZero).init).2 = .ok B) ∧
    m.stdX = (transform (standardize c.isZero) X (standardize c.isZero).init).1 ∧
    m.stdY = (transform (standardize c.isZero) Y (standardize c.isZero).init).1 := by
  unfold spTrain at h
  generalize transform (standardize c.isZero) X (standardize c.isZero).init = sx at h ⊢
  generalize transform (standardize c.isZero) Y (standardize c.isZero).init = sy at h ⊢
  dsimp only at h
  cases a1 : sx.2 with
  | error e => rw [a1] at h; cases h
  | ok X' =>
    rw [a1, except_bind_ok] at h
    cases a2 : sy.2 with
    | error e => rw [a2] at h; cases h
    | ok Y' =>
      rw [a2, except_bind_ok] at h
      refine ⟨⟨_, rfl⟩, ⟨_, rfl⟩, ?_⟩
      cases a3 : spInit c X' Y' with
      | error e => rw [a3] at h; cases h
      | ok s =>
        rw [a3, except_bind_ok] at h
        cases a4 : loopM (spStep c X' Y') (pyRange 0 c.K) s with
        | error e => rw [a4] at h; cases h
        | ok s =>
          rw [a4, except_bind_ok, ok_inj] at h
          subst h
          exact ⟨rfl, rfl⟩

/-- **C103** `predict` of a trained SparsePLS. -/
theorem C103_sparse_predict (c : SpCfg α) (X Y : Mat α) (m : SpModel α) (h : spTrain c X Y = .ok m) :
    RowWise (spPredict c m) := by
  obtain ⟨⟨BX, hX⟩, ⟨BY, hY⟩, e1, e2⟩ := spTrain_states c X Y m h
  have hx := rowWise_first c.isZero X hX
  rw [← e1] at hx
  obtain ⟨mu, sd, e3, hmu, _⟩ := standardize_fitted c.isZero Y _ _ (standardize_first c.isZero Y hY)
  rw [← e2] at e3
  cases hB : spRows m.vars.B m.vars.A with
  | error e =>
    refine (((hx.bind (RowWise.spCols m.vars.A))).bind (RowWise.fail (β := α) e)).congr fun Z => ?_
    unfold spPredict
    rw [hB]
    cases (transform (standardize c.isZero) Z m.stdX).2 with
    | error e => rfl
    | ok Z' => rfl
  | ok BA =>
    refine (((hx.bind (RowWise.spCols m.vars.A))).bind ((RowWise.mul BA).bind ((RowWise.scaleByRowVector sd).bind
      (RowWise.vectorOp (· + ·) mu hmu)))).congr fun Z => ?_
    unfold spPredict
    rw [hB, e3]
    cases (transform (standardize c.isZero) Z _).2 with
    | error e => rfl
    | ok Z' => rfl

end sparse

/-! ## KernelPLS -/

section kernel
variable [Field α]

omit [Field α] in
theorem rw_filled (r m : Nat) (v : α) :
    Factory.filled (r : Int) (m : Int) v = .ok (of (Matrix.of fun (_ : Fin r) (_ : Fin m) => v)) := by
  unfold Factory.filled
  rw [if_neg (by omega)]
  rfl

theorem rw_eye (p : Nat) : Factory.eye (α := α) (p : Int) (p : Int) = .ok (of (1 : Matrix (Fin p) (Fin p) α)) := by
  unfold Factory.eye Factory.defaultColumns
  simp only [show ¬((p : Int) = -1) by omega, if_false]
  rw [if_neg (by omega)]
  congr 1
  refine mk_eq (by simp) (by simp) fun i j => ?_
  simp [Matrix.one_apply, Fin.ext_iff]

/-- Centring in kernel space uses the training matrix only. -/
theorem RowWise.kplsCentreTest (n : Nat) (Ko : Mat α) : RowWise (fun K : Mat α => Verif.kplsCentreTest n Ko K) := by
  have h1 : RowWise (fun K : Mat α => Factory.filled (K.rows : Int) (n : Int) (1 / (n : α))) :=
    RowWise.total fun c => .inr ⟨n, fun _ _ => 1 / (n : α), fun r Z => rw_filled (r + 1) n _⟩
  refine ((RowWise.zip .invalidShape (· - ·) RowWise.id (h1.bind (RowWise.mul Ko))).bind
    (RowWise.mul (of ((1 : Matrix (Fin n) (Fin n) α) - Matrix.of fun _ _ => 1 / (n : α))))).congr fun K => ?_
  have e1 : Factory.eye (α := α) (n : Int) (n : Int) = .ok (of (1 : Matrix (Fin n) (Fin n) α)) := rw_eye n
  unfold Verif.kplsCentreTest
  rw [e1, except_bind_ok, rw_filled, rw_filled, except_bind_ok, except_bind_ok, sub_of]
  show _ = ((of (Matrix.of fun (_ : Fin K.rows) (_ : Fin n) => 1 / (n : α))).mul Ko >>= fun b => K.sub b) >>= _
  cases (of (Matrix.of fun (_ : Fin K.rows) (_ : Fin n) => 1 / (n : α))).mul Ko with
  | error e => rfl
  | ok a =>
    show (K.sub a >>= fun d => _) = K.sub a >>= _
    rfl

variable [HasSqrt α]

/-- What training a KernelPLS leaves behind. -/
theorem kplsTrain_states {σ : Type} (c : KplsCfg α σ) (kern : σ) (X Y : Mat α) (m : KplsModel α σ)
    (h : kplsTrain c kern X Y = .ok m) :
    m.centerX = (center.configure X center.init).1 ∧ m.centerY = (center.configure Y center.init).1 := by
  unfold kplsTrain at h
  have ex : (transform center X center.init).1 = (center.configure X center.init).1 := rfl
  have ey : (transform center Y center.init).1 = (center.configure Y center.init).1 := rfl
  rw [← ex, ← ey]
  generalize transform center X center.init = sx at h ⊢
  generalize transform center Y center.init = sy at h ⊢
  dsimp only at h
  cases a1 : sx.2 with
  | error e => rw [a1] at h; cases h
  | ok X' =>
    rw [a1, except_bind_ok] at h
    cases a2 : sy.2 with
    | error e => rw [a2] at h; cases h
    | ok Y' =>
      rw [a2, except_bind_ok] at h
      cases a3 : (c.kern1 kern X').2 with
      | error e => rw [a3] at h; cases h
      | ok K =>
        rw [a3, except_bind_ok] at h
        cases a4 : kplsCentreTrain X'.rows K with
        | error e => rw [a4] at h; cases h
        | ok K =>
          rw [a4, except_bind_ok] at h
          cases a5 : kplsInit c K Y' X'.rows with
          | error e => rw [a5] at h; cases h
          | ok s =>
            rw [a5, except_bind_ok] at h
            cases a6 : loopM (kplsStep c) (pyRange 0 c.K) s with
            | error e => rw [a6] at h; cases h
            | ok s =>
              rw [a6, except_bind_ok] at h
              cases a7 : kplsRhs c s.T K s.U s.Q with
              | error e => rw [a7] at h; cases h
              | ok B =>
                rw [a7, except_bind_ok, ok_inj] at h
                subst h
                exact ⟨rfl, rfl⟩

/-- **C103** `transform` of a trained KernelPLS, if the kernel is row-wise in its first argument (as `C103_linear_kernel`,
`C103_poly_kernel` and `C103_rbf_kernel` are). -/
theorem C103_kernel_transform {σ : Type} (c : KplsCfg α σ) (kern : σ) (X Y : Mat α) (m : KplsModel α σ)
    (h : kplsTrain c kern X Y = .ok m) (hk : RowWise (fun Z => (c.kern2 m.kern Z m.X).2)) :
    RowWise (kplsTransform c m) := by
  obtain ⟨e1, _⟩ := kplsTrain_states c kern X Y m h
  have hx := C103_center X (center.init : CenterState α)
  rw [← e1] at hx
  exact (hx.bind (hk.bind ((RowWise.kplsCentreTest m.X.rows m.Korig).bind (RowWise.mul m.vars.U)))).congr fun Z => rfl

/-- **C103** `predict` of a trained KernelPLS. -/
theorem C103_kernel_predict {σ : Type} (c : KplsCfg α σ) (kern : σ) (X Y : Mat α) (m : KplsModel α σ)
    (h : kplsTrain c kern X Y = .ok m) (hk : RowWise (fun Z => (c.kern2 m.kern Z m.X).2)) :
    RowWise (kplsPredict c m) := by
  obtain ⟨_, e2⟩ := kplsTrain_states c kern X Y m h
  have hy := C103_center_inverse Y (center.init : CenterState α)
  rw [← e2] at hy
  exact ((C103_kernel_transform c kern X Y m h hk).bind ((RowWise.mul m.B).bind hy)).congr fun Z => rfl

end kernel

/-! ## DIPLS and CCA -/

section centred
variable [Field α]

/-- A `Center` attribute as it can occur: not configured, or with a row of means. -/
def SaneCentre : Option (CenterState α) → Prop
  | none => True
  | some s => s.configured = true → ∃ v, s.means = some v ∧ v.rows = 1

omit [Field α] in
theorem sane_new : SaneCentre (some (⟨false, none⟩ : CenterState α)) := fun h => Bool.noConfusion h

/-- Centring leaves a configured object. -/
theorem optCentre_state {o : Option (CenterState α)} (ho : SaneCentre o) {A : Mat α} {x : CenterState α × Mat α}
    (h : optCentre o A = .ok x) : ∃ v, x.1 = ⟨true, some v⟩ ∧ v.rows = 1 := by
  cases o with
  | none => cases h
  | some s =>
    obtain ⟨b, mu⟩ := s
    unfold optCentre at h
    dsimp only at h
    cases h1 : (transform center A (⟨b, mu⟩ : CenterState α)).2 with
    | error e => rw [h1] at h; cases h
    | ok B =>
      rw [h1, except_bind_ok, ok_inj] at h
      subst h
      cases b with
      | false => exact ⟨A.columnMeans, rfl, rfl⟩
      | true =>
        obtain ⟨v, hv, hv1⟩ := ho rfl
        obtain rfl : mu = some v := hv
        exact ⟨v, rfl, hv1⟩

/-- A configured object centres every row by itself. -/
theorem RowWise.optCentre (v : Mat α) (hv : v.rows = 1) :
    RowWise (fun Z : Mat α => Verif.optCentre (some ⟨true, some v⟩) Z >>= fun z => .ok z.2) := by
  refine (RowWise.vectorOp (· - ·) v hv).congr fun Z => ?_
  show ((Z.vectorOp (· - ·) v >>= fun B => Except.ok ((⟨true, some v⟩ : CenterState α), B)) >>= fun z => .ok z.2) = _
  cases Z.vectorOp (· - ·) v with
  | error e => rfl
  | ok B => rfl

end centred

section dipls
variable [Field α] [HasSqrt α]

/-- What training a DIPLS leaves behind. -/
theorem diplsPerform_states (cfg : DiplsCfg α) (o : DiplsObj α) (X y : Mat α) (m : DiplsModel α)
    (ho : SaneCentre o.xc ∧ SaneCentre o.xtc) (h : diplsPerform cfg o X y = .ok (.trained m)) :
    (∃ v, m.obj.xc = some ⟨true, some v⟩ ∧ v.rows = 1) ∧ (∃ v, m.obj.xtc = some ⟨true, some v⟩ ∧ v.rows = 1) := by
  unfold diplsPerform at h
  cases a1 : Factory.eye (α := α) (X.cols : Int) (X.cols : Int) with
  | error e => rw [a1] at h; cases h
  | ok I =>
    rw [a1, except_bind_ok] at h
    by_cases g1 : o.ns = 0 ∨ o.nt = 0
    · rw [if_pos g1] at h; cases h
    rw [if_neg g1] at h
    by_cases g2 : o.ns = 1 ∨ o.nt = 1
    · rw [if_pos g2] at h; cases h
    rw [if_neg g2] at h
    cases a2 : diplsSelect o X with
    | error e => rw [a2] at h; cases h
    | ok s =>
      rw [a2, except_bind_ok] at h
      cases a3 : diplsFit cfg o I s.1 s.2.1 s.2.2 y with
      | error e => rw [a3] at h; cases h
      | ok m' =>
        rw [a3, except_bind_ok, ok_inj] at h
        cases h
        unfold diplsFit at a3
        cases b1 : optCentre o.xc s.2.2 with
        | error e => rw [b1] at a3; cases a3
        | ok x =>
          rw [b1, except_bind_ok] at a3
          cases b2 : optCentre o.xsc s.1 with
          | error e => rw [b2] at a3; cases a3
          | ok xs =>
            rw [b2, except_bind_ok] at a3
            cases b3 : optCentre o.xtc s.2.1 with
            | error e => rw [b3] at a3; cases a3
            | ok xt =>
              rw [b3, except_bind_ok] at a3
              cases b4 : loopM (diplsStep cfg o I) (pyRange 0 cfg.K)
                  ⟨x.2, xs.2, xt.2, y.subScalar y.meanAll, none, none, none, none, none, none, none, none⟩ with
              | error e => rw [b4] at a3; cases a3
              | ok v =>
                rw [b4, except_bind_ok] at a3
                cases b5 : diplsCoefs cfg v with
                | error e => rw [b5] at a3; cases a3
                | ok b =>
                  rw [b5, except_bind_ok, ok_inj] at a3
                  subst a3
                  obtain ⟨v1, h1, h1'⟩ := optCentre_state ho.1 b1
                  obtain ⟨v2, h2, h2'⟩ := optCentre_state ho.2 b3
                  exact ⟨⟨v1, congrArg some h1, h1'⟩, ⟨v2, congrArg some h2, h2'⟩⟩

/-- **C103** `transform` of a trained DIPLS. -/
theorem C103_dipls_transform (cfg : DiplsCfg α) (o : DiplsObj α) (X y : Mat α) (m : DiplsModel α)
    (ho : SaneCentre o.xc ∧ SaneCentre o.xtc) (h : diplsPerform cfg o X y = .ok (.trained m)) :
    RowWise (diplsTransform m) := by
  obtain ⟨⟨v, hv, hv1⟩, _⟩ := diplsPerform_states cfg o X y m ho h
  cases hW : unNone m.vars.W with
  | error e =>
    refine ((RowWise.optCentre v hv1).bind (RowWise.fail e)).congr fun Z => ?_
    unfold diplsTransform
    rw [hv, hW]
    cases optCentre (some ⟨true, some v⟩) Z with
    | error e => rfl
    | ok z => rfl
  | ok W =>
    refine ((RowWise.optCentre v hv1).bind (RowWise.mul W)).congr fun Z => ?_
    unfold diplsTransform
    rw [hv, hW]
    cases optCentre (some ⟨true, some v⟩) Z with
    | error e => rfl
    | ok z => rfl

/-- **C103** `predict` of a trained DIPLS. -/
theorem C103_dipls_predict (cfg : DiplsCfg α) (o : DiplsObj α) (X y : Mat α) (m : DiplsModel α)
    (ho : SaneCentre o.xc ∧ SaneCentre o.xtc) (h : diplsPerform cfg o X y = .ok (.trained m)) :
    RowWise (diplsPredict m) := by
  obtain ⟨⟨v, hv, hv1⟩, ⟨w, hw, hw1⟩⟩ := diplsPerform_states cfg o X y m ho h
  have key : ∀ u : Mat α, u.rows = 1 → RowWise (fun Z => do
      let z ← optCentre (some ⟨true, some u⟩) Z
      let r ← z.2.mul m.b
      (.ok (r.addScalar m.b0) : Except PyErr (Mat α))) := fun u hu => by
    refine ((RowWise.optCentre u hu).bind ((RowWise.mul m.b).bind (RowWise.map (· + m.b0)))).congr fun Z => ?_
    cases optCentre (some ⟨true, some u⟩) Z with
    | error e => rfl
    | ok z => rfl
  cases hs : m.obj.strategy with
  | none =>
    refine (RowWise.fail .attributeError).congr fun Z => ?_
    unfold diplsPredict
    rw [hs]
    rfl
  | some st =>
    cases st with
    | unsupervised =>
      refine (key w hw1).congr fun Z => ?_
      unfold diplsPredict
      rw [hs, hw]
    | supervised =>
      refine (key v hv1).congr fun Z => ?_
      unfold diplsPredict
      rw [hs, hv]
    | semisupervised =>
      refine (key v hv1).congr fun Z => ?_
      unfold diplsPredict
      rw [hs, hv]

end dipls

section cca
variable [Field α] [DecidableEq α] [HasSqrt α]

/-- What training a CCAFilter leaves behind. -/
theorem ccaInit_states (cfg : CcaCfg α) (o o' : CcaObj α) (X Y : Mat α) (ho : SaneCentre o.cX ∧ SaneCentre o.cY)
    (h : ccaInit cfg o X Y = .ok (o', none)) :
    ∃ v w A B, o' = ⟨some ⟨true, some v⟩, some ⟨true, some w⟩, some A, some B, true⟩ ∧ v.rows = 1 ∧ w.rows = 1 := by
  unfold ccaInit at h
  by_cases g : cfg.kcca > min (X.cols : Int) (Y.cols : Int)
  · rw [if_pos g] at h; cases h
  rw [if_neg g] at h
  cases b1 : optCentre o.cX X with
  | error e => rw [b1] at h; cases h
  | ok x =>
    rw [b1, except_bind_ok] at h
    cases b2 : optCentre o.cY Y with
    | error e => rw [b2] at h; cases h
    | ok y =>
      rw [b2, except_bind_ok] at h
      cases b3 : ccaProj cfg x.2 y.2 with
      | error e => rw [b3] at h; cases h
      | ok P =>
        rw [b3, except_bind_ok, ok_inj] at h
        obtain ⟨v, hv, hv1⟩ := optCentre_state ho.1 b1
        obtain ⟨w, hw, hw1⟩ := optCentre_state ho.2 b2
        refine ⟨v, w, P.1, P.2, ?_, hv1, hw1⟩
        rw [← hv, ← hw]
        exact (congrArg Prod.fst h).symm

/-- **C103** `transform` of a trained CCAFilter. -/
theorem C103_cca_transform (cfg : CcaCfg α) (o o' : CcaObj α) (X Y : Mat α) (ho : SaneCentre o.cX ∧ SaneCentre o.cY)
    (h : ccaInit cfg o X Y = .ok (o', none)) : RowWise (ccaTransform o') := by
  obtain ⟨v, w, A, B, rfl, hv, hw⟩ := ccaInit_states cfg o o' X Y ho h
  refine ((RowWise.optCentre v hv).bind (RowWise.mul A)).congr fun Z => ?_
  unfold ccaTransform
  rw [if_pos rfl]
  dsimp only
  cases optCentre (some ⟨true, some v⟩) Z with
  | error e => rfl
  | ok z => rfl

/-- **C103** `transform_response` of a trained CCAFilter. -/
theorem C103_cca_transform_response (cfg : CcaCfg α) (o o' : CcaObj α) (X Y : Mat α)
    (ho : SaneCentre o.cX ∧ SaneCentre o.cY) (h : ccaInit cfg o X Y = .ok (o', none)) :
    RowWise (ccaTransformResponse o') := by
  obtain ⟨v, w, A, B, rfl, hv, hw⟩ := ccaInit_states cfg o o' X Y ho h
  refine ((RowWise.optCentre w hw).bind (RowWise.mul B)).congr fun Z => ?_
  unfold ccaTransformResponse
  rw [if_pos rfl]
  dsimp only
  cases optCentre (some ⟨true, some w⟩) Z with
  | error e => rfl
  | ok z => rfl

end cca

/-! ## PCA -/

/-- **C103** `do_transform` of a fitted PCA, on data with the columns it was fitted on.  (`transform` refits, C84.) -/
theorem C103_pca {n q : Nat} (cfg : PcaCfg ℝ) (hcfg : PcaReal cfg) (X : Matrix (Fin n) (Fin q) ℝ)
    (h : ∃ j i i', X i j ≠ X i' j) :
    ∃ st S L, pcaTransform cfg (of X) = .ok (st, S, L) ∧ RowWiseAt q (pcaScores cfg st) := by
  obtain ⟨p, κ, ev, V, comp, K, hK, st, S, L, h1, _, h3⟩ := C84_do_transform_partial cfg hcfg X h
  refine ⟨st, S, L, h1, K, fun x => some fun c =>
    (prepared cfg.centered X κ (Matrix.of fun (_ : Fin 1) => x) * V) 0 (comp ⟨c.1, lt_of_lt_of_le c.2 hK⟩),
    fun r Z B => ?_⟩
  obtain ⟨S', e1, e2⟩ := h3 (r + 1) Z (Nat.succ_pos r)
  have e3 : ∀ i c, S' i c = (prepared cfg.centered X κ (Matrix.of fun (_ : Fin 1) => Z i) * V) 0
      (comp ⟨c.1, lt_of_lt_of_le c.2 hK⟩) := fun i c => by
    rw [e2 i c, Matrix.mul_apply, Matrix.mul_apply]
    rfl
  rw [e1, ok_inj]
  constructor
  · rintro rfl
    exact ⟨S', rfl, fun i => congrArg some (funext fun c => (e3 i c).symm)⟩
  · rintro ⟨C, rfl, hC⟩
    exact mk_congr fun i c => (e3 i c).trans (congrFun (Option.some_injective _ (hC i)) c)

/-! ## What is not row-wise -/

/-- Two data sets sharing their first row but not the first row of their results. -/
theorem not_rowWise {f : Mat α → Except PyErr (Mat β)} {r r' c c' : Nat} (Z : Matrix (Fin (r + 1)) (Fin c) α)
    (Z' : Matrix (Fin (r' + 1)) (Fin c) α) (B : Matrix (Fin (r + 1)) (Fin c') β) (B' : Matrix (Fin (r' + 1)) (Fin c') β)
    (hZ : f (of Z) = .ok (of B)) (hZ' : f (of Z') = .ok (of B')) (h0 : Z 0 = Z' 0) (hne : B 0 ≠ B' 0) : ¬ RowWiseAt c f := by
  rintro ⟨d, φ, h⟩
  obtain ⟨C, hC, hC1⟩ := (h r Z _).1 hZ
  obtain ⟨C', hC', hC1'⟩ := (h r' Z' _).1 hZ'
  have e : c' = d := congrArg Mat.cols hC
  subst e
  have e1 : B = C := of_injective hC
  have e2 : B' = C' := of_injective hC'
  subst e1 e2
  exact hne (Option.some_injective _ ((hC1 0).symm.trans ((congrArg φ h0).trans (hC1' 0))))

/-- **C103 (violation)** `SparsePLS.transform` deflates with the data it is given. -/
theorem C103_sparse_transform_violation (cfg : SpCfg ℝ) (hK : cfg.K = 2) (m : SpModel ℝ)
    (hW : m.vars.W = of (!![1, 1; 1, 0] : Matrix (Fin 2) (Fin 2) ℝ)) : ¬ RowWise (spTransform cfg m) := by
  obtain ⟨T1, T2, h1, h2, -, h3, h4⟩ := C83_batch_violation cfg hK m hW
  refine fun h => not_rowWise (r := 0) (r' := 1) _ _ T1 T2 h1 h2 ?_ ?_ (h 2)
  · funext j
    fin_cases j <;> rfl
  · intro e
    have := congrFun e 1
    rw [h3, h4] at this
    norm_num at this

/-- **C103 (violation)** `PCA.transform` refits on the data it is given. -/
theorem C103_pca_transform_violation (cfg : PcaCfg ℝ) (hcfg : PcaReal cfg) (hc : cfg.centered = true) :
    ¬ RowWise (fun Z => pcaTransform cfg Z >>= fun r => .ok r.2.1) := by
  obtain ⟨st, st', S, S', L, L', h1, h2, h3, h4⟩ := C84_same_row_violation cfg hcfg hc
  refine fun h => not_rowWise (r := 1) (r' := 1) (!![0; 2] : Matrix (Fin 2) (Fin 1) ℝ) (!![0; 4] : Matrix (Fin 2) (Fin 1) ℝ) S S' ?_ ?_ ?_ ?_ (h 1)
  · show pcaTransform cfg (of (!![0; 2] : Matrix (Fin 2) (Fin 1) ℝ)) >>= _ = _
    rw [h1]
    rfl
  · show pcaTransform cfg (of (!![0; 4] : Matrix (Fin 2) (Fin 1) ℝ)) >>= _ = _
    rw [h2]
    rfl
  · funext j
    fin_cases j
    rfl
  · intro e
    have := congrFun e 0
    rw [this, h4] at h3
    norm_num at h3

/-! ## Examples -/

/-- Predicting three samples with PLS1 gives, for each, what predicting it alone gives; a batch and its reversal have
reversed predictions. -/
example (m : Pls1Model ℝ) (Z : Matrix (Fin 3) (Fin 2) ℝ) (C : Matrix (Fin 3) (Fin 1) ℝ)
    (h : pls1Predict 2 m (of Z) = .ok (of C)) :
    pls1Predict 2 m (of (rowSel (![2, 1, 0] : Fin 3 → Fin 3) Z)) = .ok (of (rowSel (![2, 1, 0] : Fin 3 → Fin 3) C)) ∧
    pls1Predict 2 m (of (rowSel (![1] : Fin 1 → Fin 3) Z)) = .ok (of (rowSel (![1] : Fin 1 → Fin 3) C)) :=
  ⟨C103_selected (C103_pls1_predict 2 m 2) Z _ C h, C103_selected (C103_pls1_predict 2 m 2) Z _ C h⟩

/-- Trained models meeting the hypotheses exist: SparsePLS on `x = y = 1, 2, 3`. -/
example (med amax : Mat ℝ → ℝ) (hmed : ∀ p (f : Fin p → ℝ) (a : ℝ), 0 < p → (∀ i, f i = a) →
    med (of (Matrix.of fun i (_ : Fin 1) => f i)) = a) (hmax : IsAmax amax) :
    ∃ m, spTrain (spRamp med amax) (of ramp) (of ramp) = .ok m ∧ RowWise (spPredict (spRamp med amax) m) := by
  obtain ⟨m, h, -⟩ := sp_example med amax hmed hmax
  exact ⟨m, h, C103_sparse_predict _ _ _ m h⟩

/-- … KernelPLS with a polynomial kernel. -/
example : ∃ (v : Nat → Matrix (Fin 3) (Fin 1) ℝ) (m : KplsModel ℝ (PolyState ℝ)),
    kplsTrain (pkCfg 1 5 v (fun A => .ok A)) ⟨2, 0, none⟩ (of pkX) (of pkY) = .ok m ∧
      RowWise (kplsPredict (pkCfg 1 5 v (fun A => .ok A)) m) := by
  obtain ⟨m, _, _, _, h, -⟩ := C75_violation 1 one_pos 5 (by decide) (fun _ => !![1; 0; 0]) (by simp) (fun A => .ok A)
  exact ⟨_, m, h, C103_kernel_predict _ _ _ _ m h (C103_poly_kernel m.kern m.X)⟩

/-- … DIPLS. -/
example : ∃ m, diplsSupervised (exactCfg 2 1) diplsFresh (of dxA) (of dxA) (of dxY) (of dxY) = .ok (.trained m) ∧
    RowWise (diplsPredict m) := by
  have h := C59_supervised (exactCfg_inv 2 1) diplsFresh ⟨rfl, rfl, rfl⟩ (by decide) (by decide) 2 (by decide) rfl _ _ _ _
    (dx_reg 1)
  refine ⟨_, h, ?_⟩
  unfold diplsSupervised at h
  cases h1 : (of dxA).concatAlongRows (of dxA) with
  | error e => rw [h1] at h; cases h
  | ok X =>
    rw [h1, except_bind_ok] at h
    cases h2 : (of dxY).concatAlongRows (of dxY) with
    | error e => rw [h2] at h; cases h
    | ok Y =>
      rw [h2, except_bind_ok] at h
      exact C103_dipls_predict _ _ X Y _ ⟨sane_new, sane_new⟩ h

/-- … CCAFilter. -/
example : ∃ o, ccaInit ccaExCca ccaFresh (of ccaExX) (of ccaExY) = .ok (o, none) ∧ RowWise (ccaTransform o) := by
  obtain ⟨o, _, _, h, -⟩ := C87_cross_violation
  exact ⟨o, h, C103_cca_transform _ ccaFresh o _ _ ⟨sane_new, sane_new⟩ h⟩

end Verif.Props
