import Verif.Props.DiplsProps
import Verif.Props.Refuse4

/-!
# C158: DIPLS is trained through its three methods only

`do_perform_initialization` checks "if correct initialization method was called" (`_DIPLS.py` 112-117) by looking at the numbers of source
and target samples, which `reset` and a further `initialize` leave as they are.
-/

namespace Verif.Props
open Verif Verif.Mat Verif.Transf
open scoped Matrix

section plain
variable {α : Type} [Field α] [HasSqrt α]

omit [HasSqrt α] in
theorem optCentre_again {o : Option (CenterState α)} {A : Mat α} {x : CenterState α × Mat α} (h : optCentre o A = .ok x) :
    optCentre (some x.1) A = .ok x := by
  cases o with
  | none => cases h
  | some s =>
    obtain ⟨b, v⟩ := s
    cases b with
    | true =>
      unfold optCentre at h ⊢
      obtain ⟨B, h1, h2⟩ := Utils.bind_ok_iff.1 h
      injection h2 with h2
      subst h2
      have h3 : (transform center A ⟨true, v⟩).1 = ⟨true, v⟩ := rfl
      simp only [h3]
      rw [h1]
      rfl
    | false =>
      unfold optCentre at h ⊢
      obtain ⟨B, h1, h2⟩ := Utils.bind_ok_iff.1 h
      injection h2 with h2
      subst h2
      have h3 : (transform center A ⟨false, v⟩).1 = ⟨true, some A.columnMeans⟩ := rfl
      have h4 : (transform center A ⟨false, v⟩).2 = (transform center A ⟨true, some A.columnMeans⟩).2 := rfl
      have h5 : (transform center A ⟨true, some A.columnMeans⟩).1 = ⟨true, some A.columnMeans⟩ := rfl
      simp only [h3, h5]
      rw [← h4, h1]
      rfl

/-- A new object, or one trained with no source or no target samples, refuses plain `initialize(X, y)` with the message that names the three methods,
whatever the data. -/
theorem C158_new_partial (cfg : DiplsCfg ℝ) (o : DiplsObj ℝ) (h : o.ns = 0 ∨ o.nt = 0) (X y : Mat ℝ) :
    diplsPerform cfg o X y = .ok (.message msgNoInit) := (C59_messages cfg o X y _).2 (.inl ⟨h, rfl⟩)

theorem perform_again (cfg : DiplsCfg α) (o : DiplsObj α) (X y : Mat α) (m : DiplsModel α) (h : diplsPerform cfg o X y = .ok (.trained m)) :
    diplsPerform cfg m.obj X y = .ok (.trained m) ∧ m.obj.ns = o.ns ∧ m.obj.nt = o.nt ∧ m.obj.strategy = o.strategy := by
  unfold diplsPerform at h ⊢
  obtain ⟨I, hI, h⟩ := Utils.bind_ok_iff.1 h
  rw [hI, except_bind_ok]
  by_cases h0 : o.ns = 0 ∨ o.nt = 0
  · rw [if_pos h0] at h
    injection h with h
    cases h
  rw [if_neg h0] at h
  by_cases h1 : o.ns = 1 ∨ o.nt = 1
  · rw [if_pos h1] at h
    injection h with h
    cases h
  rw [if_neg h1] at h
  obtain ⟨s, hs, h⟩ := Utils.bind_ok_iff.1 h
  obtain ⟨m', hm, h⟩ := Utils.bind_ok_iff.1 h
  injection h with h
  injection h with h
  subst h
  unfold diplsFit at hm
  obtain ⟨x, hx, hm⟩ := Utils.bind_ok_iff.1 hm
  obtain ⟨xs, hxs, hm⟩ := Utils.bind_ok_iff.1 hm
  obtain ⟨xt, hxt, hm⟩ := Utils.bind_ok_iff.1 hm
  obtain ⟨v, hv, hm⟩ := Utils.bind_ok_iff.1 hm
  obtain ⟨b, hb, hm⟩ := Utils.bind_ok_iff.1 hm
  injection hm with hm
  subst hm
  refine ⟨?_, rfl, rfl, rfl⟩
  dsimp only
  rw [if_neg h0, if_neg h1]
  have hs' : diplsSelect { o with xc := some x.1, xsc := some xs.1, xtc := some xt.1 } X = .ok s := hs
  rw [hs', except_bind_ok]
  unfold diplsFit
  dsimp only
  rw [optCentre_again hx, except_bind_ok, optCentre_again hxs, except_bind_ok, optCentre_again hxt, except_bind_ok]
  have hv' : loopM (diplsStep cfg { o with xc := some x.1, xsc := some xs.1, xtc := some xt.1 } I) (pyRange 0 cfg.K)
      ⟨x.2, xs.2, xt.2, y.subScalar y.meanAll, none, none, none, none, none, none, none, none⟩ = .ok v := hv
  rw [hv', except_bind_ok, hb, except_bind_ok, except_bind_ok]

/-- **C158, violation.**  After any successful training plain `initialize(X, y)` is no longer refused: given the stacked data of that training it
trains the same model again, with the numbers of samples and the mode remembered from before. -/
theorem C158_again_violation (cfg : DiplsCfg α) (o : DiplsObj α) (Xs Xt ys yt X y : Mat α) (m : DiplsModel α) (hX : Xs.concatAlongRows Xt = .ok X)
    (hy : ys.concatAlongRows yt = .ok y) (h : diplsSupervised cfg o Xs Xt ys yt = .ok (.trained m)) :
    diplsPerform cfg m.obj X y = .ok (.trained m) ∧ m.obj.ns = Xs.rows ∧ m.obj.nt = Xt.rows ∧ m.obj.strategy = some .supervised := by
  unfold diplsSupervised at h
  rw [hX, except_bind_ok, hy, except_bind_ok] at h
  exact perform_again cfg _ X y m h

/-- Likewise after unsupervised training. -/
theorem C158_unsupervised_violation (cfg : DiplsCfg α) (o : DiplsObj α) (Xs Xt ys X : Mat α) (m : DiplsModel α) (hX : Xs.concatAlongRows Xt = .ok X)
    (h : diplsUnsupervised cfg o Xs Xt ys = .ok (.trained m)) :
    diplsPerform cfg m.obj X ys = .ok (.trained m) ∧ m.obj.ns = Xs.rows ∧ m.obj.nt = Xt.rows ∧ m.obj.strategy = some .unsupervised := by
  unfold diplsUnsupervised at h
  rw [hX, except_bind_ok] at h
  exact perform_again cfg _ X ys m h

end plain

example (cfg : DiplsCfg ℝ) (X y : Mat ℝ) : diplsPerform cfg diplsFresh X y = .ok (.message msgNoInit) := C158_new_partial cfg _ (.inl rfl) X y

/-- Two source and two target samples, trained once. -/
example : ∃ (m : DiplsModel ℝ) (X y : Mat ℝ), diplsSupervised (exactCfg 2 1) diplsFresh (of dxA) (of dxA) (of dxY) (of dxY) = .ok (.trained m) ∧
    diplsPerform (exactCfg 2 1) m.obj X y = .ok (.trained m) := by
  have h := C59_supervised (exactCfg_inv 2 1) diplsFresh ⟨rfl, rfl, rfl⟩ (by decide) (by decide) 2 (by decide) rfl _ _ _ _
    (dx_reg 1)
  exact ⟨_, _, _, h, (C158_again_violation _ _ _ _ _ _ _ _ _ rfl rfl h).1⟩

end Verif.Props
