import Verif.Core.SelLemmas
import Verif.Core.FactoryLemmas
import Mathlib.Algebra.BigOperators.Fin

/-! # Helper lemmas about loops in `Except` -/

namespace Verif

theorem mapM_ok {ε β γ : Type} {f : β → Except ε γ} {g : β → γ} {l : List β}
    (h : ∀ x ∈ l, f x = .ok (g x)) : l.mapM f = .ok (l.map g) := by
  induction l with
  | nil => rfl
  | cons x l ih =>
    rw [List.mapM_cons, h x (List.mem_cons_self ..), ih fun y hy => h y (List.mem_cons_of_mem _ hy)]
    rfl

theorem mapM_error {ε β γ : Type} {f : β → Except ε γ} {x : β} {l : List β} {e : ε}
    (h : f x = .error e) : (x :: l).mapM f = .error e := by
  rw [List.mapM_cons, h]; rfl

theorem mapM_map {ε β γ δ : Type} (f : γ → Except ε δ) (g : β → γ) (l : List β) :
    (l.map g).mapM f = l.mapM fun x => f (g x) := by
  induction l with
  | nil => rfl
  | cons x l ih => rw [List.map_cons, List.mapM_cons, List.mapM_cons, ih]

theorem mapM_ofFn {ε β γ : Type} {n : Nat} {f : β → Except ε γ} {g : Fin n → β} {h : Fin n → γ}
    (hf : ∀ i, f (g i) = .ok (h i)) : (List.ofFn g).mapM f = .ok (List.ofFn h) := by
  rw [List.ofFn_eq_map, mapM_map, mapM_ok (g := h) fun i _ => hf i, List.ofFn_eq_map]

theorem pyRange_ofFn (n : Nat) : pyRange 0 n = List.ofFn fun i : Fin n => ((i : Nat) : Int) := by
  have := Factory.map_pyRange_eq_ofFn n id
  rwa [List.map_id] at this

theorem pyRange_window (l r : Nat) :
    pyRange (-(l : Int)) ((r : Int) + 1) = List.ofFn fun k : Fin (l + r + 1) => ((k : Nat) : Int) - l := by
  apply List.ext_getElem
  · simp only [pyRange, List.length_map, List.length_range, List.length_ofFn]; omega
  · intro i h1 h2
    rw [List.getElem_ofFn]
    simp only [pyRange, List.getElem_map, List.getElem_range]
    omega

theorem pyRange_nonpos (b : Int) (h : b ≤ 0) : pyRange 0 b = [] := by
  have : (b - 0).toNat = 0 := by omega
  unfold pyRange
  rw [this]
  rfl

namespace Mat
variable {α : Type}

/-- `multi_concat(1, …)` of column vectors. -/
theorem multiConcat_cols {m n : Nat} (c : Fin (n + 1) → Fin m → α) :
    multiConcat 1 (List.ofFn fun j => (⟨m, 1, Matrix.of fun i _ => c j i⟩ : Mat α)) =
      .ok (of (Matrix.of fun i j => c j i)) := by
  rw [List.ofFn_succ, multiConcat]
  rw [if_pos (by decide)]
  have h := foldlM_concat_cols (m := m) [c 0] (List.ofFn fun j : Fin n => c j.succ)
  rw [colsMat_singleton] at h
  rw [List.map_ofFn] at h
  refine Eq.trans ?_ (h.trans ?_)
  · rfl
  · rw [ok_inj]
    have hl : [c 0] ++ List.ofFn (fun j : Fin n => c j.succ) = List.ofFn c := by
      rw [List.ofFn_succ]; rfl
    rw [hl]
    refine mk_eq rfl (by simp) fun i j => ?_
    simp [Fin.cast]

end Mat
end Verif
