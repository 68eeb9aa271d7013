import Verif.Core.Factory
import Verif.Core.MatLemmas

/-! # Helper lemmas about the factory functions -/

namespace Verif
namespace Factory
open Mat

variable {α : Type}

theorem create_eq (data : List (List α)) (n : Nat) (hne : data ≠ [])
    (h : ∀ x ∈ data, x.length = n) :
    create data = .ok ⟨data.length, n, Matrix.of fun i j =>
      (data.get i).get ⟨j, by rw [h _ (List.get_mem _ _)]; exact j.2⟩⟩ := by
  cases data with
  | nil => exact absurd rfl hne
  | cons r rs =>
    have hr : r.length = n := h r (by simp)
    subst hr
    exact dif_pos h

theorem create_ragged (data : List (List α)) {x y : List α} (hx : x ∈ data) (hy : y ∈ data)
    (hxy : x.length ≠ y.length) : create data = .error .valueError := by
  cases data with
  | nil => cases hx
  | cons r rs =>
    exact dif_neg fun h => hxy ((h x hx).trans (h y hy).symm)

theorem create_ofFn {m n : Nat} (hm : 0 < m) (A : Matrix (Fin m) (Fin n) α) :
    create (List.ofFn fun i => List.ofFn fun j => A i j) = .ok (of A) := by
  rw [create_eq _ n]
  · rw [ok_inj]
    refine ext' (by simp) rfl fun i j => ?_
    simp [Fin.cast]
  · intro h
    have : (List.ofFn fun i => List.ofFn fun j => A i j).length = 0 := by rw [h]; rfl
    simp at this
    omega
  · intro x hx
    rw [List.mem_ofFn] at hx
    obtain ⟨i, rfl⟩ := hx
    simp

theorem map_pyRange_eq_ofFn {β : Type} (n : Nat) (f : Int → β) :
    (pyRange 0 n).map f = List.ofFn fun i : Fin n => f ((i : Nat) : Int) := by
  apply List.ext_getElem
  · simp [pyRange]
  · intro i h1 h2
    simp [pyRange]

theorem zeros_nat [Zero α] {m : Nat} (hm : 0 < m) (n : Nat) :
    zeros (α := α) m n = .ok (of (0 : Matrix (Fin m) (Fin n) α)) := by
  unfold zeros
  have : defaultColumns (m : Int) (n : Int) = n := by unfold defaultColumns; split <;> omega
  simp only [this, map_pyRange_eq_ofFn]
  exact create_ofFn hm (0 : Matrix (Fin m) (Fin n) α)

end Factory
end Verif
