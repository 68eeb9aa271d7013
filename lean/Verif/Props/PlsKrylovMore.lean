import Verif.Props.PlsKrylovProps
import Verif.Props.SimplsProps
import Verif.Props.NipalsProps
import Verif.Props.KernelLinear

/-!
# C114 for the other algorithms with one response

SIMPLS, NIPALS (on standardised data) and KernelPLS with the linear kernel (on centred data) also compute the least-squares solution over the
Krylov space: their predictions are those of PLS1 (C73, C74, C101).
-/

namespace Verif.Props
open Verif Mat Transf
open scoped Matrix

variable {n p K : Nat}

/-- **C114.** SIMPLS with `K` components predicts with the least-squares solution over the Krylov space. -/
theorem C114_simpls {eig : Mat ℝ → Mat ℝ × Mat ℝ} (he : EigOne eig) (hn : 0 < n) (hp : 0 < p) (hK : 0 < K) {count : Int}
    (hcount : count ≤ 0) (X : Matrix (Fin n) (Fin p) ℝ) (y : Matrix (Fin n) (Fin 1) ℝ) (h : Regular (pls1W y) K X) :
    ∃ (m : SimplsModel ℝ) (R : Matrix (Fin p) (Fin 1) ℝ), simplsTrain (domOf eig) K count (of X) (of y) = .ok m ∧
      (∀ {r : Nat}, 0 < r → ∀ Z : Matrix (Fin r) (Fin p) ℝ, simplsPredict m (of Z) = .ok (of (Z * R))) ∧ R ∈ krylov X y K ∧
      ∀ v ∈ krylov X y K, ∑ i, (y i 0 - (X * R) i 0) ^ 2 ≤ ∑ i, (y i 0 - (X * v) i 0) ^ 2 := by
  obtain ⟨m, m', T, h1, h2, h3⟩ := C73_same_predictions he hn hp hK hcount X y h
  obtain ⟨m1, T1, W, R, g1, -, -, g4, -, -, g7, g8⟩ := C114_krylov hn hp hK X y h
  rw [h2] at g1
  obtain ⟨rfl, rfl⟩ := Prod.mk.inj (Except.ok.inj g1)
  refine ⟨m, R, h1, fun {r} hr Z => ?_, g7, fun v hv => (g8 v hv).1⟩
  obtain ⟨F, f1, f2⟩ := h3 r hr Z
  rw [f1, ← f2, g4 hr Z]

/-- **C114.** NIPALS in regression mode with `K` components: on standardised data, the least-squares solution over the Krylov space. -/
theorem C114_nipals {c : NipalsCfg ℝ} (hc : NipalsReal c) (hcca : c.cca = false) (hdefl : c.defl = .regression)
    (hpinv : PinvRegular c.pinv) (hK0 : 0 < K) (hK : c.K = (K : Int)) (hn : 0 < n) (X : Matrix (Fin n) (Fin (p + 1)) ℝ)
    (y : Matrix (Fin n) (Fin 1) ℝ) (h : NipRegular K (std X X) (std y y)) :
    ∃ (m : NipalsModel ℝ) (R : Matrix (Fin (p + 1)) (Fin 1) ℝ), nipalsTrain c (of X) (of y) = .ok m ∧
      (∀ {r : Nat}, 0 < r → ∀ Z : Matrix (Fin r) (Fin (p + 1)) ℝ, nipalsPredict c m (of Z) =
        .ok (of (Matrix.of fun i (_ : Fin 1) => divisor y 0 * (std X Z * R) i 0 + mu fun k => y k 0))) ∧
      R ∈ krylov (std X X) (std y y) K ∧
      ∀ v ∈ krylov (std X X) (std y y) K,
        ∑ i, (std y y i 0 - (std X X * R) i 0) ^ 2 ≤ ∑ i, (std y y i 0 - (std X X * v) i 0) ^ 2 := by
  obtain ⟨m, m', T, h1, h2, h3⟩ := C74_same_predictions hc hcca hdefl hpinv hK0 hK hn X y h
  obtain ⟨m1, T1, W, R, g1, -, -, g4, -, -, g7, g8⟩ := C114_krylov hn (by omega) hK0 (std X X) (std y y)
    (Regular.of_sq1 (PassOk.sq1_ne h.passOk))
  rw [h2] at g1
  obtain ⟨rfl, rfl⟩ := Prod.mk.inj (Except.ok.inj g1)
  refine ⟨m, R, h1, fun {r} hr Z => ?_, g7, fun v hv => (g8 v hv).1⟩
  obtain ⟨F, f1, f2⟩ := h3 r hr Z
  rw [g4 hr, ok_inj, of_inj] at f1
  rw [f2, f1]

/-- **C114.** KernelPLS with the linear kernel and `K` components: on centred data, the least-squares solution over the Krylov space. -/
theorem C114_kernel {c : KplsCfg ℝ Unit} {v : Nat → Matrix (Fin n) (Fin 1) ℝ} (hc : KplsReal c n v)
    (hl1 : ∀ A, c.kern1 () A = ((), linearMatrix A none)) (hl2 : ∀ A B, c.kern2 () A B = ((), linearMatrix A (some B)))
    (htol : 0 < c.tol) (hmax : 2 ≤ c.maxIter) (hK : c.K = K) (hK0 : 0 < K) (hn : 0 < n) (hp : 0 < p)
    (X : Matrix (Fin n) (Fin p) ℝ) (y : Matrix (Fin n) (Fin 1) ℝ) (lstsq : Mat ℝ → Except PyErr (Mat ℝ))
    (hinv : c.inv = inverse lstsq) (h : Regular (pls1W (cen y y)) K (cen X X))
    (hv : GoodStart c.tol K (cen X X) (cen y y) v) :
    ∃ (m : KplsModel ℝ Unit) (R : Matrix (Fin p) (Fin 1) ℝ), kplsTrain c () (of X) (of y) = .ok m ∧
      (∀ {r : Nat}, 0 < r → ∀ Z : Matrix (Fin r) (Fin p) ℝ,
        kplsPredict c m (of Z) = .ok (of (Matrix.of fun i j => (cen X Z * R) i j + mu fun i => y i 0))) ∧
      R ∈ krylov (cen X X) (cen y y) K ∧
      ∀ v ∈ krylov (cen X X) (cen y y) K,
        ∑ i, (cen y y i 0 - (cen X X * R) i 0) ^ 2 ≤ ∑ i, (cen y y i 0 - (cen X X * v) i 0) ^ 2 := by
  obtain ⟨m, m', T, h1, h2, h3⟩ := C101_linear_kernel hc hl1 hl2 htol hmax hK hK0 hn hp X y lstsq hinv h hv
  obtain ⟨m1, T1, W, R, g1, -, -, g4, -, -, g7, g8⟩ := C114_krylov hn hp hK0 (cen X X) (cen y y) h
  rw [h2] at g1
  obtain ⟨rfl, rfl⟩ := Prod.mk.inj (Except.ok.inj g1)
  refine ⟨m, R, h1, fun {r} hr Z => ?_, g7, fun v hv => (g8 v hv).1⟩
  obtain ⟨F, f1, f2⟩ := h3 hr Z
  rw [g4 hr, ok_inj, of_inj] at f1
  rw [f2, f1]

/-! Concrete cases. -/

example := C114_simpls eigOne_ok (by decide) (by decide) (K := 2) (by decide) (count := 0) (le_refl _) exX exY ex_regular

example (lstsq : Mat ℝ → Except PyErr (Mat ℝ)) :=
  C114_kernel (c := klCfg 10 lstsq) (v := klV) ⟨fun _ _ => rfl, fun _ => rfl⟩ (fun _ => rfl) (fun _ _ => rfl)
    (by norm_num [klCfg]) (by norm_num [klCfg]) (K := 2) rfl (by decide) (by decide) (by decide) dxA dxY lstsq rfl
    (by rw [kl_cenX, kl_cenY]; exact kl_regular) (by rw [kl_cenX, kl_cenY]; exact kl_start)

end Verif.Props
