import Verif.Alg.IcaHeap
import Verif.Props.CallerData4
import Verif.Props.IcaApprox

/-!
# C140 for FastICA

`transform` and `reconstruct` of a FastICA object in any state: no matrix object that existed before is changed, the outcome is that of the
functions on values, the matrix returned is new.  The matrix `transform` returns is the object's own attribute `sources`.
-/

namespace Verif.Props
open Verif Mat Heap Transf

variable {α : Type}

section ica
variable [Field α] [LinearOrder α] [HasSqrt α] [HasExp α] [HasTanh α]

/-- `fun` is one of the three functions of `approxfun`. -/
def ApproxFun (gh : Nat → H α (Nat × Nat)) (g : Mat α → Except PyErr (Mat α × Mat α)) : Prop :=
  (gh = hCubeApply ∧ g = cubeApply) ∨ (gh = hExponentialApply ∧ g = exponentialApply) ∨ ∃ a, gh = hLogCosHApply a ∧ g = logCosHApply a

omit [LinearOrder α] [HasSqrt α] in
theorem ApproxFun.ok {gh : Nat → H α (Nat × Nat)} {g : Mat α → Except PyErr (Mat α × Mat α)} (hg : ApproxFun gh g) : GOk gh g := by
  rcases hg with ⟨rfl, rfl⟩ | ⟨rfl, rfl⟩ | ⟨a, rfl, rfl⟩
  · exact hCubeApply_ok
  · exact hExponentialApply_ok
  · exact hLogCosHApply_ok a

/-- FastICA, `transform`: no object that existed is changed, whether it returns or raises; the result is a new object with the sources that the
function on values computes from the contents of the data; the object's matrices are new ones or ones it had before. -/
theorem C140_fast_ica_transform (cfg : IcaCfg α) {gh : Nat → H α (Nat × Nat)} (hg : ApproxFun gh cfg.g) {h : Heap α} (hw : WF h) {a : IcaAttrs}
    {o : IcaObj α} (ha : icaRepr.On o h a) (hb : ∀ r ∈ icaRepr.refs (α := α) a, r < h.nobj) {X : Nat} (hX : X < h.nobj) :
    (WF (hIcaTransform cfg gh a X h).2 ∧ ∀ q < h.nobj, (hIcaTransform cfg gh a X h).2.contents q = h.contents q) ∧
    (∀ e, (hIcaTransform cfg gh a X h).1 = .error e → icaTransform cfg o (h.contents X) = .error e) ∧
    ∀ a' S, (hIcaTransform cfg gh a X h).1 = .ok (a', S) → h.nobj ≤ S ∧ a'.sources = some S ∧
      (∀ r ∈ icaRepr.refs (α := α) a', r = X → r ∈ icaRepr.refs (α := α) a) ∧
      ∃ o', icaTransform cfg o (h.contents X) = .ok (o', (hIcaTransform cfg gh a X h).2.contents S) ∧
        icaRepr.On o' (hIcaTransform cfg gh a X h).2 a' := by
  obtain ⟨f, ag⟩ := hIcaTransform_sim cfg hg.ok ha hb (D := h.contents X) ⟨hX, rfl⟩ hw
  refine ⟨⟨f.wf, fun q hq => f.same q hq List.not_mem_nil⟩, fun e he => ?_, fun a' S hr => ?_⟩
  · rw [he] at ag
    generalize icaTransform cfg o (h.contents X) = z at ag
    cases ag
    rfl
  · rw [hr] at ag
    generalize icaTransform cfg o (h.contents X) = z at ag
    cases ag with
    | @ok _ c hn =>
      obtain ⟨⟨n1, n2, -⟩, n3, n4⟩ := hn
      obtain ⟨o', V⟩ := c
      refine ⟨n4.1, n3, fun r hr e => ?_, o', by rw [n4.2.2], n1⟩
      rcases n2 r hr with k | k
      · omega
      · exact k

omit [LinearOrder α] [HasSqrt α] [HasExp α] [HasTanh α] in
/-- FastICA, `reconstruct`: the same. -/
theorem C140_fast_ica_reconstruct {h : Heap α} (hw : WF h) {a : IcaAttrs} {o : IcaObj α} (ha : icaRepr.On o h a) :
    (WF (hIcaReconstruct a h).2 ∧ ∀ q < h.nobj, (hIcaReconstruct a h).2.contents q = h.contents q) ∧
    (∀ e, (hIcaReconstruct a h).1 = .error e → icaReconstruct o = .error e) ∧
    ∀ a' R, (hIcaReconstruct a h).1 = .ok (a', R) → h.nobj ≤ R ∧ (∀ r ∈ icaRepr.refs (α := α) a', h.nobj ≤ r ∨ r ∈ icaRepr.refs (α := α) a) ∧
      ∃ o', icaReconstruct o = .ok (o', (hIcaReconstruct a h).2.contents R) ∧ icaRepr.On o' (hIcaReconstruct a h).2 a' := by
  obtain ⟨f, ag⟩ := hIcaReconstruct_sim ha hw
  refine ⟨⟨f.wf, fun q hq => f.same q hq List.not_mem_nil⟩, fun e he => ?_, fun a' S hr => ?_⟩
  · rw [he] at ag
    generalize icaReconstruct o = z at ag
    cases ag
    rfl
  · rw [hr] at ag
    generalize icaReconstruct o = z at ag
    cases ag with
    | @ok _ c hn =>
      obtain ⟨n1, n2, n3⟩ := hn
      obtain ⟨o', V⟩ := c
      exact ⟨n2.1, n3, o', by rw [n2.2.2], n1⟩

/-- The matrix `transform` returns is the one `reconstruct` works with: an entry the caller sets in it changes what is reconstructed. -/
theorem C140_fast_ica_sources_limits (cfg : IcaCfg α) {gh : Nat → H α (Nat × Nat)} (hg : ApproxFun gh cfg.g) {h : Heap α} (hw : WF h)
    {a : IcaAttrs} {o : IcaObj α} (ha : icaRepr.On o h a) (hb : ∀ r ∈ icaRepr.refs (α := α) a, r < h.nobj) {X : Nat} (hX : X < h.nobj)
    {a' : IcaAttrs} {S : Nat} {h1 : Heap α} (ht : hIcaTransform cfg gh a X h = (.ok (a', S), h1)) (i j : Int) (v : α) {S' : Mat α}
    (hs : (h1.contents S).set i j v = .ok S') :
    ∃ o' h2, icaTransform cfg o (h.contents X) = .ok (o', h1.contents S) ∧ mSet S i j v h1 = (.ok (), h2) ∧
      Heap.Sim [] h2 (hIcaReconstruct a') (icaReconstruct { o' with sources := some S' }) fun h3 b c => New h2 h3 b.2 c.2 := by
  obtain ⟨f, ag⟩ := hIcaTransform_sim cfg hg.ok ha hb (D := h.contents X) ⟨hX, rfl⟩ hw
  rw [ht] at ag f
  dsimp only at ag f
  generalize icaTransform cfg o (h.contents X) = z at ag
  cases ag with
  | @ok _ c hn =>
    obtain ⟨⟨n1, n2, s, n5, n6, n7⟩, n3, n4⟩ := hn
    obtain ⟨o', V⟩ := c
    dsimp only at n1 n2 n3 n4 n5 n6 n7
    rw [n3] at n5
    cases n5
    obtain ⟨fr, ag⟩ := sim_set n4.2 i j v f.wf
    rw [n4.2.2] at hs
    rw [hs] at ag
    generalize hr : mSet S i j v h1 = z at ag fr
    obtain ⟨z1, h2⟩ := z
    dsimp only at ag fr
    cases ag with
    | ok hS =>
      refine ⟨o', h2, by rw [n4.2.2], rfl, (hIcaReconstruct_sim ?_).post fun _ _ _ _ hn => hn.2.1⟩
      have hm : ∀ r ∈ icaRepr.refs (α := α) { a' with sources := none }, r ∉ [S] := by
        intro r hr hm
        rw [List.mem_singleton.mp hm] at hr
        exact n7 hr
      obtain ⟨m1, m2, m3, m4, m5, m6, m7⟩ := n1
      have k := icaRepr.mono (m := { o' with sources := none }) fr hm ⟨m1, m2, m3, m4, trivial, m6, m7⟩
      obtain ⟨k1, k2, k3, k4, k5, k6, k7⟩ := k
      refine ⟨k1, k2, k3, k4, ?_, k6, k7⟩
      show OptHas h2 a'.sources (some S')
      rw [n3]
      exact hS

omit [LinearOrder α] [HasSqrt α] [HasExp α] [HasTanh α] in
/-- A new object refers to no matrix and represents a new model, whatever the heap: the hypotheses of the theorems above. -/
theorem ica_new_on (h : Heap α) : icaRepr.On (icaFresh : IcaObj α) h ⟨5, some none, none, none, none, none, false⟩ ∧
    ∀ r ∈ icaRepr.refs (α := α) ⟨5, some none, none, none, none, none, false⟩, r < h.nobj :=
  ⟨⟨rfl, rfl, rfl, trivial, trivial, trivial, trivial⟩, fun r hr => by simp [icaRepr] at hr⟩

end ica

/-- Four samples of two features, one component, cubic approximation: `transform` on objects returns, the sources returned are those of the
function on values, and the hypotheses of `C140_fast_ica_sources_limits` are met. -/
example : ∃ a S h1 S', hIcaTransform apxCfg hCubeApply ⟨1, some none, none, none, none, none, false⟩ 0 (cdHeap2 (of apxX) (of apxX)) =
    (.ok (a, S), h1) ∧ (h1.contents S).set 0 0 (7 : ℝ) = .ok S' := by
  have ho : icaRepr.On ({ icaFresh with numComponents := 1 } : IcaObj ℝ) (cdHeap2 (of apxX) (of apxX))
      ⟨1, some none, none, none, none, none, false⟩ := ⟨rfl, rfl, rfl, trivial, trivial, trivial, trivial⟩
  obtain ⟨o', S, A, e1, -⟩ := apx_example
  obtain ⟨⟨a, s⟩, hr, f, -, -, hn⟩ := sim_returns (hIcaTransform_sim apxCfg (gh := hCubeApply) hCubeApply_ok ho
    (fun r hr => by simp [icaRepr] at hr) (cdHeap2_X (of apxX) (of apxX))) (cdHeap2_wf _ _) e1
  generalize hIcaTransform apxCfg hCubeApply ⟨1, some none, none, none, none, none, false⟩ 0 (cdHeap2 (of apxX) (of apxX)) = z at hr hn
  obtain ⟨z1, h1⟩ := z
  dsimp only at hr hn
  rw [hr]
  exact ⟨a, s, h1, _, rfl, (congrArg (fun M : Mat ℝ => M.set 0 0 7) hn.2.2).trans (set_of S 0 0 7)⟩

end Verif.Props
