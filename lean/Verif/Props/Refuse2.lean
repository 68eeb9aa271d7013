import Verif.Props.Refuse
import Verif.Alg.DIPLS
import Verif.Alg.GLSW
import Verif.Alg.NIPALS
import Verif.Core.SelLemmas

/-!
# C147 for the other algorithms
-/

namespace Verif.Props
open Verif Mat Factory Transf

variable {α M σ : Type}

/-- The result of training is a message or an exception. -/
def NeverOk {β γ : Type} (x : Except PyErr (β × Option γ)) : Prop := ∀ b, x ≠ .ok (b, none)

theorem Fails.map {β γ : Type} {x : Except PyErr β} (h : Fails x) (f : β → γ) : Fails (x.map f) := by
  obtain ⟨e, rfl⟩ := h
  exact ⟨e, rfl⟩

section shapes

theorem eye_dims [Zero α] [One α] {n : Nat} {A : Mat α} (h : Factory.eye (n : Int) (n : Int) = .ok A) : A.rows = n ∧ A.cols = n := by
  unfold Factory.eye at h
  dsimp only at h
  have hd : defaultColumns (n : Int) (n : Int) = n := by unfold defaultColumns; split <;> omega
  rw [hd, if_neg (by omega)] at h
  cases h
  exact ⟨by simp, by simp⟩

theorem getSub_dims {A B : Mat α} {r c : Sel} (h : A.getSubMatrix r c = .ok B) : B.rows = r.positions.length ∧ B.cols = c.positions.length := by
  unfold Mat.getSubMatrix at h
  obtain ⟨rs, h1, h⟩ := bindOk h
  obtain ⟨cs, h2, h⟩ := bindOk h
  cases h
  exact ⟨(resolve_ok_iff.1 h1).length_eq.symm, (resolve_ok_iff.1 h2).length_eq.symm⟩

theorem range_len (n : Nat) : (pyRange 0 (n : Int)).length = n := by rw [pyRange_zero]; simp

theorem getRows_dims {A B : Mat α} {r : Sel} (h : A.getRows r = .ok B) : B.rows = r.positions.length ∧ B.cols = A.cols := by
  have := getSub_dims h
  exact ⟨this.1, this.2.trans (range_len _)⟩

theorem concatRows_dims {A B C : Mat α} (h : A.concatAlongRows B = .ok C) : C.rows = A.rows + B.rows ∧ C.cols = A.cols ∧ A.cols = B.cols := by
  unfold Mat.concatAlongRows Mat.concat at h
  rw [if_pos (.inl rfl)] at h
  split at h
  · rename_i e
    cases h
    exact ⟨rfl, rfl, e⟩
  · cases h

theorem concatCols_dims {A B C : Mat α} (h : A.concatAlongColumns B = .ok C) : C.rows = A.rows := by
  unfold Mat.concatAlongColumns Mat.concat at h
  rw [if_neg (by omega), if_pos (.inl rfl)] at h
  split at h
  · cases h; rfl
  · cases h

end shapes

/-! ## SIMPLS -/

section simpls
variable [Field α] [LinearOrder α] [HasSqrt α]

omit [HasSqrt α] in
theorem slim_dims {count : Int} {W W' : Mat α} (h : slim count W = .ok W') : W'.rows = W.rows ∧ W'.cols = W.cols := by
  unfold slim at h
  refine loopM_inv (slimColumn count W) (fun R => R.rows = W.rows ∧ R.cols = W.cols) (fun i R R' hR e => ?_) _ W W' ⟨rfl, rfl⟩ h
  unfold slimColumn at e
  obtain ⟨l, -, e⟩ := bindOk e
  obtain ⟨srt, -, e⟩ := bindOk e
  obtain ⟨ix, -, e⟩ := bindOk e
  obtain ⟨v, -, e⟩ := bindOk e
  refine loopM_inv (slimCell W v i) (fun R => R.rows = W.rows ∧ R.cols = W.cols) (fun c R R' hR e => ?_) _ R R' hR e
  unfold slimCell at e
  obtain ⟨b, -, e⟩ := bindOk e
  split at e
  · have := Heap.set_shape e
    exact ⟨this.1.trans hR.1, this.2.trans hR.2⟩
  · cases e; exact hR

theorem simplsTrain_dims {dom : Mat α → Except PyErr (Mat α)} {K count : Int} (hK : 1 ≤ K) {X y : Mat α} (hX : 0 < X.cols)
    {m : SimplsModel α} (h : simplsTrain dom K count X y = .ok m) : m.W.rows = X.cols ∧ m.B.rows = X.cols := by
  unfold simplsTrain at h
  obtain ⟨s, h1, h⟩ := bindOk h
  obtain ⟨s', h2, h⟩ := bindOk h
  have hs : s.W.rows = X.cols := by
    unfold simplsInit at h1
    obtain ⟨A, -, h1⟩ := bindOk h1
    obtain ⟨N, -, h1⟩ := bindOk h1
    obtain ⟨C, -, h1⟩ := bindOk h1
    obtain ⟨W, hW, h1⟩ := bindOk h1
    obtain ⟨P, -, h1⟩ := bindOk h1
    obtain ⟨Q, -, h1⟩ := bindOk h1
    cases h1
    exact (zeros_dims hX (by omega) hW).1
  have hs' := loopM_inv (simplsStep dom) (fun s => s.W.rows = X.cols) (fun k s s' hs e => by
    unfold simplsStep at e
    obtain ⟨_, -, e⟩ := bindOk e
    obtain ⟨_, -, e⟩ := bindOk e
    obtain ⟨_, -, e⟩ := bindOk e
    obtain ⟨_, -, e⟩ := bindOk e
    obtain ⟨_, -, e⟩ := bindOk e
    obtain ⟨_, -, e⟩ := bindOk e
    obtain ⟨W, hW, e⟩ := bindOk e
    obtain ⟨_, -, e⟩ := bindOk e
    obtain ⟨_, -, e⟩ := bindOk e
    obtain ⟨_, -, e⟩ := bindOk e
    obtain ⟨_, -, e⟩ := bindOk e
    obtain ⟨_, -, e⟩ := bindOk e
    obtain ⟨_, -, e⟩ := bindOk e
    obtain ⟨_, -, e⟩ := bindOk e
    obtain ⟨_, -, e⟩ := bindOk e
    obtain ⟨_, -, e⟩ := bindOk e
    obtain ⟨_, -, e⟩ := bindOk e
    obtain ⟨_, -, e⟩ := bindOk e
    cases e
    exact (Heap.setColumn_shape hW).1.trans hs) _ s s' hs h2
  dsimp only at h
  split at h
  · obtain ⟨W, h3, h⟩ := bindOk h
    obtain ⟨B, h4, h⟩ := bindOk h
    cases h
    have hW := (slim_dims h3).1.trans hs'
    exact ⟨hW, (mul_dims h4).1.trans hW⟩
  · obtain ⟨W, h3, h⟩ := bindOk h
    cases h3
    obtain ⟨B, h4, h⟩ := bindOk h
    cases h
    exact ⟨hs', (mul_dims h4).1.trans hs'⟩

/-- **C147 (SIMPLS: columns).** -/
theorem C147_simpls_columns (isZero : α → Bool) (dom : Mat α → Except PyErr (Mat α)) {K : Int} (count : Int) (hK : 1 ≤ K) (prep : Prep)
    (X Y : Mat α) (hX : 0 < X.cols) (m : SingleModel α (SimplsModel α))
    (hm : singleTrain isZero (simplsTrain dom K count) prep X Y = .ok m) :
    Refuses (singlePredict simplsPredict m) X.cols ∧ Refuses (simplsTransform m.base) X.cols := by
  refine ⟨singlePredict_refuses isZero (fun X Y m hX h => ?_) hX hm, ?_⟩
  · intro Z _ hZ
    exact mul_fails (by rw [(simplsTrain_dims hK hX h).2]; exact hZ)
  · unfold singleTrain at hm
    obtain ⟨st, -, hm⟩ := bindOk hm
    obtain ⟨X', h1, hm⟩ := bindOk hm
    obtain ⟨Y', -, hm⟩ := bindOk hm
    obtain ⟨b, h2, hm⟩ := bindOk hm
    cases hm
    have e := (prepApply_dims isZero h1).2
    intro Z _ hZ
    exact mul_fails (by rw [(simplsTrain_dims hK (by rw [e]; exact hX) h2).1, e]; exact hZ)

/-- **C147 (SIMPLS: rows).** -/
theorem C147_simpls_rows (isZero : α → Bool) (dom : Mat α → Except PyErr (Mat α)) (K count : Int) (prep : Prep) (X Y : Mat α)
    (hXY : X.rows ≠ Y.rows) : Fails (singleTrain isZero (simplsTrain dom K count) prep X Y) :=
  singleTrain_refuses isZero (fun _ _ h => Fails.left (Fails.left (mul_fails h) _) _) prep X Y hXY

end simpls

/-! ## OPLS -/

section opls
variable [Field α] [HasSqrt α]

theorem oplsTrain_dims {base : BasePls α M} {K : Int} (hK : 1 ≤ K) {X y : Mat α} (hX : 0 < X.cols) {m : OplsModel α M × Option String}
    (h : oplsTrain base K X y = .ok m) : m.1.W.rows = X.cols := by
  unfold oplsTrain at h
  obtain ⟨W, hW, h⟩ := bindOk h
  obtain ⟨P, -, h⟩ := bindOk h
  obtain ⟨T, -, h⟩ := bindOk h
  obtain ⟨w, -, h⟩ := bindOk h
  obtain ⟨s, h2, h⟩ := bindOk h
  obtain ⟨F, -, h⟩ := bindOk h
  obtain ⟨r, -, h⟩ := bindOk h
  cases h
  refine loopM_inv (oplsStep w) (fun s => s.W.rows = X.cols) (fun k s s' hs e => ?_) _ _ s (zeros_dims hX (by omega) hW).1 h2
  unfold oplsStep at e
  obtain ⟨_, -, e⟩ := bindOk e
  obtain ⟨_, -, e⟩ := bindOk e
  obtain ⟨_, -, e⟩ := bindOk e
  obtain ⟨_, -, e⟩ := bindOk e
  obtain ⟨_, -, e⟩ := bindOk e
  obtain ⟨_, -, e⟩ := bindOk e
  obtain ⟨_, -, e⟩ := bindOk e
  obtain ⟨_, -, e⟩ := bindOk e
  obtain ⟨W, hW, e⟩ := bindOk e
  obtain ⟨_, -, e⟩ := bindOk e
  obtain ⟨_, -, e⟩ := bindOk e
  cases e
  exact (Heap.setColumn_shape hW).1.trans hs

/-- **C147 (OPLS: columns).**  Whatever the algorithm inside accepts. -/
theorem C147_opls_columns (base : BasePls α M) {K : Int} (hK : 1 ≤ K) (X Y : Mat α) (hX : 0 < X.cols) (m : OplsModel α M × Option String)
    (hm : oplsTrain base K X Y = .ok m) : Refuses (oplsPredict base m.1) X.cols ∧ Refuses (oplsTransform m.1) X.cols := by
  have h : Refuses (oplsTransform m.1) X.cols := fun Z _ hZ =>
    Fails.left (mul_fails (by rw [oplsTrain_dims hK hX hm]; exact hZ)) _
  exact ⟨fun Z hr hZ => Fails.left (h Z hr hZ) _, h⟩

/-- **C147 (OPLS: rows).** -/
theorem C147_opls_rows (base : BasePls α M) (K : Int) (X Y : Mat α) (hXY : X.rows ≠ Y.rows) : Fails (oplsTrain base K X Y) := by
  unfold oplsTrain
  exact Fails.bind fun _ _ => Fails.bind fun _ _ => Fails.bind fun _ _ => Fails.left (Fails.left (mul_fails hXY) _) _

end opls

/-! ## NIPALS and CCARegression -/

section nipals
variable [Field α] [HasSqrt α]

theorem nipalsTrain_std {c : NipalsCfg α} {X Y : Mat α} {m : NipalsModel α} (h : nipalsTrain c X Y = .ok m) :
    (∃ R, (transform (standardize c.isZero) X (standardize c.isZero).init).2 = .ok R) ∧
    (∃ R, (transform (standardize c.isZero) Y (standardize c.isZero).init).2 = .ok R) ∧
    m.stdX = (transform (standardize c.isZero) X (standardize c.isZero).init).1 ∧
    m.stdY = (transform (standardize c.isZero) Y (standardize c.isZero).init).1 := by
  unfold nipalsTrain at h
  dsimp only at h
  obtain ⟨X', h1, h⟩ := bindOk h
  obtain ⟨Y', h2, h⟩ := bindOk h
  obtain ⟨_, -, h⟩ := bindOk h
  obtain ⟨_, -, h⟩ := bindOk h
  obtain ⟨_, -, h⟩ := bindOk h
  obtain ⟨_, -, h⟩ := bindOk h
  obtain ⟨_, -, h⟩ := bindOk h
  refine ⟨⟨_, h1⟩, ⟨_, h2⟩, ?_⟩
  split at h
  · cases h
  · obtain ⟨_, -, h⟩ := bindOk h
    cases h
    exact ⟨rfl, rfl⟩

/-- **C147 (NIPALS, CCARegression: columns).**  Also for new responses. -/
theorem C147_nipals_columns (c : NipalsCfg α) (X Y : Mat α) (m : NipalsModel α) (hm : nipalsTrain c X Y = .ok m) :
    Refuses (nipalsPredict c m) X.cols ∧ Refuses (nipalsTransform c m) X.cols ∧ Refuses (nipalsTransformResponse c m) Y.cols := by
  obtain ⟨⟨_, hx⟩, ⟨_, hy⟩, ex, ey⟩ := nipalsTrain_std hm
  refine ⟨fun Z _ hZ => ?_, fun Z _ hZ => ?_, fun Z _ hZ => ?_⟩
  · exact Fails.left (by rw [ex]; exact std_refuses c.isZero hx Z hZ) _
  · exact Fails.left (by rw [ex]; exact std_refuses c.isZero hx Z hZ) _
  · exact Fails.left (by rw [ey]; exact std_refuses c.isZero hy Z hZ) _

/-- The standardised responses are not all (numerically) zero: the test of `_NIPALS.py` 114 is passed. -/
def HasResponse (c : NipalsCfg α) (Y : Mat α) : Prop :=
  ∀ R G, (transform (standardize c.isZero) Y (standardize c.isZero).init).2 = .ok R → R.transpose.mul R = .ok G →
    G.all (fun e => c.lt e e10) = false

/-- **C147 (NIPALS, CCARegression: rows).**  Missing: responses that are constant, `C147_nipals_violation`. -/
theorem C147_nipals_rows_partial (c : NipalsCfg α) (hK : 1 ≤ c.K) (hinv : c.cca = true → ∀ A B, c.inv A = .ok B → B.cols = A.rows)
    (X Y : Mat α) (hY : HasResponse c Y) (hXY : X.rows ≠ Y.rows) : Fails (nipalsTrain c X Y) := by
  unfold nipalsTrain
  dsimp only
  refine Fails.bind fun X' h1 => Fails.bind fun Y' h2 => Fails.bind fun s h3 => Fails.left (Fails.loop hK ?_) _
  have e : s.X = X' ∧ s.Y = Y' ∧ s.stop = false := by
    unfold nipalsInit at h3
    obtain ⟨_, -, h3⟩ := bindOk h3
    obtain ⟨_, -, h3⟩ := bindOk h3
    obtain ⟨_, -, h3⟩ := bindOk h3
    obtain ⟨_, -, h3⟩ := bindOk h3
    obtain ⟨_, -, h3⟩ := bindOk h3
    obtain ⟨_, -, h3⟩ := bindOk h3
    obtain ⟨_, -, h3⟩ := bindOk h3
    cases h3
    exact ⟨rfl, rfl, rfl⟩
  have hr : X'.rows ≠ Y'.rows := by rw [(std_dims c.isZero h1).1, (std_dims c.isZero h2).1]; exact hXY
  unfold nipalsStep
  rw [e.1, e.2.1, e.2.2, if_neg Bool.false_ne_true]
  refine Fails.bind fun G hG => ?_
  rw [hY Y' G h2 hG, if_neg Bool.false_ne_true]
  refine Fails.left ?_ _
  unfold nipalsLoop
  refine Fails.bind fun u hu => Fails.bind fun w0 _ => ?_
  rw [nipalsIter]
  refine Fails.left (Fails.left ?_ _) _
  have hu' := (getColumn_dims hu).1
  unfold nipalsXWeight
  split
  · rename_i hc
    refine Fails.bind fun i hi => mul_fails ?_
    rw [hinv hc X' i hi, hu']
    exact hr
  · exact Fails.left (mul_fails (by rw [hu']; exact hr)) _

end nipals

/-! ## SparsePLS -/

section sparse
variable [Field α] [LinearOrder α] [HasSqrt α]

theorem spTrain_dims {cfg : SpCfg α} (hK : 1 ≤ cfg.K) {X Y : Mat α} (hX : 0 < X.cols) {m : SpModel α} (h : spTrain cfg X Y = .ok m) :
    (∃ R, (transform (standardize cfg.isZero) X (standardize cfg.isZero).init).2 = .ok R) ∧
    m.stdX = (transform (standardize cfg.isZero) X (standardize cfg.isZero).init).1 ∧ m.vars.W.rows = X.cols := by
  unfold spTrain at h
  dsimp only at h
  obtain ⟨X', h1, h⟩ := bindOk h
  obtain ⟨Y', h2, h⟩ := bindOk h
  obtain ⟨s, h3, h⟩ := bindOk h
  obtain ⟨s', h4, h⟩ := bindOk h
  cases h
  refine ⟨⟨_, h1⟩, rfl, ?_⟩
  have e := (std_dims cfg.isZero h1).2
  have hs : s.W.rows = X.cols := by
    unfold spInit at h3
    obtain ⟨B, -, h3⟩ := bindOk h3
    obtain ⟨W, hW, h3⟩ := bindOk h3
    cases h3
    exact (zeros_dims (by rw [e]; exact hX) (by omega) hW).1.trans e
  refine loopM_inv (spStep cfg X' Y') (fun s => s.W.rows = X.cols) (fun k s s' hs e => ?_) _ s s' hs h4
  unfold spStep at e
  obtain ⟨_, -, e⟩ := bindOk e
  obtain ⟨W, hW, e⟩ := bindOk e
  obtain ⟨_, -, e⟩ := bindOk e
  obtain ⟨_, -, e⟩ := bindOk e
  obtain ⟨_, -, e⟩ := bindOk e
  obtain ⟨_, -, e⟩ := bindOk e
  obtain ⟨_, -, e⟩ := bindOk e
  obtain ⟨_, -, e⟩ := bindOk e
  obtain ⟨_, -, e⟩ := bindOk e
  cases e
  exact (Heap.setColumn_shape hW).1.trans hs

/-- **C147 (SparsePLS: columns).** -/
theorem C147_sparse_columns (cfg : SpCfg α) (hK : 1 ≤ cfg.K) (X Y : Mat α) (hX : 0 < X.cols) (m : SpModel α) (hm : spTrain cfg X Y = .ok m) :
    Refuses (spPredict cfg m) X.cols ∧ Refuses (spTransform cfg m) X.cols := by
  obtain ⟨⟨_, hx⟩, ex, hW⟩ := spTrain_dims hK hX hm
  refine ⟨fun Z _ hZ => ?_, fun Z _ hZ => ?_⟩
  · exact Fails.left (by rw [ex]; exact std_refuses cfg.isZero hx Z hZ) _
  · unfold spTransform
    refine Fails.bind fun T _ => Fails.left (Fails.loop hK ?_) _
    unfold spTransformStep
    refine Fails.bind fun w hw => Fails.left (mul_fails ?_) _
    rw [(getColumn_dims hw).1, hW]
    exact hZ

/-- **C147 (SparsePLS: rows).** -/
theorem C147_sparse_rows (cfg : SpCfg α) (hK : 1 ≤ cfg.K) (X Y : Mat α) (hXY : X.rows ≠ Y.rows) : Fails (spTrain cfg X Y) := by
  unfold spTrain
  dsimp only
  refine Fails.bind fun X' h1 => Fails.bind fun Y' h2 => Fails.bind fun s h3 => Fails.left (Fails.loop hK ?_) _
  have e : s.yj = Y' := by
    unfold spInit at h3
    obtain ⟨B, -, h3⟩ := bindOk h3
    obtain ⟨W, hW, h3⟩ := bindOk h3
    cases h3
    rfl
  unfold spStep
  refine Fails.left (Fails.left (mul_fails ?_) _) _
  rw [e, (std_dims cfg.isZero h2).1]
  show X'.rows ≠ _
  rw [(std_dims cfg.isZero h1).1]
  exact hXY

end sparse

/-! ## KernelPLS -/

section kernel
variable [Field α] [HasSqrt α]

/-- **C147 (KernelPLS: columns).**  Whatever the kernel accepts. -/
theorem C147_kernel_columns (c : KplsCfg α σ) (kern : σ) (X Y : Mat α) (m : KplsModel α σ) (hm : kplsTrain c kern X Y = .ok m) :
    Refuses (kplsPredict c m) X.cols ∧ Refuses (kplsTransform c m) X.cols := by
  have h : Refuses (kplsTransform c m) X.cols := by
    unfold kplsTrain at hm
    dsimp only at hm
    obtain ⟨X', h1, hm⟩ := bindOk hm
    obtain ⟨_, -, hm⟩ := bindOk hm
    obtain ⟨_, -, hm⟩ := bindOk hm
    obtain ⟨_, -, hm⟩ := bindOk hm
    obtain ⟨_, -, hm⟩ := bindOk hm
    obtain ⟨_, -, hm⟩ := bindOk hm
    obtain ⟨_, -, hm⟩ := bindOk hm
    cases hm
    intro Z _ hZ
    exact Fails.left ((center_refuses (s := center.init) (fun m h => nomatch h) h1).2 Z hZ) _
  exact ⟨fun Z hr hZ => Fails.left (h Z hr hZ) _, h⟩

/-- **C147 (KernelPLS: rows).** -/
theorem C147_kernel_rows (c : KplsCfg α σ) (hK : 1 ≤ c.K) (kern : σ) (X Y : Mat α) (hX : 0 < X.rows) (hXY : X.rows ≠ Y.rows) :
    Fails (kplsTrain c kern X Y) := by
  unfold kplsTrain
  dsimp only
  refine Fails.bind fun X' h1 => Fails.bind fun Y' h2 => Fails.bind fun Km _ => Fails.bind fun Kc h3 => Fails.bind fun s h4 =>
    Fails.left (Fails.loop hK ?_) _
  have ex := (center_dims h1).1
  have ey := (center_dims h2).1
  have hKc : Kc.rows = X'.rows := by
    unfold kplsCentreTrain at h3
    obtain ⟨p, hp, h3⟩ := bindOk h3
    obtain ⟨a, ha, h3⟩ := bindOk h3
    rw [(mul_dims h3).1, (mul_dims ha).1]
    unfold kplsCentring at hp
    obtain ⟨I, hI, hp⟩ := bindOk hp
    obtain ⟨one, -, hp⟩ := bindOk hp
    obtain ⟨o, -, hp⟩ := bindOk hp
    rw [(Heap.sub_shape hp).1, (eye_dims hI).1]
  have hs : s.Kd = Kc ∧ s.Y = Y' ∧ s.t.rows = X'.rows := by
    unfold kplsInit at h4
    obtain ⟨q, -, h4⟩ := bindOk h4
    obtain ⟨t, ht, h4⟩ := bindOk h4
    obtain ⟨_, -, h4⟩ := bindOk h4
    obtain ⟨_, -, h4⟩ := bindOk h4
    obtain ⟨_, -, h4⟩ := bindOk h4
    obtain ⟨_, -, h4⟩ := bindOk h4
    cases h4
    exact ⟨rfl, rfl, (zeros_dims (by rw [ex]; exact hX) (by omega) ht).1⟩
  have hr : Y'.rows ≠ X'.rows := by rw [ex, ey]; exact hXY.symm
  unfold kplsStep
  refine Fails.bind fun u _ => Fails.bind fun r hrr => Fails.bind fun _ _ => Fails.bind fun d hd => Fails.left (sub_fails ?_) _
  have hrt : r.t.rows = X'.rows := by
    rw [kplsInner] at hrr
    split at hrr
    · exfalso
      refine Fails.not_ok (Fails.left ?_ _) r hrr
      unfold kplsPass
      refine Fails.bind fun t ht => Fails.bind fun t' ht' => Fails.left (mul_fails ?_) _
      rw [(normalized_dims ht').1, (mul_dims ht).1, hs.1, hs.2.1, hKc]
      exact hr
    · cases hrr
      exact hs.2.2
  rw [(mul_dims hd).1, hrt, hs.2.1]
  exact hr

end kernel

/-! ## CCAFilter and DIPLS -/

section filters
variable [Field α] [DecidableEq α] [HasSqrt α]

/-- The stored means, if any, are a row. -/
def MeansRow (s : Option (CenterState α)) : Prop := ∀ c, s = some c → ∀ m, c.means = some m → m.rows = 1

omit [DecidableEq α] [HasSqrt α] in
theorem optCentre_refuses {s : Option (CenterState α)} (hs : MeansRow s) {X : Mat α} {r : CenterState α × Mat α} (h : optCentre s X = .ok r) :
    (r.2.rows = X.rows ∧ r.2.cols = X.cols) ∧ MeansRow (some r.1) ∧ ∀ Z : Mat α, Z.cols ≠ X.cols → Fails (optCentre (some r.1) Z) := by
  unfold optCentre at h
  cases s with
  | none => cases h
  | some c =>
    obtain ⟨B, h1, h⟩ := bindOk h
    cases h
    have := center_refuses (hs c rfl) h1
    exact ⟨center_dims h1, fun c' hc' => by cases hc'; exact this.1, fun Z hZ => Fails.left (this.2 Z hZ) _⟩

/-- **C147 (CCAFilter: columns).** -/
theorem C147_cca_columns (cfg : CcaCfg α) (o o' : CcaObj α) (hx : MeansRow o.cX) (hy : MeansRow o.cY) (X Y : Mat α)
    (h : ccaInit cfg o X Y = .ok (o', none)) : Refuses (ccaTransform o') X.cols ∧ Refuses (ccaTransformResponse o') Y.cols := by
  unfold ccaInit at h
  split at h
  · cases h
  · obtain ⟨x, h1, h⟩ := bindOk h
    obtain ⟨y, h2, h⟩ := bindOk h
    obtain ⟨P, -, h⟩ := bindOk h
    cases h
    exact ⟨fun Z _ hZ => Fails.left ((optCentre_refuses hx h1).2.2 Z hZ) _, fun Z _ hZ => Fails.left ((optCentre_refuses hy h2).2.2 Z hZ) _⟩

/-- **C147 (CCAFilter: rows).**  The filter is not trained: a message or an exception. -/
theorem C147_cca_rows (cfg : CcaCfg α) (o : CcaObj α) (hx : MeansRow o.cX) (hy : MeansRow o.cY) (X Y : Mat α) (hXY : X.rows ≠ Y.rows) :
    NeverOk (ccaInit cfg o X Y) := by
  intro b h
  unfold ccaInit at h
  split at h
  · cases h
  · refine Fails.not_ok ?_ _ h
    refine Fails.bind fun x h1 => Fails.bind fun y h2 => Fails.left ?_ _
    unfold ccaProj
    refine Fails.bind fun _ _ => Fails.bind fun _ _ => Fails.bind fun _ _ => Fails.bind fun _ _ => Fails.bind fun _ _ => Fails.bind fun _ _ =>
      Fails.left (mul_fails ?_) _
    show x.2.rows ≠ y.2.rows
    rw [(optCentre_refuses hx h1).1.1, (optCentre_refuses hy h2).1.1]
    exact hXY

omit [DecidableEq α] in
/-- What `diplsPerform` returns when it trains. -/
theorem diplsPerform_trained {cfg : DiplsCfg α} {o : DiplsObj α} (hx : MeansRow o.xc) (ht : MeansRow o.xtc) {X y : Mat α} {m : DiplsModel α}
    (h : diplsPerform cfg o X y = .ok (.trained m)) : Refuses (diplsPredict m) X.cols ∧ Refuses (diplsTransform m) X.cols := by
  unfold diplsPerform at h
  obtain ⟨I, -, h⟩ := bindOk h
  split at h
  · cases h
  split at h
  · cases h
  obtain ⟨s, h1, h⟩ := bindOk h
  obtain ⟨m', h2, h⟩ := bindOk h
  cases h
  have hc : s.2.1.cols = X.cols ∧ s.2.2.cols = X.cols := by
    unfold diplsSelect at h1
    split at h1
    · cases h1
    · obtain ⟨Xs, hs, h1⟩ := bindOk h1
      obtain ⟨Xt, ht, h1⟩ := bindOk h1
      split at h1
      · cases h1; exact ⟨(getRows_dims ht).2, (getRows_dims hs).2⟩
      · cases h1; exact ⟨(getRows_dims ht).2, rfl⟩
      · obtain ⟨X'', hx, h1⟩ := bindOk h1
        cases h1; exact ⟨(getRows_dims ht).2, (getRows_dims hx).2⟩
  unfold diplsFit at h2
  obtain ⟨x, e1, h2⟩ := bindOk h2
  obtain ⟨xs, -, h2⟩ := bindOk h2
  obtain ⟨xt, e3, h2⟩ := bindOk h2
  obtain ⟨v, -, h2⟩ := bindOk h2
  obtain ⟨b, -, h2⟩ := bindOk h2
  cases h2
  have f1 := (optCentre_refuses hx e1).2.2
  have f3 := (optCentre_refuses ht e3).2.2
  rw [hc.2] at f1
  rw [hc.1] at f3
  refine ⟨fun Z _ hZ => ?_, fun Z _ hZ => Fails.left (f1 Z hZ) _⟩
  unfold diplsPredict
  dsimp only
  rcases o.strategy with _ | st
  · exact ⟨_, rfl⟩
  · cases st
    · exact Fails.left (f3 Z hZ) _
    · exact Fails.left (f1 Z hZ) _
    · exact Fails.left (f1 Z hZ) _

omit [DecidableEq α] in
/-- **C147 (DIPLS: columns).**  For the three ways of training. -/
theorem C147_dipls_columns (cfg : DiplsCfg α) (o : DiplsObj α) (hx : MeansRow o.xc) (ht : MeansRow o.xtc) (Xs Xt Xu ys yt : Mat α)
    (m : DiplsModel α) (h : diplsUnsupervised cfg o Xs Xt ys = .ok (.trained m) ∨ diplsSupervised cfg o Xs Xt ys yt = .ok (.trained m) ∨
      diplsSemisupervised cfg o Xs Xt Xu ys yt = .ok (.trained m)) :
    Refuses (diplsPredict m) Xs.cols ∧ Refuses (diplsTransform m) Xs.cols := by
  rcases h with h | h | h
  · obtain ⟨X, h1, h⟩ := bindOk h
    rw [← (concatRows_dims h1).2.1]
    exact diplsPerform_trained (o := { o with ns := Xs.rows, nt := Xt.rows, strategy := some .unsupervised }) hx ht h
  · obtain ⟨X, h1, h⟩ := bindOk h
    obtain ⟨y, -, h⟩ := bindOk h
    rw [← (concatRows_dims h1).2.1]
    exact diplsPerform_trained (o := { o with ns := Xs.rows, nt := Xt.rows, strategy := some .supervised }) hx ht h
  · obtain ⟨X, h1, h⟩ := bindOk h
    obtain ⟨X', h2, h⟩ := bindOk h
    obtain ⟨y, -, h⟩ := bindOk h
    rw [← (concatRows_dims h1).2.1, ← (concatRows_dims h2).2.1]
    exact diplsPerform_trained (o := { o with ns := Xs.rows, nt := Xt.rows, strategy := some .semisupervised }) hx ht h

omit [DecidableEq α] in
theorem diplsPerform_rows {cfg : DiplsCfg α} (hK : 1 ≤ cfg.K) {o : DiplsObj α} (hx : MeansRow o.xc) {X y : Mat α}
    (hr : ∀ s, diplsSelect o X = .ok s → s.2.2.rows ≠ y.rows) (m : DiplsModel α) : diplsPerform cfg o X y ≠ .ok (.trained m) := by
  intro h
  unfold diplsPerform at h
  obtain ⟨I, -, h⟩ := bindOk h
  split at h
  · cases h
  split at h
  · cases h
  obtain ⟨s, h1, h⟩ := bindOk h
  obtain ⟨m', h2, h⟩ := bindOk h
  refine Fails.not_ok ?_ _ h2
  unfold diplsFit
  refine Fails.bind fun x e1 => Fails.bind fun xs _ => Fails.bind fun xt _ => Fails.left (Fails.loop hK ?_) _
  unfold diplsStep diplsWeights
  refine Fails.left (Fails.left (mul_fails ?_) _) _
  show y.rows ≠ x.2.rows
  rw [(optCentre_refuses hx e1).1.1]
  exact (hr s h1).symm

omit [DecidableEq α] in
/-- **C147 (DIPLS: rows).**  The numbers of rows that are compared: source predictors and responses, or the totals.  Missing for the
supervised strategies: the comparison of the blocks, `C147_dipls_violation`. -/
theorem C147_dipls_rows_partial (cfg : DiplsCfg α) (hK : 1 ≤ cfg.K) (o : DiplsObj α) (hx : MeansRow o.xc) (Xs Xt Xu ys yt : Mat α)
    (m : DiplsModel α) :
    (Xs.rows ≠ ys.rows → diplsUnsupervised cfg o Xs Xt ys ≠ .ok (.trained m)) ∧
    (Xs.rows + Xt.rows ≠ ys.rows + yt.rows → diplsSupervised cfg o Xs Xt ys yt ≠ .ok (.trained m)) ∧
    (2 * Xs.rows ≠ ys.rows + yt.rows → diplsSemisupervised cfg o Xs Xt Xu ys yt ≠ .ok (.trained m)) := by
  refine ⟨fun hn h => ?_, fun hn h => ?_, fun hn h => ?_⟩
  · obtain ⟨X, h1, h⟩ := bindOk h
    refine diplsPerform_rows hK (o := { o with ns := Xs.rows, nt := Xt.rows, strategy := some .unsupervised }) hx (fun s hs => ?_) m h
    obtain ⟨A, hA, hs⟩ := bindOk hs
    obtain ⟨B, -, hs⟩ := bindOk hs
    cases hs
    rw [(getRows_dims hA).1]
    show (pyRange 0 (Xs.rows : Int)).length ≠ _
    rw [range_len]
    exact hn
  · obtain ⟨X, h1, h⟩ := bindOk h
    obtain ⟨y, h2, h⟩ := bindOk h
    refine diplsPerform_rows hK (o := { o with ns := Xs.rows, nt := Xt.rows, strategy := some .supervised }) hx (fun s hs => ?_) m h
    obtain ⟨A, hA, hs⟩ := bindOk hs
    obtain ⟨B, -, hs⟩ := bindOk hs
    cases hs
    rw [(concatRows_dims h2).1]
    show X.rows ≠ _
    rw [(concatRows_dims h1).1]
    exact hn
  · obtain ⟨X, h1, h⟩ := bindOk h
    obtain ⟨X', h1', h⟩ := bindOk h
    obtain ⟨y, h2, h⟩ := bindOk h
    refine diplsPerform_rows hK (o := { o with ns := Xs.rows, nt := Xt.rows, strategy := some .semisupervised }) hx (fun s hs => ?_) m h
    obtain ⟨A, hA, hs⟩ := bindOk hs
    obtain ⟨B, -, hs⟩ := bindOk hs
    obtain ⟨C, hC, hs⟩ := bindOk hs
    cases hs
    rw [(concatRows_dims h2).1, (getRows_dims hC).1]
    show (pyRange 0 (2 * (Xs.rows : Int))).length ≠ _
    have := range_len (2 * Xs.rows)
    push_cast at this
    rw [this]
    exact hn

end filters

end Verif.Props
