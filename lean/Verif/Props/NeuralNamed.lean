import Verif.Model.NeuralNamed
import Verif.Props.AdditiveCritic

/-!
C94: what `InfoNCEEstimator`, `NWJEstimator`, `DonskerVaradhanEstimator` and `MINEEstimator` can report: the ceiling of
InfoNCE, no information about a constant, no dependence on units, and no dependence on the backend of the training.
-/

namespace BMI.NeuralEstimator

open BMI.NeuralData BMI.Training BMI.Mine BMI.PSpace BMI.Additive

variable {Key Θ O : Type} [NormedAddCommGroup Θ] [NormedSpace ℝ Θ]

/-! ### The constructors -/

/-- C94: the constructors accept exactly the two backends, a positive batch size, number of steps and learning rate. -/
theorem mkNamed_spec (o : Objective) (p : Params) (backend : String) :
    (mkNamed (Θ := Θ) o p backend = .error .valueError ↔ backend ≠ "quadratic" ∧ backend ≠ "linear") ∧
    ((∃ e : Named Θ, mkNamed o p backend = .ok e) ↔ (backend = "quadratic" ∨ backend = "linear") ∧
      0 < p.batchSize ∧ 0 < p.maxSteps ∧ 0 < p.learningRate) ∧
    ∀ e : Named Θ, mkNamed o p backend = .ok e → e.base = ⟨p, none⟩ ∧ e.formulaTest = linearFormula o ∧
      trainFormula o backend = .ok e.formula := by
  have hmk : (0 < p.batchSize ∧ 0 < p.maxSteps ∧ 0 < p.learningRate → mk (Θ := Θ) p = .ok ⟨p, none⟩) ∧
      (¬ (0 < p.batchSize ∧ 0 < p.maxSteps ∧ 0 < p.learningRate) → mk (Θ := Θ) p = .error .validationError) := by
    constructor <;> intro h
    · simp [mk, validate, h, bind, Except.bind]
    · unfold mk validate
      rw [if_neg h]
      rfl
  by_cases hq : ∃ F, trainFormula o backend = .ok F
  · obtain ⟨F, hF⟩ := hq
    have hb : backend = "quadratic" ∨ backend = "linear" := by
      unfold trainFormula at hF
      split_ifs at hF with h1 h2
      · exact .inl h1
      · exact .inr h2
    by_cases hp : 0 < p.batchSize ∧ 0 < p.maxSteps ∧ 0 < p.learningRate
    · have : mkNamed (Θ := Θ) o p backend = .ok ⟨o.name, F, linearFormula o, ⟨p, none⟩⟩ := by
        simp only [mkNamed, hF, hmk.1 hp, bind, Except.bind]
      rw [this]
      refine ⟨by simp; tauto, by simp [hb, hp], fun e he => ?_⟩
      cases he
      exact ⟨rfl, rfl, hF⟩
    · have : mkNamed (Θ := Θ) o p backend = .error .validationError := by
        simp only [mkNamed, hF, hmk.2 hp, bind, Except.bind]
      rw [this]
      refine ⟨by simp; tauto, by simp [hb, hp], fun e he => by cases he⟩
  · have hb : backend ≠ "quadratic" ∧ backend ≠ "linear" := by
      constructor <;> rintro rfl <;> exact hq ⟨_, rfl⟩
    have : mkNamed (Θ := Θ) o p backend = .error .valueError := by
      simp only [mkNamed, trainFormula, if_neg hb.1, if_neg hb.2, bind, Except.bind]
    rw [this]
    refine ⟨by simp [hb], by simp [hb], fun e he => by cases he⟩

/-! ### What is reported -/

/-- Number of test points. -/
noncomputable def testSize (f : Option ℝ) (n : ℕ) : ℕ :=
  match f with
  | none => n
  | some f => n - ⌊f * n⌋₊

theorem SplitOf.test_length {xs ys xTr yTr xTe yTe : List Point} {f : Option ℝ} (h : SplitOf xs ys xTr yTr xTe yTe f)
    (e : xs.length = ys.length) : xTe.length = testSize f xs.length := by
  cases f with
  | none => rw [h.2.2.2.2.1]; rfl
  | some f =>
    obtain ⟨h1, h2, h3, h4⟩ := h
    have := h3.length_eq
    simp only [List.length_append, List.length_zip, h1, h2, ← e, min_self] at this
    rw [h1] at h4
    simp only [testSize]
    omega

theorem testSize_pos {f : Option ℝ} {n : ℕ} (hn : 0 < n) (hf : ∀ g, f = some g → 0 < g ∧ g < 1 ∧ 1 ≤ g * n) :
    0 < testSize f n := by
  cases f with
  | none => exact hn
  | some g =>
    obtain ⟨h0, h1, -⟩ := hf g rfl
    have hn' : (0 : ℝ) < n := by exact_mod_cast hn
    have : ⌊g * n⌋₊ < n := by
      rw [Nat.floor_lt (by positivity)]
      nlinarith
    simp only [testSize]
    omega

/-- The objective in extended reals. -/
noncomputable def Objective.value (o : Objective) (f : Point → Point → ℝ) (xs ys : List Point) : EReal :=
  match o with
  | .infonce => Neural.Linear.infonce f xs ys
  | .nwj => Neural.Linear.nwj f xs ys
  | .donskerVaradhan => Neural.Linear.donskerVaradhan f xs ys

theorem linear_num {o : Objective} {f : Point → Point → ℝ} {xs ys : List Point} {v : ℝ}
    (h : linearFormula o f xs ys = .num v) : o.least ≤ xs.length ∧ o.value f xs ys = (v : EReal) := by
  have key : ∀ w : EReal, asFloat o.least xs.length w = .num v → o.least ≤ xs.length ∧ w = (v : EReal) := by
    intro w hw
    unfold asFloat at hw
    split_ifs at hw with h1
    push Not at h1
    obtain ⟨h1, h2, h3⟩ := h1
    refine ⟨h1, ?_⟩
    rw [← EReal.coe_toReal h2 h3, (Fl.num.inj hw)]
  cases o <;> exact key _ h

/-- C94: on data of equal lengths that can be split, the estimators return; a reported number is the objective of a critic
on the test part. -/
theorem named_value {lib : Lib Key Θ O} (hr : IdealRng lib.rng) (ε : ℝ) {o : Objective} {p : Params} {backend : String}
    {e : Named Θ} (he : mkNamed o p backend = .ok e) (x y : Mat) (hn : x.n = y.n) (hne : 0 < x.n ∧ 0 < x.d ∧ 0 < y.d)
    (hf : ∀ g, p.trainTestSplit = some g → 0 < g ∧ g < 1 ∧ 1 ≤ g * x.n) (ht : p.testEvery ≠ 0)
    (hfac : ∀ k, ∃ θ, lib.factory k x.d y.d = .ok θ) :
    ∃ res e', e.estimateWithInfo lib ε x y = .ok (res, e') ∧ ∀ v, res.mi = .num v →
      ∃ (xTr xTe yTr yTe : List Point) (θ : Θ),
        SplitOf (xRows ε p x) (xRows ε p y) xTr yTr xTe yTe p.trainTestSplit ∧
        o.least ≤ xTe.length ∧ xTe.length = testSize p.trainTestSplit x.n ∧
        o.value (lib.call θ) xTe yTe = (v : EReal) := by
  obtain ⟨hbase, htest, -⟩ := (mkNamed_spec o p backend).2.2 e he
  obtain ⟨-, hb0, -, -⟩ := (mkNamed_spec (Θ := Θ) o p backend).2.1.1 ⟨e, he⟩
  have hpar : e.base.params = p := by rw [hbase]
  by_cases hb : trainSize p.trainTestSplit x.n < p.batchSize
  · have h1 := estimate_batch_too_large hr ε e.formula e.formulaTest e.base x y hn hne (by rw [hpar]; exact hf)
      (by rw [hpar]; exact hb)
    exact ⟨_, _, by simp only [Named.estimateWithInfo, h1, bind, Except.bind]; rfl, fun v hv => by cases hv⟩
  · obtain ⟨xTr, xTe, yTr, yTe, θ, log, bs, h1, -, h3, -, -, -, h7, h8, -⟩ :=
      estimate_spec hr ε e.formula e.formulaTest e.base x y hn hne (by rw [hpar]; exact hf)
        (by rw [hpar]; exact ⟨hb0.le, not_lt.1 hb⟩) (by rw [hpar]; exact ht) hfac
    rw [hpar] at h1 h3 h7
    refine ⟨_, _, by simp only [Named.estimateWithInfo, h3, bind, Except.bind]; rfl, fun v hv => ?_⟩
    have hmem := finalMI_mem_of_inv h8 hv
    rw [h7, List.map_map] at hmem
    obtain ⟨i, -, hi⟩ := List.mem_map.1 hmem
    simp only [Function.comp_apply, htest] at hi
    obtain ⟨g1, g2⟩ := linear_num hi
    refine ⟨xTr, xTe, yTr, yTe, _, h1, g1, ?_, g2⟩
    rw [h1.test_length (by rw [xRows_length, xRows_length, hn]), xRows_length]

/-- C94: `InfoNCEEstimator` never reports more than the logarithm of the number of test points, so it underestimates every
larger mutual information, whatever the critic, the optimiser and the data. -/
theorem infonce_ceiling {lib : Lib Key Θ O} (hr : IdealRng lib.rng) (ε : ℝ) {p : Params} {backend : String} {e : Named Θ}
    (he : mkNamed .infonce p backend = .ok e) (x y : Mat) (hn : x.n = y.n) (hne : 0 < x.n ∧ 0 < x.d ∧ 0 < y.d)
    (hf : ∀ g, p.trainTestSplit = some g → 0 < g ∧ g < 1 ∧ 1 ≤ g * x.n) (ht : p.testEvery ≠ 0)
    (hfac : ∀ k, ∃ θ, lib.factory k x.d y.d = .ok θ) :
    ∃ mi, e.estimate lib ε x y = .ok mi ∧ ∀ v, mi = .num v → v ≤ Real.log (testSize p.trainTestSplit x.n) := by
  obtain ⟨res, e', h1, h2⟩ := named_value hr ε he x y hn hne hf ht hfac
  refine ⟨res.mi, by simp only [Named.estimate, h1, bind, Except.bind], fun v hv => ?_⟩
  obtain ⟨xTr, xTe, yTr, yTe, θ, h3, h4, h5, h6⟩ := h2 v hv
  have h7 := Neural.infonce_le_log (lib.call θ) xTe yTe h3.2.1 h4
  have h8 : (v : EReal) ≤ ((Real.log xTe.length : ℝ) : EReal) := h6 ▸ h7
  rw [EReal.coe_le_coe_iff, h5] at h8
  exact h8

/-! ### Constants -/

/-- All points are equal. -/
def IsConstant (m : Mat) : Prop := ∀ i i' j, m.v i j = m.v i' j

theorem stored_constant (ε : ℝ) (std : Bool) {m : Mat} (h : IsConstant m) : IsConstant (stored ε std m) := by
  cases std with
  | false => exact h
  | true =>
    unfold stored
    rw [if_pos rfl]
    intro i i' j
    show scaleCol ε (fun k => m.v k j) i = scaleCol ε (fun k => m.v k j) i'
    rw [scaled_const ε _ (m.v i j) (fun k => h k i j), scaled_const ε _ (m.v i j) (fun k => h k i j)]

theorem rows_constant (ε : ℝ) (p : Params) {m : Mat} (h : IsConstant m) : ∃ c : Point, ∀ v ∈ xRows ε p m, v = c := by
  have hs := stored_constant ε p.standardize h
  unfold xRows rows
  generalize stored ε p.standardize m = s at hs
  by_cases h0 : 0 < s.n
  · refine ⟨List.ofFn (s.v ⟨0, h0⟩), fun v hv => ?_⟩
    obtain ⟨i, rfl⟩ := (List.mem_ofFn' _ _).1 hv
    exact congrArg List.ofFn (funext fun j => hs _ _ _)
  · refine ⟨[], fun v hv => ?_⟩
    obtain ⟨i, -⟩ := (List.mem_ofFn' _ _).1 hv
    exact absurd i.pos h0

/-- If one of the variables is constant, every critic is additive on the test points. -/
theorem additive_of_constant (ε : ℝ) (p : Params) {x y : Mat} (hn : x.n = y.n) (hc : IsConstant x ∨ IsConstant y)
    {xTr yTr xTe yTe : List Point} {f : Option ℝ} (h : SplitOf (xRows ε p x) (xRows ε p y) xTr yTr xTe yTe f)
    (c : Point → Point → ℝ) : IsAdditive c xTe yTe := by
  obtain ⟨h1, h2⟩ := h.test_mem (by rw [xRows_length, xRows_length, hn])
  rcases hc with hc | hc
  · obtain ⟨w, hw⟩ := rows_constant ε p hc
    exact ⟨fun _ => 0, fun y => c w y, fun x hx y _ => by rw [hw x (h1 x hx), zero_add]⟩
  · obtain ⟨w, hw⟩ := rows_constant ε p hc
    exact ⟨fun x => c x w, fun _ => 0, fun x _ y hy => by rw [hw y (h2 y hy), add_zero]⟩

/-- C94: if one of the variables is constant in the data, none of the three estimators reports a positive number. -/
theorem constant_nonpos {lib : Lib Key Θ O} (hr : IdealRng lib.rng) (ε : ℝ) {o : Objective} {p : Params} {backend : String}
    {e : Named Θ} (he : mkNamed o p backend = .ok e) (x y : Mat) (hn : x.n = y.n) (hne : 0 < x.n ∧ 0 < x.d ∧ 0 < y.d)
    (hf : ∀ g, p.trainTestSplit = some g → 0 < g ∧ g < 1 ∧ 1 ≤ g * x.n) (ht : p.testEvery ≠ 0)
    (hfac : ∀ k, ∃ θ, lib.factory k x.d y.d = .ok θ) (hc : IsConstant x ∨ IsConstant y) :
    ∃ mi, e.estimate lib ε x y = .ok mi ∧ ∀ v, mi = .num v → v ≤ 0 := by
  obtain ⟨res, e', h1, h2⟩ := named_value hr ε he x y hn hne hf ht hfac
  refine ⟨res.mi, by simp only [Named.estimate, h1, bind, Except.bind], fun v hv => ?_⟩
  obtain ⟨xTr, xTe, yTr, yTe, θ, h3, h4, h5, h6⟩ := h2 v hv
  have ha := additive_of_constant ε p hn hc h3 (lib.call θ)
  rw [← EReal.coe_le_coe_iff, ← h6, EReal.coe_zero]
  cases o with
  | infonce =>
    by_cases h2 : 2 ≤ xTe.length
    · exact (objectives_nonpos _ _ _ ha h3.2.1 h2).2.2
    · have hone : xTe.length = 1 := by
        have : 1 ≤ xTe.length := h4
        omega
      have := Neural.infonce_le_log (lib.call θ) xTe yTe h3.2.1 h4
      rw [hone] at this
      simpa [Objective.value] using this
  | nwj => exact (objectives_nonpos _ _ _ ha h3.2.1 h4).2.1
  | donskerVaradhan => exact (objectives_nonpos _ _ _ ha h3.2.1 h4).1

/-- C94: the same for `MINEEstimator`. -/
theorem mine_constant_nonpos {lib : Lib Key Θ O} (hr : IdealRng lib.rng) (ε α : ℝ) (p : Params) (est : Estimator Θ)
    (hv : mkMine p α = .ok est) (x y : Mat) (hn : x.n = y.n) (hne : 0 < x.n ∧ 0 < x.d ∧ 0 < y.d)
    (hf : ∀ g, p.trainTestSplit = some g → 1 ≤ g * x.n) (hfac : ∀ k, ∃ θ, lib.factory k x.d y.d = .ok θ)
    (hc : IsConstant x ∨ IsConstant y) :
    ∃ res est', mineEstimateWithInfo lib ε α est x y = .ok (res, est') ∧ ∀ v, res.mi = .num v → v ≤ 0 := by
  obtain ⟨res, est', h1, -, -, h4⟩ := mine_estimate_total hr ε α p est hv x y hn hne hf hfac
  refine ⟨res, est', h1, fun v hv' => ?_⟩
  obtain ⟨xTr, xTe, yTr, yTe, log, h5, -, h7, h8⟩ := h4 v hv'
  obtain ⟨θ, yu, hp, rfl⟩ := h8 v h7.1
  by_cases hx : xTe = []
  · subst hx
    have : Mine.mineValue (lib.call θ) [] yTe yu = 0 := by simp [mineValue, Mine.mean, logmeanexp, scores]
    rw [this]
  · exact mineValue_nonpos _ _ _ _ (additive_of_constant ε p hn hc h5 (lib.call θ)) h5.2.1 hx hp

/-! ### Units -/

/-- Every column in other units: multiplied by a factor and shifted. -/
noncomputable def rescale (m : Mat) (a b : Fin m.d → ℝ) : Mat := ⟨m.n, m.d, fun i j => a j * m.v i j + b j⟩

/-- Positive factors, and no column so narrow compared to its distance from zero that `StandardScaler` takes it for a
constant (with exact arithmetic, `ε = 0`, this is no restriction). -/
def GoodUnits (ε : ℝ) (m : Mat) (a b : Fin m.d → ℝ) : Prop := ∀ j, 0 < a j ∧
  (ε = 0 ∨ (¬ flagged ε (fun i => m.v i j) ∧ ¬ flagged ε (fun i => a j * m.v i j + b j)))

theorem stored_rescale {ε : ℝ} {m : Mat} {a b : Fin m.d → ℝ} (h : GoodUnits ε m a b) :
    stored ε true (rescale m a b) = stored ε true m := by
  unfold stored
  rw [if_pos rfl, if_pos rfl]
  unfold rescale
  dsimp only
  congr 1
  funext i j
  obtain ⟨ha, h0 | ⟨h1, h2⟩⟩ := h j
  · subst h0
    exact scaled_affine_invariant (a j) (b j) ha (fun i => m.v i j) i
  · unfold scaleCol
    rw [colMean_affine i.pos, colVar_affine i.pos, if_neg h1, if_neg h2, Real.sqrt_mul (sq_nonneg _), Real.sqrt_sq ha.le,
      show a j * m.v i j + b j - (a j * colMean (fun i => m.v i j) + b j)
        = a j * (m.v i j - colMean fun i => m.v i j) by ring, mul_div_mul_left _ _ ha.ne']

theorem space_rescale {ε : ℝ} {x y : Mat} (hne : 0 < x.n ∧ 0 < x.d ∧ 0 < y.d) {a b : Fin x.d → ℝ} {a' b' : Fin y.d → ℝ}
    (h : GoodUnits ε x a b) (h' : GoodUnits ε y a' b') :
    space ε (rescale x a b) (rescale y a' b') true = space ε x y true := by
  by_cases hn : x.n = y.n
  · rw [space_ok ε x y true hn hne, space_ok ε _ _ true (by exact hn) (by exact hne), stored_rescale h, stored_rescale h']
  · rw [space_mismatch ε x y true hn, space_mismatch ε _ _ true (by exact hn)]

/-- C94: with `standardize=True` nothing depends on the units of the columns: the result, the history of the training and
the trained critic are the same. -/
theorem units {lib : Lib Key Θ O} (ε : ℝ) (e : Named Θ) (he : e.base.params.standardize = true) (x y : Mat)
    (hne : 0 < x.n ∧ 0 < x.d ∧ 0 < y.d) (a b : Fin x.d → ℝ) (a' b' : Fin y.d → ℝ) (h : GoodUnits ε x a b)
    (h' : GoodUnits ε y a' b') :
    e.estimateWithInfo lib ε (rescale x a b) (rescale y a' b') = e.estimateWithInfo lib ε x y := by
  unfold Named.estimateWithInfo NeuralEstimator.estimateWithInfo
  dsimp only
  rw [he, space_rescale hne h h']

/-- C94: the same for `MINEEstimator`. -/
theorem mine_units {lib : Lib Key Θ O} (ε α : ℝ) (est : Estimator Θ) (he : est.params.standardize = true) (x y : Mat)
    (hne : 0 < x.n ∧ 0 < x.d ∧ 0 < y.d) (a b : Fin x.d → ℝ) (a' b' : Fin y.d → ℝ) (h : GoodUnits ε x a b)
    (h' : GoodUnits ε y a' b') :
    mineEstimateWithInfo lib ε α est (rescale x a b) (rescale y a' b') = mineEstimateWithInfo lib ε α est x y := by
  unfold mineEstimateWithInfo
  dsimp only
  rw [he, space_rescale hne h h']

/-! ### The backend of the training -/

theorem formulas_agree (o : Objective) (f : Point → Point → ℝ) (xs ys : List Point) (h : xs.length = ys.length) :
    quadraticFormula o f xs ys = linearFormula o f xs ys := by
  unfold quadraticFormula linearFormula
  by_cases hl : xs.length < o.least
  · unfold asFloat
    rw [if_pos (.inl hl), if_pos (.inl hl)]
  · rw [not_lt] at hl
    congr 1
    cases o with
    | infonce => exact (Neural.infonce_backends f xs ys h hl).symm
    | nwj => exact (Neural.nwj_backends f xs ys h hl).symm
    | donskerVaradhan => exact (Neural.donskerVaradhan_backends f xs ys h hl).symm

theorem training_agree {r : Rng Key} (hr : IdealRng r) (opt : Optimizer Θ O) (f : Θ → Point → Point → ℝ) (keys : List Key)
    (θ : Θ) (o : Objective) (xs ys : List Point) (e : xs.length = ys.length) (FT : Option (Formula Point Point))
    (hFT : FT ≠ none) (xsT ysT : Option (List Point)) (b : ℕ) (hb : b ≤ xs.length) (t : ℤ) (es : Bool) :
    basicTrainingE r opt f keys θ (quadraticFormula o) xs ys FT xsT ysT (some b) t es
      = basicTrainingE r opt f keys θ (linearFormula o) xs ys FT xsT ysT (some b) t es := by
  obtain ⟨FT, rfl⟩ := Option.ne_none_iff_exists'.1 hFT
  unfold basicTrainingE
  have : basicBody r opt f (quadraticFormula o) xs ys (some b) = basicBody r opt f (linearFormula o) xs ys (some b) := by
    funext s k
    obtain ⟨bx, by_, h1, h2, h3, -⟩ := getBatch_pairs hr xs ys e k b hb
    unfold basicBody
    simp only [h1, bind, Except.bind, basicStep, formulas_agree o _ bx by_ (h2.trans h3.symm)]
  rw [this]
  rfl

/-- C94: the backend chosen for the training changes neither the result nor the trained critic. -/
theorem backend_irrelevant {lib : Lib Key Θ O} (hr : IdealRng lib.rng) (ε : ℝ) {o : Objective} {p : Params}
    {e e' : Named Θ} (he : mkNamed o p "quadratic" = .ok e) (he' : mkNamed o p "linear" = .ok e') (x y : Mat)
    (hne : 0 < x.n ∧ 0 < x.d ∧ 0 < y.d) :
    (e.estimateWithInfo lib ε x y).map (fun r => (r.1, r.2.base))
      = (e'.estimateWithInfo lib ε x y).map fun r => (r.1, r.2.base) := by
  obtain ⟨h1, h2, h3⟩ := (mkNamed_spec o p _).2.2 e he
  obtain ⟨h1', h2', h3'⟩ := (mkNamed_spec o p _).2.2 e' he'
  obtain ⟨-, hb0, -, -⟩ := (mkNamed_spec (Θ := Θ) o p "linear").2.1.1 ⟨e', he'⟩
  have hF : e.formula = quadraticFormula o := by
    simpa [trainFormula] using h3.symm
  have hF' : e'.formula = linearFormula o := by
    simpa [trainFormula] using h3'.symm
  have key : estimateWithInfo lib ε e.formula e.formulaTest e.base x y
      = estimateWithInfo lib ε e'.formula e'.formulaTest e'.base x y := by
    rw [h1, h2, h1', h2', hF, hF']
    by_cases hbad : x.n ≠ y.n ∨ ∃ g, p.trainTestSplit = some g ∧ (g ≤ 0 ∨ 1 ≤ g ∨ g * x.n < 1)
    · rw [estimate_refuses hr ε _ _ ⟨p, none⟩ x y hne hbad, estimate_refuses hr ε _ _ ⟨p, none⟩ x y hne hbad]
    · push Not at hbad
      obtain ⟨hn, hf⟩ := hbad
      obtain ⟨a, b, c, hk⟩ := split3_ok hr (lib.prngKey p.seed)
      obtain ⟨xTr, xTe, yTr, yTe, g1, g2⟩ := split_spec hr (xRows ε p x) (xRows ε p y)
        (by rw [xRows_length, xRows_length, hn]) p.trainTestSplit (by rw [xRows_length]; exact hf) b
      unfold estimateWithInfo
      simp only [hk, space_ok ε x y _ hn hne, bind, Except.bind]
      unfold xRows at g1
      simp only [g1]
      by_cases hb : p.batchSize > xTr.length
      · rw [if_pos hb, if_pos hb]
      · rw [if_neg hb, if_neg hb]
        simp only [training_agree hr (lib.adam p.learningRate) lib.call (lib.rng.split c p.maxSteps.toNat) _ o xTr yTr g2.1
          (some (linearFormula o)) (by simp) (some xTe) (some yTe) p.batchSize.toNat (by omega) p.testEvery true]
  unfold Named.estimateWithInfo
  rw [key]
  cases estimateWithInfo lib ε e'.formula e'.formulaTest e'.base x y <;> rfl

/-! ### The hypotheses can be met -/

theorem small_named (o : Objective) (backend : String) (hb : backend = "quadratic" ∨ backend = "linear") :
    ∃ e : Named ℝ, mkNamed o (smallParams 2) backend = .ok e :=
  (mkNamed_spec o _ _).2.1.2 ⟨hb, by simp [smallParams]; norm_num⟩

example : ∃ e : Named ℝ, mkNamed .infonce (smallParams 2) = .ok e ∧ ∃ mi, e.estimate plainLib 0 line line = .ok mi ∧
    ∀ v, mi = .num v → v ≤ Real.log 2 := by
  obtain ⟨e, he⟩ := small_named .infonce "quadratic" (.inl rfl)
  obtain ⟨mi, h1, h2⟩ := infonce_ceiling (lib := plainLib) plainRng_ideal 0 he line line rfl (by simp [line])
    (by simp [smallParams, line]; norm_num) (by simp [smallParams]) (fun _ => ⟨0, rfl⟩)
  refine ⟨e, he, mi, h1, fun v hv => ?_⟩
  have h3 := h2 v hv
  have h4 : ⌊(0.5 : ℝ) * 4⌋₊ = 2 := by rw [Nat.floor_eq_iff] <;> norm_num
  simpa [testSize, smallParams, line, h4] using h3

/-- Four equal points. -/
def still : Mat := ⟨4, 1, fun _ _ => 7⟩

example (o : Objective) : ∃ e : Named ℝ, mkNamed o (smallParams 2) "linear" = .ok e ∧ ∃ mi,
    e.estimate plainLib 0 still line = .ok mi ∧ ∀ v, mi = .num v → v ≤ 0 := by
  obtain ⟨e, he⟩ := small_named o "linear" (.inr rfl)
  exact ⟨e, he, constant_nonpos (lib := plainLib) plainRng_ideal 0 he still line rfl (by simp [still, line])
    (by simp [smallParams, still]; norm_num) (by simp [smallParams]) (fun _ => ⟨0, rfl⟩) (.inl fun _ _ _ => rfl)⟩

/-- From degrees Celsius to degrees Fahrenheit. -/
example (o : Objective) : ∃ e : Named ℝ, mkNamed o (smallParams 2) = .ok e ∧
    e.estimateWithInfo plainLib 0 (rescale line (fun _ => 1.8) fun _ => 32) (rescale line (fun _ => 1000) fun _ => 0)
      = e.estimateWithInfo plainLib 0 line line := by
  obtain ⟨e, he⟩ := small_named o "quadratic" (.inl rfl)
  refine ⟨e, he, units 0 e ?_ line line (by simp [line]) _ _ _ _ ?_ ?_⟩
  · rw [((mkNamed_spec o _ _).2.2 e he).1]
    rfl
  · exact fun j => ⟨by norm_num, .inl rfl⟩
  · exact fun j => ⟨by norm_num, .inl rfl⟩

example (o : Objective) : ∃ e e' : Named ℝ, mkNamed o (smallParams 2) = .ok e ∧ mkNamed o (smallParams 2) "linear" = .ok e' ∧
    (e.estimateWithInfo plainLib 0 line line).map (fun r => (r.1, r.2.base))
      = (e'.estimateWithInfo plainLib 0 line line).map fun r => (r.1, r.2.base) := by
  obtain ⟨e, he⟩ := small_named o "quadratic" (.inl rfl)
  obtain ⟨e', he'⟩ := small_named o "linear" (.inr rfl)
  exact ⟨e, e', he, he', backend_irrelevant plainRng_ideal 0 he he' line line (by simp [line])⟩

end BMI.NeuralEstimator
