import Verif.Spec.Student
import Verif.Lemmas.GaussianMI
import Mathlib.Probability.Moments.MGFAnalytic
import Mathlib.Analysis.SpecialFunctions.Gamma.Deriv

/-! Multivariate Student-t laws: density, marginals, expectation of the logarithm of the density. -/

namespace BMI.Samplers

open MeasureTheory ProbabilityTheory

instance chiSquared_prob {ν : ℝ} [hν : Fact (0 < ν)] : IsProbabilityMeasure (chiSquared ν) :=
  isProbabilityMeasure_gammaMeasure (half_pos hν.out) (by norm_num)

variable {d : ℕ} (loc : Fin d → ℝ) {S : Matrix (Fin d) (Fin d) ℝ} {ν : ℝ}

theorem measurable_studentMap (ν : ℝ) : Measurable fun p : ℝ × (Fin d → ℝ) => loc + (√(p.1 / ν))⁻¹ • p.2 := by
  have h1 : Measurable fun p : ℝ × (Fin d → ℝ) => (√(p.1 / ν))⁻¹ := by fun_prop
  exact measurable_const.add (h1.smul measurable_snd)

theorem studentLaw_prob (S : Matrix (Fin d) (Fin d) ℝ) (hν : 0 < ν) : IsProbabilityMeasure (studentLaw loc S ν) := by
  haveI := Fact.mk hν
  exact Measure.isProbabilityMeasure_map (measurable_studentMap loc ν).aemeasurable

/-- Logarithm of the density of a Student-t law. -/
noncomputable def studentLog (S : Matrix (Fin d) (Fin d) ℝ) (ν : ℝ) (z : Fin d → ℝ) : ℝ :=
  Real.log (Real.Gamma ((ν + d) / 2)) - Real.log (Real.Gamma (ν / 2)) - d / 2 * Real.log (ν * Real.pi)
    - Real.log S.det / 2 - (ν + d) / 2 * Real.log (1 + quad loc S z / ν)

theorem quad_nonneg (h : S.PosDef) (z : Fin d → ℝ) : 0 ≤ quad loc S z := by
  have := h.inv.posSemidef.dotProduct_mulVec_nonneg (z - loc)
  rwa [star_trivial] at this

theorem quad_smul (h : S.PosDef) {c : ℝ} (hc : c ≠ 0) (z : Fin d → ℝ) : quad loc (c • S) z = c⁻¹ * quad loc S z := by
  unfold quad
  have e : (c • S)⁻¹ = c⁻¹ • S⁻¹ := by
    have := Matrix.inv_smul' (A := S) (Units.mk0 c hc) (isUnit_iff_ne_zero.2 h.det_pos.ne')
    exact this
  rw [e, Matrix.smul_mulVec, dotProduct_smul, smul_eq_mul]

theorem continuous_studentLog (h : S.PosDef) (hν : 0 < ν) : Continuous (studentLog loc S ν) := by
  unfold studentLog
  refine Continuous.sub continuous_const (continuous_const.mul ?_)
  refine Continuous.log ?_ fun z => ?_
  · exact continuous_const.add ((continuous_quad loc S).div_const ν)
  · have := div_nonneg (quad_nonneg loc h z) hν.le
    linarith

theorem gammaPDFReal_exp {a r w : ℝ} (ha : 0 < a) (hr : 0 < r) (hw : 0 < w) :
    gammaPDFReal a r w = Real.exp (a * Real.log r - Real.log (Real.Gamma a) + (a - 1) * Real.log w - r * w) := by
  unfold gammaPDFReal
  rw [if_pos hw.le, Real.exp_sub, Real.exp_add, Real.exp_sub, Real.exp_log (Real.Gamma_pos_of_pos ha), mul_comm a,
    mul_comm (a - 1), ← Real.rpow_def_of_pos hr, ← Real.rpow_def_of_pos hw, Real.exp_neg]
  rfl

/-- The mixture identity behind the Student-t density. -/
theorem mixture_identity (h : S.PosDef) (hν : 0 < ν) {w : ℝ} (hw : 0 < w) (z : Fin d → ℝ) :
    gammaPDFReal (ν / 2) (1 / 2) w * Real.exp (logDensity loc ((ν / w) • S) z)
      = Real.exp (studentLog loc S ν z) * gammaPDFReal ((ν + d) / 2) ((1 + quad loc S z / ν) / 2) w := by
  have hq := div_nonneg (quad_nonneg loc h z) hν.le
  have hd : (0 : ℝ) ≤ d := Nat.cast_nonneg d
  rw [gammaPDFReal_exp (by positivity) (by norm_num) hw, gammaPDFReal_exp (by positivity) (by positivity) hw,
    ← Real.exp_add, ← Real.exp_add]
  congr 1
  unfold logDensity studentLog
  rw [quad_smul loc h (by positivity), Matrix.det_smul, Fintype.card_fin,
    Real.log_mul (by positivity) h.det_pos.ne', Real.log_pow, Real.log_div hν.ne' hw.ne',
    Real.log_mul (by norm_num) Real.pi_pos.ne', Real.log_mul hν.ne' Real.pi_pos.ne',
    Real.log_div one_ne_zero two_ne_zero, Real.log_div (x := 1 + quad loc S z / ν) (by positivity) two_ne_zero, Real.log_one]
  field_simp
  ring

theorem normalLaw_scaled (h : S.PosDef) (hν : 0 < ν) {w : ℝ} (hw : 0 < w) :
    (normalLaw 0 S).map (fun z => loc + (√(w / ν))⁻¹ • z) = normalLaw loc ((ν / w) • S) := by
  have := normalLaw_map 0 h.posSemidef loc ((√(w / ν))⁻¹ • (1 : Matrix (Fin d) (Fin d) ℝ))
  rw [Matrix.mulVec_zero, add_zero] at this
  simp only [Matrix.smul_mulVec, Matrix.one_mulVec] at this
  rw [this]
  congr 1
  rw [Matrix.transpose_smul, Matrix.transpose_one, Matrix.smul_mul, Matrix.one_mul, Matrix.mul_smul, Matrix.mul_one,
    smul_smul, ← mul_inv, Real.mul_self_sqrt (by positivity), inv_div]

/-- The density of a Student-t law. -/
theorem studentLaw_density (h : S.PosDef) (hν : 0 < ν) :
    studentLaw loc S ν = volume.withDensity fun z => ENNReal.ofReal (Real.exp (studentLog loc S ν z)) := by
  haveI := Fact.mk hν
  have hd : (0 : ℝ) ≤ d := Nat.cast_nonneg d
  refine Measure.ext fun s hs => ?_
  have hm := measurable_studentMap loc ν
  unfold studentLaw
  rw [Measure.map_apply hm hs, Measure.prod_apply (hm hs)]
  unfold chiSquared gammaMeasure
  have mg : ∀ a r, Measurable (gammaPDF a r) := fun a r => (measurable_gammaPDFReal a r).ennreal_ofReal
  rw [lintegral_withDensity_eq_lintegral_mul _ (mg _ _) (measurable_measure_prodMk_left (hm hs)), withDensity_apply _ hs]
  have mlog := (continuous_studentLog loc h hν).measurable
  have mq := (continuous_quad loc S).measurable
  have key : ∀ᵐ w : ℝ, (gammaPDF (ν / 2) (1 / 2) *
      fun w => normalLaw 0 S (Prod.mk w ⁻¹' ((fun p : ℝ × (Fin d → ℝ) => loc + (√(p.1 / ν))⁻¹ • p.2) ⁻¹' s))) w
      = ∫⁻ z in s, ENNReal.ofReal (Real.exp (studentLog loc S ν z)) *
        gammaPDF ((ν + d) / 2) ((1 + quad loc S z / ν) / 2) w := by
    filter_upwards [compl_mem_ae_iff.2 (measure_singleton (μ := volume) (0 : ℝ))] with w hw
    rw [Pi.mul_apply]
    rcases lt_trichotomy w 0 with hw0 | hw0 | hw0
    · simp [gammaPDF_of_neg hw0]
    · exact absurd hw0 hw
    · have e1 : normalLaw 0 S (Prod.mk w ⁻¹' ((fun p : ℝ × (Fin d → ℝ) => loc + (√(p.1 / ν))⁻¹ • p.2) ⁻¹' s))
          = normalLaw loc ((ν / w) • S) s := by
        rw [← normalLaw_scaled loc h hν hw0]
        exact (Measure.map_apply (hm.comp measurable_prodMk_left) hs).symm
      rw [e1, normalLaw_density loc (h.smul (by positivity)), withDensity_apply _ hs,
        ← lintegral_const_mul _ (continuous_logDensity _ _).measurable.exp.ennreal_ofReal]
      refine lintegral_congr fun z => ?_
      unfold gammaPDF
      rw [← ENNReal.ofReal_mul (gammaPDFReal_nonneg (by positivity) (by norm_num) _),
        ← ENNReal.ofReal_mul (Real.exp_pos _).le, mixture_identity loc h hν hw0]
  rw [lintegral_congr_ae key, lintegral_lintegral_swap]
  · refine lintegral_congr fun z => ?_
    have hq := div_nonneg (quad_nonneg loc h z) hν.le
    rw [lintegral_const_mul _ (mg _ _),
      lintegral_gammaPDF_eq_one (by positivity) (by positivity), mul_one]
  · refine Measurable.aemeasurable ?_
    refine (mlog.exp.ennreal_ofReal.comp measurable_snd).mul (Measurable.ennreal_ofReal ?_)
    unfold gammaPDFReal
    refine Measurable.ite (measurableSet_le measurable_const measurable_fst) ?_ measurable_const
    have mq' : Measurable fun p : ℝ × (Fin d → ℝ) => quad loc S p.2 := mq.comp measurable_snd
    fun_prop

/-- Linear images of Student-t laws are Student-t laws. -/
theorem studentLaw_map {e : ℕ} (h : S.PosSemidef) (hν : 0 < ν) (B : Matrix (Fin e) (Fin d) ℝ) :
    (studentLaw loc S ν).map (fun z => B.mulVec z) = studentLaw (B.mulVec loc) (B * S * B.transpose) ν := by
  haveI := Fact.mk hν
  have hB : Measurable fun z : Fin d → ℝ => B.mulVec z := by
    have : Continuous fun z : Fin d → ℝ => B.mulVec z := by fun_prop
    exact this.measurable
  have h1 := normalLaw_map 0 h 0 B
  simp only [Matrix.mulVec_zero, zero_add] at h1
  unfold studentLaw
  rw [Measure.map_map hB (measurable_studentMap loc ν), ← h1]
  have h2 : (chiSquared ν).prod ((normalLaw 0 S).map fun z => B.mulVec z)
      = ((chiSquared ν).prod (normalLaw 0 S)).map (Prod.map id fun z => B.mulVec z) := by
    rw [← Measure.map_prod_map _ _ measurable_id hB, Measure.map_id]
  rw [h2, Measure.map_map (measurable_studentMap _ ν) (measurable_id.prodMap hB)]
  congr 1
  funext p
  simp [Matrix.mulVec_add, Matrix.mulVec_smul]

/-- The logarithm appearing in the density. -/
noncomputable def studentX (S : Matrix (Fin d) (Fin d) ℝ) (ν : ℝ) (z : Fin d → ℝ) : ℝ := Real.log (1 + quad loc S z / ν)

theorem continuous_studentX (h : S.PosDef) (hν : 0 < ν) : Continuous (studentX loc S ν) := by
  unfold studentX
  refine Continuous.log (continuous_const.add ((continuous_quad loc S).div_const ν)) fun z => ?_
  have := div_nonneg (quad_nonneg loc h z) hν.le
  linarith

theorem lintegral_exp_studentX (h : S.PosDef) (hν : 0 < ν) {t : ℝ} (ht : t < ν / 2) :
    ∫⁻ z, ENNReal.ofReal (Real.exp (t * studentX loc S ν z)) ∂(studentLaw loc S ν)
      = ENNReal.ofReal (Real.Gamma ((ν + d) / 2) / Real.Gamma (ν / 2)
        * (Real.Gamma (ν / 2 - t) / Real.Gamma ((ν + d) / 2 - t))) := by
  have hd : (0 : ℝ) ≤ d := Nat.cast_nonneg d
  have hν' : 0 < ν - 2 * t := by linarith
  have g1 := Real.Gamma_pos_of_pos (s := (ν + d) / 2) (by positivity)
  have g2 := Real.Gamma_pos_of_pos (s := ν / 2) (by positivity)
  have g3 := Real.Gamma_pos_of_pos (s := ν / 2 - t) (by linarith)
  have g4 := Real.Gamma_pos_of_pos (s := (ν + d) / 2 - t) (by linarith)
  have hS : ((ν / (ν - 2 * t)) • S).PosDef := h.smul (by positivity)
  rw [studentLaw_density loc h hν, lintegral_withDensity_eq_lintegral_mul _
    (continuous_studentLog loc h hν).measurable.exp.ennreal_ofReal
    (((continuous_studentX loc h hν).measurable.const_mul t).exp.ennreal_ofReal)]
  have e : ∀ z, ((fun z => ENNReal.ofReal (Real.exp (studentLog loc S ν z))) *
      fun z => ENNReal.ofReal (Real.exp (t * studentX loc S ν z))) z
      = ENNReal.ofReal (Real.Gamma ((ν + d) / 2) / Real.Gamma (ν / 2)
        * (Real.Gamma (ν / 2 - t) / Real.Gamma ((ν + d) / 2 - t)))
        * ENNReal.ofReal (Real.exp (studentLog loc ((ν / (ν - 2 * t)) • S) (ν - 2 * t) z)) := by
    intro z
    have hq := div_nonneg (quad_nonneg loc h z) hν.le
    rw [Pi.mul_apply, ← ENNReal.ofReal_mul (Real.exp_pos _).le, ← ENNReal.ofReal_mul (by positivity), ← Real.exp_add]
    congr 1
    rw [← Real.exp_log (show 0 < Real.Gamma ((ν + d) / 2) / Real.Gamma (ν / 2)
        * (Real.Gamma (ν / 2 - t) / Real.Gamma ((ν + d) / 2 - t)) by positivity), ← Real.exp_add]
    congr 1
    rw [Real.log_mul (by positivity) (by positivity), Real.log_div g1.ne' g2.ne', Real.log_div g3.ne' g4.ne']
    unfold studentLog studentX
    rw [quad_smul loc h (by positivity), Matrix.det_smul, Fintype.card_fin,
      Real.log_mul (by positivity) h.det_pos.ne', Real.log_pow, Real.log_div hν.ne' hν'.ne',
      Real.log_mul hν'.ne' Real.pi_pos.ne', Real.log_mul hν.ne' Real.pi_pos.ne',
      show (ν / (ν - 2 * t))⁻¹ * quad loc S z / (ν - 2 * t) = quad loc S z / ν by field_simp,
      show (ν - 2 * t + d) / 2 = (ν + d) / 2 - t by ring, show (ν - 2 * t) / 2 = ν / 2 - t by ring]
    ring
  rw [lintegral_congr e, lintegral_const_mul _ (continuous_studentLog loc hS hν').measurable.exp.ennreal_ofReal,
    ← setLIntegral_univ, ← withDensity_apply _ MeasurableSet.univ, ← studentLaw_density loc hS hν']
  haveI := studentLaw_prob loc ((ν / (ν - 2 * t)) • S) hν'
  rw [measure_univ, mul_one]

theorem mgf_studentX (h : S.PosDef) (hν : 0 < ν) {t : ℝ} (ht : t < ν / 2) :
    Integrable (fun z => Real.exp (t * studentX loc S ν z)) (studentLaw loc S ν) ∧
    mgf (studentX loc S ν) (studentLaw loc S ν) t = Real.Gamma ((ν + d) / 2) / Real.Gamma (ν / 2)
        * (Real.Gamma (ν / 2 - t) / Real.Gamma ((ν + d) / 2 - t)) := by
  have hd : (0 : ℝ) ≤ d := Nat.cast_nonneg d
  have key := lintegral_exp_studentX loc h hν ht
  have hm : Measurable fun z => Real.exp (t * studentX loc S ν z) :=
    ((continuous_studentX loc h hν).measurable.const_mul t).exp
  have g1 := Real.Gamma_pos_of_pos (s := (ν + d) / 2) (by positivity)
  have g2 := Real.Gamma_pos_of_pos (s := ν / 2) (by positivity)
  have g3 := Real.Gamma_pos_of_pos (s := ν / 2 - t) (by linarith)
  have g4 := Real.Gamma_pos_of_pos (s := (ν + d) / 2 - t) (by linarith)
  constructor
  · refine ⟨hm.aestronglyMeasurable, ?_⟩
    rw [hasFiniteIntegral_iff_ofReal (Filter.Eventually.of_forall fun _ => (Real.exp_pos _).le), key]
    exact ENNReal.ofReal_lt_top
  · unfold mgf
    rw [integral_eq_lintegral_of_nonneg_ae (Filter.Eventually.of_forall fun _ => (Real.exp_pos _).le)
      hm.aestronglyMeasurable, key, ENNReal.toReal_ofReal (by positivity)]

theorem integral_studentX (h : S.PosDef) (hν : 0 < ν) :
    Integrable (studentX loc S ν) (studentLaw loc S ν) ∧
    ∫ z, studentX loc S ν z ∂(studentLaw loc S ν)
      = logDeriv Real.Gamma ((ν + d) / 2) - logDeriv Real.Gamma (ν / 2) := by
  have hd : (0 : ℝ) ≤ d := Nat.cast_nonneg d
  have g1 := Real.Gamma_pos_of_pos (s := (ν + d) / 2) (by positivity)
  have g2 := Real.Gamma_pos_of_pos (s := ν / 2) (by positivity)
  have hi : (0 : ℝ) ∈ interior (integrableExpSet (studentX loc S ν) (studentLaw loc S ν)) := by
    rw [mem_interior]
    exact ⟨Set.Iio (ν / 2), fun t ht => (mgf_studentX loc h hν ht).1, isOpen_Iio, half_pos hν⟩
  refine ⟨integrable_of_mem_interior_integrableExpSet hi, ?_⟩
  rw [← deriv_mgf_zero hi]
  have he : mgf (studentX loc S ν) (studentLaw loc S ν) =ᶠ[nhds 0] fun t => Real.Gamma ((ν + d) / 2) / Real.Gamma (ν / 2)
        * (Real.Gamma (ν / 2 - t) / Real.Gamma ((ν + d) / 2 - t)) := by
    filter_upwards [Iio_mem_nhds (half_pos hν)] with t ht using (mgf_studentX loc h hν ht).2
  rw [he.deriv_eq]
  have dg : ∀ a : ℝ, 0 < a → HasDerivAt Real.Gamma (deriv Real.Gamma a) a := fun a ha =>
    (Real.differentiableAt_Gamma fun m => by
      have : (0 : ℝ) ≤ m := Nat.cast_nonneg m
      intro hm
      linarith).hasDerivAt
  have ds : ∀ a : ℝ, 0 < a → HasDerivAt (fun t => Real.Gamma (a - t)) (-deriv Real.Gamma a) 0 := by
    intro a ha
    have h1 : HasDerivAt (fun t : ℝ => a - t) (-1) 0 := by simpa using (hasDerivAt_id (0 : ℝ)).const_sub a
    have h2 : HasDerivAt Real.Gamma (deriv Real.Gamma a) (a - 0) := by rw [sub_zero]; exact dg a ha
    have := h2.comp (0 : ℝ) h1
    rw [mul_neg_one] at this
    exact this
  have h3 := ((ds (ν / 2) (by positivity)).div (ds ((ν + d) / 2) (by positivity)) (by rw [sub_zero]; exact g1.ne')).const_mul
    (Real.Gamma ((ν + d) / 2) / Real.Gamma (ν / 2))
  have h4 := h3.deriv
  simp only [Pi.div_apply] at h4
  rw [h4, logDeriv_apply, logDeriv_apply, sub_zero, sub_zero]
  field_simp
  ring

end BMI.Samplers
