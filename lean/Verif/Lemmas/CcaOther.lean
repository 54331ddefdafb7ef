import Verif.Lemmas.CcaTasks
import Verif.Props.CcaMixture
import Mathlib.Analysis.SpecialFunctions.Integrals.Basic

/-! The number CCA finds in the limit: uniform variables with noise, normal and Student-t variables, and a variable with its square. -/

namespace BMI.Cca

open MeasureTheory ProbabilityTheory Filter Topology BMI.Cca.Spec BMI.Kde BMI.Kde.Spec BMI.Gebelein BMI.Consistency BMI.Samplers BMI.Student
  BMI.Registry BMI.TaskIds BMI.MatrixUtils Matrix

variable {f g : ℝ → ℝ}

/-! ## Uniform variables with noise -/

theorem uniform_mean {lo hi : ℝ} (h : lo < hi) (n : ℕ) : ∫ x, x ^ n ∂(uniformLaw lo hi) = (hi ^ (n + 1) - lo ^ (n + 1)) / (n + 1) / (hi - lo) := by
  unfold uniformLaw
  rw [integral_smul_measure, integral_Icc_eq_integral_Ioc, ← intervalIntegral.integral_of_le h.le, integral_pow,
    ENNReal.toReal_ofReal (by rw [one_div]; exact inv_nonneg.2 (by linarith)), smul_eq_mul]
  ring

theorem uniform_memLp {lo hi : ℝ} (h : lo < hi) : MemLp (fun x : ℝ => x) 2 (uniformLaw lo hi) := by
  haveI := isProbabilityMeasure_uniformLaw h
  refine MemLp.of_bound measurable_id.aestronglyMeasurable (|lo| + |hi|) ?_
  have : ∀ᵐ x ∂(uniformLaw lo hi), x ∈ Set.Icc lo hi := by
    unfold uniformLaw
    exact Measure.ae_smul_measure (ae_restrict_mem measurableSet_Icc) _
  filter_upwards [this] with x hx
  rw [Real.norm_eq_abs, abs_le]
  constructor
  · linarith [neg_abs_le lo, hx.1, abs_nonneg hi]
  · linarith [le_abs_self hi, hx.2, abs_nonneg lo]

theorem uniform_var {lo hi : ℝ} (h : lo < hi) : Var[fun x : ℝ => x; uniformLaw lo hi] = (hi - lo) ^ 2 / 12 := by
  haveI := isProbabilityMeasure_uniformLaw h
  have h1 := uniform_mean h 1
  have h2 := uniform_mean h 2
  simp only [pow_one] at h1
  have h3 := variance_eq_sub (uniform_memLp h)
  have e : ∫ x, ((fun x : ℝ => x) ^ 2) x ∂(uniformLaw lo hi) = ∫ x, x ^ 2 ∂(uniformLaw lo hi) := rfl
  rw [h3, e, h1, h2]
  have : hi - lo ≠ 0 := by linarith
  push_cast
  field_simp
  ring

theorem noise_cov {μ ν : Measure ℝ} [IsProbabilityMeasure μ] [IsProbabilityMeasure ν] (hμ : MemLp (fun x : ℝ => x) 2 μ) (hν : MemLp (fun x : ℝ => x) 2 ν) :
    HasCov (dx := 1) (dy := 1) ((μ.prod ν).map fun z => (fun _ => z.1, fun _ => z.1 + z.2))
      !![Var[fun x => x; μ], Var[fun x => x; μ]; Var[fun x => x; μ], Var[fun x => x; μ] + Var[fun x => x; ν]] := by
  have a : MemLp (fun z : ℝ × ℝ => z.1) 2 (μ.prod ν) := hμ.comp_fst ν
  have b : MemLp (fun z : ℝ × ℝ => z.2) 2 (μ.prod ν) := hν.comp_snd μ
  have ab : MemLp (fun z : ℝ × ℝ => z.1 + z.2) 2 (μ.prod ν) := a.add b
  have c0 : cov[fun z : ℝ × ℝ => z.1, fun z => z.2; μ.prod ν] = 0 := covariance_fst_snd_prod hμ hν
  have c1 : cov[fun z : ℝ × ℝ => z.1, fun z => z.1; μ.prod ν] = Var[fun x => x; μ] := by
    rw [covariance_self measurable_fst.aemeasurable]
    have h : (μ.prod ν).map Prod.fst = μ := by rw [← Measure.fst, Measure.fst_prod]
    conv_rhs => rw [← h]
    rw [variance_map measurable_id'.aemeasurable (by fun_prop)]
    rfl
  have c2 : cov[fun z : ℝ × ℝ => z.2, fun z => z.2; μ.prod ν] = Var[fun x => x; ν] := by
    rw [covariance_self measurable_snd.aemeasurable]
    have h : (μ.prod ν).map Prod.snd = ν := by rw [← Measure.snd, Measure.snd_prod]
    conv_rhs => rw [← h]
    rw [variance_map measurable_id'.aemeasurable (by fun_prop)]
    rfl
  have d1 : cov[fun z : ℝ × ℝ => z.1, fun z => z.1 + z.2; μ.prod ν] = Var[fun x => x; μ] := by
    have := covariance_add_right a a b
    rw [c0, c1, add_zero] at this
    exact this
  have d3 : cov[fun z : ℝ × ℝ => z.2, fun z => z.1 + z.2; μ.prod ν] = Var[fun x => x; ν] := by
    have := covariance_add_right b a b
    rw [covariance_comm (fun z : ℝ × ℝ => z.2) fun z => z.1, c0, c2, zero_add] at this
    exact this
  have d2 : cov[fun z : ℝ × ℝ => z.1 + z.2, fun z => z.1 + z.2; μ.prod ν] = Var[fun x => x; μ] + Var[fun x => x; ν] := by
    have := covariance_add_left a b ab
    rw [d1, d3] at this
    exact this
  have m : Measurable fun z : ℝ × ℝ => ((fun _ => z.1, fun _ => z.1 + z.2) : (Fin 1 → ℝ) × (Fin 1 → ℝ)) :=
    (measurable_pi_lambda _ fun _ => measurable_fst).prodMk (measurable_pi_lambda _ fun _ => measurable_fst.add measurable_snd)
  have e0 : ((fun z : (Fin 1 → ℝ) × (Fin 1 → ℝ) => Fin.append z.1 z.2 0) ∘ fun z : ℝ × ℝ => (fun _ => z.1, fun _ => z.1 + z.2)) = fun z => z.1 := rfl
  have e1 : ((fun z : (Fin 1 → ℝ) × (Fin 1 → ℝ) => Fin.append z.1 z.2 1) ∘ fun z : ℝ × ℝ => (fun _ => z.1, fun _ => z.1 + z.2)) = fun z => z.1 + z.2 := rfl
  refine ⟨fun i => ?_, fun i j => ?_⟩
  · rw [memLp_map_measure_iff (measurable_append i).aestronglyMeasurable m.aemeasurable]
    fin_cases i
    · exact a
    · exact ab
  · rw [covariance_map (measurable_append i).aestronglyMeasurable (measurable_append j).aestronglyMeasurable m.aemeasurable]
    fin_cases i <;> fin_cases j
    · exact c1
    · exact d1
    · exact (covariance_comm _ _).trans d1
    · exact d2

theorem log_one_add_sq {w : ℝ} (h0 : 0 < w) (h1 : w ≤ 1) : Real.log (1 + w ^ 2) < w := by
  rw [Real.log_lt_iff_lt_exp (by positivity)]
  have := Real.quadratic_le_exp_of_nonneg h0.le
  nlinarith

/-- The number for uniform variables with noise. -/
noncomputable def noiseNumber (e : ℝ) : ℝ := 1 / 2 * Real.log (1 + 1 / (4 * e ^ 2))

theorem noise_lt {e : ℝ} (he : 0 < e) : noiseNumber e < if e > 1 / 2 then 1 / (4 * e) else e - Real.log (2 * e) := by
  unfold noiseNumber
  split_ifs with h
  · have := log_one_add_sq (w := 1 / (2 * e)) (by positivity) (by rw [div_le_one (by positivity)]; linarith)
    rw [show 1 + 1 / (4 * e ^ 2) = 1 + (1 / (2 * e)) ^ 2 by field_simp; ring]
    have h2 : 1 / (4 * e) = 1 / 2 * (1 / (2 * e)) := by field_simp; ring
    rw [h2]
    linarith
  · have := log_one_add_sq (w := 2 * e) (by positivity) (by linarith)
    rw [show 1 + 1 / (4 * e ^ 2) = (1 + (2 * e) ^ 2) / (2 * e) ^ 2 by field_simp; ring, Real.log_div (by positivity) (by positivity), Real.log_pow]
    push_cast
    linarith

theorem noise_posDef {v w : ℝ} (hv : 0 < v) (hw : 0 < w) : (!![v, v; v, v + w] : Matrix (Fin (1 + 1)) (Fin (1 + 1)) ℝ).PosDef := by
  refine Matrix.PosDef.of_dotProduct_mulVec_pos ?_ fun x hx => ?_
  · ext i j
    fin_cases i <;> fin_cases j <;> rfl
  · have e : star x ⬝ᵥ (!![v, v; v, v + w] : Matrix (Fin (1 + 1)) (Fin (1 + 1)) ℝ) *ᵥ x = v * (x 0 + x 1) ^ 2 + w * x 1 ^ 2 := by
      simp [Matrix.mulVec, dotProduct, Fin.sum_univ_two]
      ring
    rw [e]
    by_cases h1 : x 1 = 0
    · have h0 : x 0 ≠ 0 := fun h0 => hx (funext fun i => by fin_cases i <;> [exact h0; exact h1])
      rw [h1]
      have := sq_pos_of_ne_zero h0
      nlinarith
    · have := sq_pos_of_ne_zero h1
      nlinarith [mul_nonneg hv.le (sq_nonneg (x 0 + x 1)), mul_pos hw this]

theorem noise_gauss {e : ℝ} (he : 0 < e) : gauss (p := 1) (q := 1) !![(1 / 12 : ℝ), 1 / 12; 1 / 12, 1 / 12 + e ^ 2 / 3] = noiseNumber e := by
  have := pair_number (a := 1 / 12) (b := 1 / 12 + e ^ 2 / 3) (c := 1 / 12) (by norm_num) (by positivity) (by nlinarith [sq_pos_of_pos he])
  refine this.trans ?_
  unfold noiseNumber
  have e1 : 1 - (1 / 12 : ℝ) ^ 2 / (1 / 12 * (1 / 12 + e ^ 2 / 3)) = (1 + 1 / (4 * e ^ 2))⁻¹ := by
    field_simp
    ring
  rw [e1, Real.log_inv]
  ring

theorem additive_cov {e : ℝ} (he : 0 < e) :
    HasCov (dx := 1) (dy := 1) (((uniformLaw 0 1).prod (uniformLaw (-e) e)).map fun z => (fun _ => z.1, fun _ => z.1 + z.2))
      !![(1 / 12 : ℝ), 1 / 12; 1 / 12, 1 / 12 + e ^ 2 / 3] := by
  haveI := isProbabilityMeasure_uniformLaw (show (0 : ℝ) < 1 by norm_num)
  haveI := isProbabilityMeasure_uniformLaw (show -e < e by linarith)
  have h := noise_cov (uniform_memLp (show (0 : ℝ) < 1 by norm_num)) (uniform_memLp (show -e < e by linarith))
  rw [uniform_var (by norm_num), uniform_var (by linarith)] at h
  convert h using 3
  all_goals norm_num
  all_goals ring

theorem under_additive {F : Type} (val : F → ℝ) (ε : F) (h : 0 < val ε) : Under (lawOf val (.additive ε)) (numberOf val (.additive ε)) := by
  exact ⟨_, additive_cov h, noise_posDef (by norm_num) (by positivity), (noise_gauss h).trans_le (noise_lt h).le⟩

/-! ## Normal and Student-t variables -/

theorem under_normal {dx dy : ℕ} {S : Matrix (Fin (dx + dy)) (Fin (dx + dy)) ℝ} (hS : S.PosDef) {m : ℝ}
    (hm : mutualInfo (splitNormal dx dy 0 S) = ENNReal.ofReal m) (h0 : 0 ≤ m) : Under ⟨dx, dy, (normalLaw 0 S).map (halves dx dy)⟩ m := by
  refine ⟨S, normalLaw_hasCov 0 hS.posSemidef, hS, ?_⟩
  obtain ⟨h1, h2⟩ := splitNormal_mi 0 hS
  rw [h1, ENNReal.ofReal_eq_ofReal_iff h2 h0] at hm
  exact hm.le

theorem under_studentT {dx dy : ℕ} (hx : 0 < dx) (hy : 0 < dy) {S : Matrix (Fin (dx + dy)) (Fin (dx + dy)) ℝ} (hS : S.PosDef) {ν : ℝ} (hν : 2 < ν) {m : ℝ}
    (hm : mutualInfo (splitStudent dx dy 0 S ν) = ENNReal.ofReal m) (h0 : 0 ≤ m) : Under ⟨dx, dy, (studentLaw 0 S ν).map (halves dx dy)⟩ m := by
  have hν0 : 0 < ν := by linarith
  have hc : 0 < ν / (ν - 2) := div_pos hν0 (by linarith)
  obtain ⟨s1, s2⟩ := splitStudent_mi (dx := dx) (dy := dy) 0 hS hν0
  rw [s1, ENNReal.ofReal_eq_ofReal_iff s2 h0] at hm
  have e : (ν / (ν - 2)) • S = Matrix.of fun p q => √(ν / (ν - 2)) * S p q * √(ν / (ν - 2)) := by
    ext p q
    rw [Matrix.smul_apply, Matrix.of_apply, smul_eq_mul, mul_right_comm, Real.mul_self_sqrt hc.le]
  obtain ⟨g1, g2⟩ := gauss_scaled hS (σ := fun _ => √(ν / (ν - 2))) fun _ => Real.sqrt_pos.2 hc
  refine ⟨(ν / (ν - 2)) • S, hasCov_parts (fun i => studentLaw_memLp 0 hν i) fun i j => studentLaw_covariance 0 hS.posSemidef hν i j, hS.smul hc, ?_⟩
  rw [e, g2, ← hm]
  have := studentEntropy_lt hx hy hν0
  unfold gauss
  linarith

/-! ## A variable and its square -/

theorem map_neg_γ : γ.map (fun x => -x) = γ := by
  have := gaussianReal_map_neg (μ := 0) (v := 1)
  rwa [neg_zero] at this

theorem memLp_sq : MemLp (fun x : ℝ => x ^ 2) 2 γ := by
  have h := (memLp_id_gaussianReal (μ := 0) (v := 1) 4)
  have h2 : MemLp (fun x : ℝ => x ^ 2) (4 / 2) γ := by
    have := h.norm_rpow_div (q := 2)
    refine (this.congr_norm (by fun_prop) (.of_forall fun x => ?_))
    simp
  convert h2 using 1
  rw [show (4 : ENNReal) = 2 * 2 by norm_num, mul_div_assoc, ENNReal.div_self (by norm_num) (by norm_num), mul_one]

theorem memLp_γ : MemLp (fun x : ℝ => x) 2 γ := memLp_id_gaussianReal 2

theorem cov_id_sq : cov[fun x : ℝ => x, fun x => x ^ 2; γ] = 0 := by
  have m : Measurable fun x : ℝ => -x := measurable_neg
  have h := covariance_map (μ := γ) (X := fun x : ℝ => x) (Y := fun x => x ^ 2) (Z := fun x => -x) (by fun_prop) (by fun_prop) m.aemeasurable
  rw [map_neg_γ] at h
  have e1 : ((fun x : ℝ => x) ∘ fun x => -x) = fun x => -x := rfl
  have e2 : ((fun x : ℝ => x ^ 2) ∘ fun x => -x) = fun x => x ^ 2 := by
    funext x
    simp
  rw [e1, e2, covariance_fun_neg_left] at h
  linarith

theorem var_sq_pos : 0 < Var[fun x : ℝ => x ^ 2; γ] := by
  refine lt_of_le_of_ne (variance_nonneg _ _) fun h0 => ?_
  have h1 : evariance (fun x : ℝ => x ^ 2) γ = 0 := by
    rw [← memLp_sq.ofReal_variance_eq, ← h0, ENNReal.ofReal_zero]
  rw [evariance_eq_zero_iff (by fun_prop)] at h1
  set a := γ[fun x : ℝ => x ^ 2]
  haveI := nullSingletonClass_gaussianReal (μ := 0) (v := 1) one_ne_zero
  have h4 : γ {x : ℝ | x ^ 2 = a} = 0 := by
    refine measure_mono_null (t := {√a, -√a}) (fun x hx => ?_) ((Set.toFinite _).measure_zero _)
    have hx : x ^ 2 = a := hx
    have : |x| = √a := by rw [← hx, Real.sqrt_sq_eq_abs]
    rcases abs_choice x with h | h
    · left; rw [← this, h]
    · right; rw [Set.mem_singleton_iff, ← this, h, neg_neg]
  have h5 : γ Set.univ ≤ γ {x : ℝ | x ^ 2 = a} := by
    refine measure_mono_ae ?_
    filter_upwards [h1] with x hx _
    exact hx
  rw [h4] at h5
  simp at h5

variable {a : ℝ}

theorem cross_id (hg : Measurable g) (hg2 : MemLp g 2 γ) : cross g (fun x => x) a = a * cov[g, fun x => x; γ] := by
  unfold cross
  have m1 := memLp_first hg2
  have m2 : MemLp (fun p : ℝ × ℝ => a * p.1) 2 (γ.prod γ) := (memLp_first memLp_γ).const_mul a
  have m3 : MemLp (fun p : ℝ × ℝ => √(1 - a ^ 2) * p.2) 2 (γ.prod γ) := (memLp_γ.comp_snd γ).const_mul _
  have h := covariance_add_right m1 m2 m3
  have e : ((fun p : ℝ × ℝ => a * p.1) + fun p : ℝ × ℝ => √(1 - a ^ 2) * p.2) = fun p => a * p.1 + √(1 - a ^ 2) * p.2 := rfl
  rw [e, covariance_const_mul_right, covariance_const_mul_right] at h
  have h0 : cov[fun p : ℝ × ℝ => g p.1, fun p => p.2; γ.prod γ] = 0 := covariance_fst_snd_prod hg2 memLp_γ
  have h1 : cov[fun p : ℝ × ℝ => g p.1, fun p => p.1; γ.prod γ] = cov[g, fun x => x; γ] := by
    have hm : (γ.prod γ).map Prod.fst = γ := by rw [← Measure.fst, Measure.fst_prod]
    conv_rhs => rw [← hm]
    rw [covariance_map (by rw [hm]; exact hg.aestronglyMeasurable) (by fun_prop) (by fun_prop)]
    rfl
  rw [h, h0, h1, mul_zero, add_zero]

theorem cross_sq (ha : a ^ 2 ≤ 1) (hg : Measurable g) (hg2 : MemLp g 2 γ) : cross g (fun x => x ^ 2) a = a ^ 2 * cov[g, fun x => x ^ 2; γ] := by
  unfold cross
  have m1 := memLp_first hg2
  have m2 : MemLp (fun p : ℝ × ℝ => a ^ 2 * p.1 ^ 2) 2 (γ.prod γ) := (memLp_first memLp_sq).const_mul _
  have m3 : MemLp (fun p : ℝ × ℝ => (√(1 - a ^ 2)) ^ 2 * p.2 ^ 2) 2 (γ.prod γ) := (memLp_sq.comp_snd γ).const_mul _
  have m5 : MemLp (fun p : ℝ × ℝ => p.1 * p.2) 2 (γ.prod γ) := by
    rw [memLp_two_iff_integrable_sq (by fun_prop)]
    refine (Integrable.mul_prod (f := fun x : ℝ => x ^ 2) (g := fun x : ℝ => x ^ 2) (memLp_sq.integrable (by norm_num))
      (memLp_sq.integrable (by norm_num))).congr (.of_forall fun p => ?_)
    simp only
    ring
  have m4 : MemLp (fun p : ℝ × ℝ => (2 * a * √(1 - a ^ 2)) * (p.1 * p.2)) 2 (γ.prod γ) := m5.const_mul _
  have h := covariance_add_right m1 (m2.add m4) m3
  rw [covariance_add_right m1 m2 m4] at h
  have e : (((fun p : ℝ × ℝ => a ^ 2 * p.1 ^ 2) + fun p : ℝ × ℝ => (2 * a * √(1 - a ^ 2)) * (p.1 * p.2)) + fun p : ℝ × ℝ => (√(1 - a ^ 2)) ^ 2 * p.2 ^ 2)
      = fun p => (a * p.1 + √(1 - a ^ 2) * p.2) ^ 2 := by
    funext p
    simp only [Pi.add_apply]
    ring
  rw [e, covariance_const_mul_right, covariance_const_mul_right, covariance_const_mul_right] at h
  have h0 : cov[fun p : ℝ × ℝ => g p.1, fun p => p.2 ^ 2; γ.prod γ] = 0 := covariance_fst_snd_prod hg2 memLp_sq
  have h1 : cov[fun p : ℝ × ℝ => g p.1, fun p => p.1 ^ 2; γ.prod γ] = cov[g, fun x => x ^ 2; γ] := by
    have hm : (γ.prod γ).map Prod.fst = γ := by rw [← Measure.fst, Measure.fst_prod]
    conv_rhs => rw [← hm]
    rw [covariance_map (by rw [hm]; exact hg.aestronglyMeasurable) (by fun_prop) (by fun_prop)]
    rfl
  have h2 : cov[fun p : ℝ × ℝ => g p.1, fun p => p.1 * p.2; γ.prod γ] = 0 := by
    rw [covariance_eq_sub m1 m5]
    have i1 : ∫ p : ℝ × ℝ, ((fun p : ℝ × ℝ => g p.1) * (fun p : ℝ × ℝ => p.1 * p.2) : ℝ × ℝ → ℝ) p ∂(γ.prod γ) = 0 := by
      have := integral_prod_mul (μ := γ) (ν := γ) (fun x => g x * x) fun y : ℝ => y
      rw [integral_id_gaussianReal, mul_zero] at this
      rw [← this]
      refine integral_congr_ae (.of_forall fun p => ?_)
      simp only [Pi.mul_apply]
      ring
    have i2 : ∫ p : ℝ × ℝ, p.1 * p.2 ∂(γ.prod γ) = 0 := by
      have := integral_prod_mul (μ := γ) (ν := γ) (fun x : ℝ => x) fun y : ℝ => y
      rw [integral_id_gaussianReal, mul_zero] at this
      exact this
    rw [i1, i2, mul_zero, sub_zero]
  rw [h, h0, h1, h2, mul_zero, mul_zero, add_zero, add_zero]

end BMI.Cca
