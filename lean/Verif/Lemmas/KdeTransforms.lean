import Verif.Lemmas.KdeMaps
import Verif.Props.Transforms
import Mathlib.Analysis.SpecialFunctions.Arsinh
import Mathlib.LinearAlgebra.Matrix.SchurComplement
import Mathlib.MeasureTheory.Function.LpSpace.Basic

/-! The transforms of the benchmark keep laws with densities, and moments. -/

namespace BMI.Kde

open MeasureTheory ProbabilityTheory Filter Topology BMI.Kde.Spec BMI.Samplers Matrix

variable {d : ℕ} {Q : Measure (Fin d → ℝ)}

/-! ## Derivatives -/

theorem signedPow_deriv (α : ℝ) {x : ℝ} (hx : x ≠ 0) : HasDerivAt (signedPow α) (α * |x| ^ (α - 1)) x := by
  rcases lt_or_gt_of_ne hx with h | h
  · have h1 : HasDerivAt (fun y : ℝ => -(-y) ^ α) (-(-1 * α * (-x) ^ (α - 1))) x :=
      ((hasDerivAt_neg x).rpow_const (Or.inl (by linarith))).neg
    rw [abs_of_neg h]
    refine (h1.congr_of_eventuallyEq ?_).congr_deriv (by ring)
    filter_upwards [gt_mem_nhds h] with y hy
    unfold signedPow
    rw [sign_neg hy, abs_of_neg hy]
    simp
  · have h1 : HasDerivAt (fun y : ℝ => y ^ α) (α * x ^ (α - 1)) x := Real.hasDerivAt_rpow_const (Or.inl h.ne')
    rw [abs_of_pos h]
    refine h1.congr_of_eventuallyEq ?_
    filter_upwards [lt_mem_nhds h] with y hy
    unfold signedPow
    rw [sign_pos hy, abs_of_pos hy]
    simp

theorem signedPow_injective' {α : ℝ} (hα : α ≠ 0) : Function.Injective (signedPow α) := by
  have h0 : ∀ x : ℝ, signedPow α x = 0 ↔ x = 0 := fun x => by
    rw [← sign_eq_zero_iff, sign_signedPow, sign_eq_zero_iff]
  intro x y h
  by_cases hx : x = 0
  · rw [hx, (h0 0).2 rfl] at h
    rw [hx, (h0 y).1 h.symm]
  · refine signedPow_injOn hα hx (fun hy => hx ?_) h
    rw [hy, (h0 0).2 rfl] at h
    exact (h0 x).1 h

theorem normalCdf_deriv (x : ℝ) :
    HasDerivAt normalCdf (1 / (√Real.pi * √2) * Real.exp (-(x / √2) ^ 2)) x := by
  have hc : Continuous fun t : ℝ => Real.exp (-t ^ 2) := by fun_prop
  have h : ∀ y, HasDerivAt erf (2 / √Real.pi * Real.exp (-y ^ 2)) y := fun y =>
    (intervalIntegral.integral_hasDerivAt_right (hc.intervalIntegrable 0 y) (hc.stronglyMeasurableAtFilter _ _) hc.continuousAt).const_mul _
  have h1 := (((h (x / √2)).comp x ((hasDerivAt_id x).div_const (√2))).const_add 1).const_mul (0.5 : ℝ)
  have e : normalCdf = fun y => 0.5 * (1 + erf (y / √2)) := by
    funext y; unfold normalCdf; rw [two_pow_half]
  rw [e]
  refine h1.congr_deriv ?_
  have := Real.pi_pos
  have h2 : (0 : ℝ) < √2 := by positivity
  have h3 : (0 : ℝ) < √Real.pi := by positivity
  field_simp
  norm_num

theorem wigglyX_deriv (x : ℝ) : HasDerivAt wigglyX (1 + 0.4 * (1.0 * Real.cos (1.0 * x + 0)) + 0.2 * (1.7 * Real.cos (1.7 * x + 1))
      + 0.03 * (3.3 * Real.cos (3.3 * x + -2.5))) x := by
  have := (((hasDerivAt_id x).add ((hasDerivAt_sin_affine 1.0 0 x).const_mul 0.4)).add
    ((hasDerivAt_sin_affine 1.7 1 x).const_mul 0.2)).add ((hasDerivAt_sin_affine 3.3 (-2.5) x).const_mul 0.03)
  refine this.congr_of_eventuallyEq (Filter.Eventually.of_forall fun y => ?_)
  simp [wigglyX, sub_eq_add_neg]

theorem wigglyY_deriv (x : ℝ) : HasDerivAt wigglyY (1 + -0.4 * (0.4 * Real.cos (0.4 * x + 0)) + 0.17 * (1.3 * Real.cos (1.3 * x + 3.5))
      + 0.02 * (4.3 * Real.cos (4.3 * x + -2.5))) x := by
  have := (((hasDerivAt_id x).add ((hasDerivAt_sin_affine 0.4 0 x).const_mul (-0.4))).add
    ((hasDerivAt_sin_affine 1.3 3.5 x).const_mul 0.17)).add ((hasDerivAt_sin_affine 4.3 (-2.5) x).const_mul 0.02)
  refine this.congr_of_eventuallyEq (Filter.Eventually.of_forall fun y => ?_)
  simp [wigglyY, sub_eq_add_neg]

theorem wigglyX_near (x : ℝ) : |wigglyX x| ≤ 1 + |x| := by
  have h1 := Real.abs_sin_le_one (1.0 * x)
  have h2 := Real.abs_sin_le_one (1.7 * x + 1)
  have h3 := Real.abs_sin_le_one (3.3 * x - 2.5)
  unfold wigglyX
  rw [abs_le] at h1 h2 h3 ⊢
  have := neg_abs_le x
  have := le_abs_self x
  constructor <;> norm_num at * <;> linarith

theorem wigglyY_near (x : ℝ) : |wigglyY x| ≤ 1 + |x| := by
  have h1 := Real.abs_sin_le_one (0.4 * x)
  have h2 := Real.abs_sin_le_one (1.3 * x + 3.5)
  have h3 := Real.abs_sin_le_one (4.3 * x - 2.5)
  unfold wigglyY
  rw [abs_le] at h1 h2 h3 ⊢
  have := neg_abs_le x
  have := le_abs_self x
  constructor <;> norm_num at * <;> linarith

theorem abs_arsinh_le (x : ℝ) : |Real.arsinh x| ≤ Real.log (1 + 2 * |x|) := by
  have key : ∀ y : ℝ, 0 ≤ y → Real.arsinh y ≤ Real.log (1 + 2 * y) := fun y hy => by
    unfold Real.arsinh
    refine Real.log_le_log (by positivity) ?_
    have : √(1 + y ^ 2) ≤ 1 + y := Real.sqrt_le_iff.2 ⟨by linarith, by nlinarith⟩
    linarith
  rcases le_total 0 x with h | h
  · rw [abs_of_nonneg (Real.arsinh_nonneg_iff.2 h), abs_of_nonneg h]
    exact key x h
  · rw [abs_of_nonpos (Real.arsinh_nonpos_iff.2 h), abs_of_nonpos h, ← Real.arsinh_neg]
    exact key (-x) (by linarith)

/-! ## Densities -/

section

variable [IsProbabilityMeasure Q]

theorem single_le (u : Fin d → ℝ) (c : Fin d) : |u c| ≤ ∑ i, |u i| :=
  Finset.single_le_sum (f := fun i => |u i|) (fun i _ => abs_nonneg _) (Finset.mem_univ c)

theorem regular_asinh (h : Regular Q) : Regular (Q.map fun u c => Real.arsinh (u c)) := by
  refine regular_each h Real.continuous_arsinh.measurable (h' := fun x => (√(1 + x ^ 2))⁻¹) (by fun_prop) (fun x _ => Real.hasDerivAt_arsinh x)
    (fun x _ => by positivity) Real.arsinh_injective (fun c => ?_) fun c => ?_
  · refine (h.tail c).mono' (Measurable.aestronglyMeasurable (by fun_prop)) (.of_forall fun u => ?_)
    rw [Real.log_inv, Real.log_sqrt (by positivity), Real.norm_eq_abs, abs_neg,
      abs_of_nonneg (div_nonneg (Real.log_nonneg (by nlinarith [sq_nonneg (u c)])) (by norm_num))]
    have : Real.log (1 + u c ^ 2) ≤ Real.log ((1 + |u c|) ^ 2) := by
      refine Real.log_le_log (by positivity) ?_
      nlinarith [abs_nonneg (u c), sq_abs (u c)]
    rw [Real.log_pow] at this
    push_cast at this
    linarith
  · refine tail_linear h.tail (Real.continuous_arsinh.measurable.comp (measurable_pi_apply c)) (B := 2) fun u => ?_
    have h1 := abs_arsinh_le (u c)
    have h2 := Real.log_le_sub_one_of_pos (show 0 < 1 + 2 * |u c| by positivity)
    have h3 := single_le u c
    linarith

theorem regular_power (h : Regular Q) {α : ℝ} (hα : α ≠ 0) : Regular (Q.map fun u c => signedPow α (u c)) := by
  refine regular_each h (measurable_signedPow α) (h' := fun x => α * |x| ^ (α - 1)) (by fun_prop) (fun x hx => signedPow_deriv α hx)
    (fun x hx => mul_ne_zero hα (Real.rpow_pos_of_pos (abs_pos.2 hx) _).ne') (signedPow_injective' hα) (fun c => ?_) fun c => ?_
  · refine ((integrable_const (Real.log α)).add ((log_component_integrable h c).const_mul (α - 1))).congr ?_
    filter_upwards [regular_off h] with u hu
    have hp := abs_pos.2 (hu c)
    rw [Pi.add_apply, Real.log_mul hα (Real.rpow_pos_of_pos hp _).ne', Real.log_rpow hp, Real.log_abs]
  · refine ((integrable_const (Real.log 2)).add ((log_component_integrable h c).norm.const_mul |α|)).mono'
      ((((measurable_signedPow α).comp (measurable_pi_apply c)).norm.const_add 1).log).aestronglyMeasurable ?_
    filter_upwards [regular_off h] with u hu
    have hp := abs_pos.2 (hu c)
    have e : |signedPow α (u c)| = |u c| ^ α := by
      unfold signedPow
      rcases lt_or_gt_of_ne (hu c) with h | h
      · simp [sign_neg h, abs_of_nonneg (Real.rpow_nonneg (abs_nonneg (u c)) α)]
      · simp [sign_pos h, abs_of_nonneg (Real.rpow_nonneg (abs_nonneg (u c)) α)]
    simp only [Function.comp_apply, Pi.add_apply]
    rw [Real.norm_eq_abs, Real.norm_eq_abs, e, abs_of_nonneg (Real.log_nonneg (by linarith [Real.rpow_nonneg (abs_nonneg (u c)) α]))]
    have hx := Real.rpow_pos_of_pos hp α
    rcases le_total (|u c| ^ α) 1 with h1 | h1
    · have := Real.log_le_log (by positivity) (show 1 + |u c| ^ α ≤ 2 by linarith)
      have := mul_nonneg (abs_nonneg α) (abs_nonneg (Real.log (u c)))
      linarith
    · have h2 := Real.log_le_log (by positivity) (show 1 + |u c| ^ α ≤ 2 * |u c| ^ α by linarith)
      rw [Real.log_mul (by norm_num) hx.ne', Real.log_rpow hp, Real.log_abs] at h2
      have := le_abs_self (α * Real.log (u c))
      rw [abs_mul] at this
      linarith

theorem regular_wigglyX (h : Regular Q) : Regular (Q.map fun u c => wigglyX (u c)) := by
  have hb : ∀ x : ℝ, 0.05 ≤ 1 + 0.4 * (1.0 * Real.cos (1.0 * x + 0)) + 0.2 * (1.7 * Real.cos (1.7 * x + 1)) + 0.03 * (3.3 * Real.cos (3.3 * x + -2.5)) ∧
      1 + 0.4 * (1.0 * Real.cos (1.0 * x + 0)) + 0.2 * (1.7 * Real.cos (1.7 * x + 1)) + 0.03 * (3.3 * Real.cos (3.3 * x + -2.5)) ≤ 2 := fun x => by
    have h1 := Real.abs_cos_le_one (1.0 * x + 0)
    have h2 := Real.abs_cos_le_one (1.7 * x + 1)
    have h3 := Real.abs_cos_le_one (3.3 * x + -2.5)
    rw [abs_le] at h1 h2 h3
    constructor <;> norm_num at * <;> linarith
  refine regular_each h continuous_wigglyX.measurable (h' := fun x => 1 + 0.4 * (1.0 * Real.cos (1.0 * x + 0)) + 0.2 * (1.7 * Real.cos (1.7 * x + 1))
      + 0.03 * (3.3 * Real.cos (3.3 * x + -2.5))) (by fun_prop) (fun x _ => wigglyX_deriv x) (fun x _ => ?_) wigglyX_strictMono.injective
    (fun c => ?_) fun c => tail_linear h.tail (continuous_wigglyX.measurable.comp (measurable_pi_apply c)) (B := 1) fun u => ?_
  · have := (hb x).1
    intro h0
    rw [h0] at this
    norm_num at this
  · refine (integrable_const (20 : ℝ)).mono' (Measurable.aestronglyMeasurable (by fun_prop)) (.of_forall fun u => ?_)
    obtain ⟨h1, h2⟩ := hb (u c)
    have hp := lt_of_lt_of_le (by norm_num : (0 : ℝ) < 0.05) h1
    rw [Real.norm_eq_abs, abs_le]
    have l1 := Real.log_le_sub_one_of_pos hp
    have l2 := Real.one_sub_inv_le_log_of_pos hp
    have l3 := inv_anti₀ (by norm_num) h1
    rw [show (0.05 : ℝ)⁻¹ = 20 by norm_num] at l3
    constructor <;> linarith
  · have := wigglyX_near (u c)
    have := single_le u c
    linarith

theorem regular_wigglyY (h : Regular Q) : Regular (Q.map fun u c => wigglyY (u c)) := by
  have hb : ∀ x : ℝ, 0.05 ≤ 1 + -0.4 * (0.4 * Real.cos (0.4 * x + 0)) + 0.17 * (1.3 * Real.cos (1.3 * x + 3.5)) + 0.02 * (4.3 * Real.cos (4.3 * x + -2.5)) ∧
      1 + -0.4 * (0.4 * Real.cos (0.4 * x + 0)) + 0.17 * (1.3 * Real.cos (1.3 * x + 3.5)) + 0.02 * (4.3 * Real.cos (4.3 * x + -2.5)) ≤ 2 := fun x => by
    have h1 := Real.abs_cos_le_one (0.4 * x + 0)
    have h2 := Real.abs_cos_le_one (1.3 * x + 3.5)
    have h3 := Real.abs_cos_le_one (4.3 * x + -2.5)
    rw [abs_le] at h1 h2 h3
    constructor <;> norm_num at * <;> linarith
  refine regular_each h continuous_wigglyY.measurable (h' := fun x => 1 + -0.4 * (0.4 * Real.cos (0.4 * x + 0)) + 0.17 * (1.3 * Real.cos (1.3 * x + 3.5))
      + 0.02 * (4.3 * Real.cos (4.3 * x + -2.5))) (by fun_prop) (fun x _ => wigglyY_deriv x) (fun x _ => ?_) wigglyY_strictMono.injective
    (fun c => ?_) fun c => tail_linear h.tail (continuous_wigglyY.measurable.comp (measurable_pi_apply c)) (B := 1) fun u => ?_
  · have := (hb x).1
    intro h0
    rw [h0] at this
    norm_num at this
  · refine (integrable_const (20 : ℝ)).mono' (Measurable.aestronglyMeasurable (by fun_prop)) (.of_forall fun u => ?_)
    obtain ⟨h1, h2⟩ := hb (u c)
    have hp := lt_of_lt_of_le (by norm_num : (0 : ℝ) < 0.05) h1
    rw [Real.norm_eq_abs, abs_le]
    have l1 := Real.log_le_sub_one_of_pos hp
    have l2 := Real.one_sub_inv_le_log_of_pos hp
    have l3 := inv_anti₀ (by norm_num) h1
    rw [show (0.05 : ℝ)⁻¹ = 20 by norm_num] at l3
    constructor <;> linarith
  · have := wigglyY_near (u c)
    have := single_le u c
    linarith

/-- The normal distribution function, if the components have second moments. -/
theorem regular_normalCdf (h : Regular Q) (h2 : ∀ c, MemLp (fun u : Fin d → ℝ => u c) 2 Q) : Regular (Q.map fun u c => normalCdf (u c)) := by
  have hp : (0 : ℝ) < 1 / (√Real.pi * √2) := by have := Real.pi_pos; positivity
  refine regular_each h continuous_normalCdf.measurable (h' := fun x => 1 / (√Real.pi * √2) * Real.exp (-(x / √2) ^ 2)) (by fun_prop)
    (fun x _ => normalCdf_deriv x) (fun x _ => by positivity) normalCdf_strictMono.injective (fun c => ?_) fun c => ?_
  · have hs := (h2 c).integrable_sq
    refine ((integrable_const (Real.log (1 / (√Real.pi * √2)))).sub (hs.div_const 2)).congr (.of_forall fun u => ?_)
    simp only [Pi.sub_apply]
    rw [Real.log_mul hp.ne' (Real.exp_pos _).ne', Real.log_exp, div_pow, Real.sq_sqrt (by norm_num)]
    ring
  · refine log_tail_of_bounded (continuous_normalCdf.measurable.comp (measurable_pi_apply c)) (B := 1) (.of_forall fun u => ?_)
    obtain ⟨h1, h2⟩ := normalCdf_mem (u c)
    exact abs_le.2 ⟨by linarith, h2.le⟩

/-! ## Rotations and spirals -/

theorem vecMul_preserving {M : Matrix (Fin d) (Fin d) ℝ} (hM : Mᵀ * M = 1) : MeasurePreserving (fun x : Fin d → ℝ => x ᵥ* M) volume volume := by
  have hd : M.det ^ 2 = 1 := by
    have := congrArg Matrix.det hM
    rwa [Matrix.det_mul, Matrix.det_transpose, Matrix.det_one, ← sq] at this
  have ha : |M.det| = 1 := by
    rw [← sq_abs] at hd
    nlinarith [abs_nonneg M.det]
  have h0 : (Mᵀ).det ≠ 0 := by
    rw [Matrix.det_transpose]
    intro h
    rw [h] at hd
    norm_num at hd
  have e : (fun x : Fin d → ℝ => x ᵥ* M) = Matrix.toLin' Mᵀ := by
    funext x
    rw [Matrix.toLin'_apply, Matrix.mulVec_transpose]
  rw [e]
  refine ⟨(Matrix.toLin' Mᵀ).continuous_of_finiteDimensional.measurable, ?_⟩
  rw [Real.map_matrix_volume_pi_eq_smul_volume_pi h0, Matrix.det_transpose, abs_inv, ha]
  simp

theorem vecMul_linear (M : Matrix (Fin d) (Fin d) ℝ) (c : Fin d) (u : Fin d → ℝ) :
    |(u ᵥ* M) c| ≤ (∑ i, |M i c|) * (1 + ∑ i, |u i|) := by
  have e : (u ᵥ* M) c = ∑ i, u i * M i c := rfl
  rw [e]
  refine (Finset.abs_sum_le_sum_abs _ _).trans ?_
  have h1 : ∑ i, |u i * M i c| ≤ ∑ i, |M i c| * (1 + ∑ j, |u j|) := by
    refine Finset.sum_le_sum fun i _ => ?_
    rw [abs_mul, mul_comm]
    exact mul_le_mul_of_nonneg_left (by linarith [single_le u i]) (abs_nonneg _)
  rwa [← Finset.sum_mul] at h1

theorem regular_vecMul (h : Regular Q) {M : Matrix (Fin d) (Fin d) ℝ} (hM : Mᵀ * M = 1) : Regular (Q.map fun x => x ᵥ* M) :=
  regular_preserving h (vecMul_preserving hM) (vecMul_injective_of_orthogonal hM) fun c =>
    tail_linear h.tail ((measurable_pi_apply c).comp (vecMul_preserving hM).measurable) (vecMul_linear M c)

theorem turn_linear {i j : Fin d} (θ : ℝ) (x : Fin d → ℝ) (c : Fin d) : |turn i j θ x c| ≤ 3 * (1 + ∑ k, |x k|) := by
  have hc := Real.abs_cos_le_one θ
  have hs := Real.abs_sin_le_one θ
  have hi := single_le x i
  have hj := single_le x j
  have hk := single_le x c
  have c1 : |Real.cos θ * x i| ≤ |x i| := by rw [abs_mul]; nlinarith [abs_nonneg (x i)]
  have c2 : |Real.sin θ * x j| ≤ |x j| := by rw [abs_mul]; nlinarith [abs_nonneg (x j)]
  have c3 : |Real.sin θ * x i| ≤ |x i| := by rw [abs_mul]; nlinarith [abs_nonneg (x i)]
  have c4 : |Real.cos θ * x j| ≤ |x j| := by rw [abs_mul]; nlinarith [abs_nonneg (x j)]
  have n1 := abs_nonneg (x i)
  have n2 := abs_nonneg (x j)
  have n3 := abs_nonneg (x c)
  unfold turn
  split_ifs
  · have := abs_sub (Real.cos θ * x i) (Real.sin θ * x j)
    linarith
  · have := abs_add_le (Real.sin θ * x i) (Real.cos θ * x j)
    linarith
  · linarith

theorem sumSq_deriv (x : Fin d → ℝ) (c : ℝ) : HasFDerivAt (fun y : Fin d → ℝ => c * sumSq y)
    (c • ∑ l, (2 * x l) • ContinuousLinearMap.proj (R := ℝ) (φ := fun _ : Fin d => ℝ) l) x := by
  refine HasFDerivAt.const_mul ?_ c
  unfold sumSq
  refine HasFDerivAt.fun_sum fun l _ => ?_
  have := ((ContinuousLinearMap.proj (R := ℝ) (φ := fun _ : Fin d => ℝ) l).hasFDerivAt (x := x)).pow 2
  refine this.congr_fderiv ?_
  ext v
  simp

/-- The derivative of a spiral. -/
noncomputable def turnMat (i j : Fin d) (c : ℝ) (x : Fin d → ℝ) : Matrix (Fin d) (Fin d) ℝ :=
  NormedSpace.exp ((c * sumSq x) • planeGen i j) * (1 + replicateCol Unit (planeGen i j *ᵥ x) * replicateRow Unit ((2 * c) • x))

theorem turnMat_mulVec {i j : Fin d} (hij : i ≠ j) (c : ℝ) (x v : Fin d → ℝ) :
    turnMat i j c x *ᵥ v = turn i j (c * sumSq x) (v + (2 * c * ∑ l, x l * v l) • (planeGen i j *ᵥ x)) := by
  rw [turnMat, ← Matrix.mulVec_mulVec, ← exp_planeGen_mulVec i j hij, Matrix.add_mulVec, Matrix.one_mulVec]
  congr 2
  funext k
  simp only [Matrix.mulVec, dotProduct, Matrix.mul_apply, replicateCol_apply, replicateRow_apply, Finset.univ_unique, Finset.sum_singleton,
    Pi.smul_apply, smul_eq_mul, Finset.mul_sum, Finset.sum_mul]
  rw [Finset.sum_comm]
  refine Finset.sum_congr rfl fun a _ => Finset.sum_congr rfl fun b _ => ?_
  ring

theorem turnMat_det (i j : Fin d) (c : ℝ) (x : Fin d → ℝ) : |(turnMat i j c x).det| = 1 := by
  have ho : (NormedSpace.exp ((c * sumSq x) • planeGen i j) : Matrix (Fin d) (Fin d) ℝ)ᵀ * NormedSpace.exp ((c * sumSq x) • planeGen i j) = 1 := by
    refine exp_skew_orthogonal ?_
    rw [Matrix.transpose_smul, planeGen_skew, smul_neg]
  have hd : (NormedSpace.exp ((c * sumSq x) • planeGen i j) : Matrix (Fin d) (Fin d) ℝ).det ^ 2 = 1 := by
    have := congrArg Matrix.det ho
    rwa [Matrix.det_mul, Matrix.det_transpose, Matrix.det_one, ← sq] at this
  have hz : x ⬝ᵥ (planeGen i j *ᵥ x) = 0 := by
    have h1 : x ⬝ᵥ (planeGen i j *ᵥ x) = x ⬝ᵥ ((planeGen i j)ᵀ *ᵥ x) := by
      rw [Matrix.mulVec_transpose, dotProduct_comm x (x ᵥ* _), Matrix.dotProduct_mulVec]
    rw [planeGen_skew, Matrix.neg_mulVec, dotProduct_neg] at h1
    linarith
  rw [turnMat, Matrix.det_mul, Matrix.det_one_add_replicateCol_mul_replicateRow, smul_dotProduct, hz, smul_zero, add_zero, mul_one]
  rw [← sq_abs] at hd
  nlinarith [abs_nonneg (NormedSpace.exp ((c * sumSq x) • planeGen i j) : Matrix (Fin d) (Fin d) ℝ).det]

theorem turn_deriv {i j : Fin d} (hij : i ≠ j) (c : ℝ) (x : Fin d → ℝ) :
    HasFDerivAt (fun y : Fin d → ℝ => turn i j (c * sumSq y) y) (Matrix.toLin' (turnMat i j c x)).toContinuousLinearMap x := by
  rw [hasFDerivAt_pi']
  intro k
  have hθ := sumSq_deriv x c
  have pi := (ContinuousLinearMap.proj (R := ℝ) (φ := fun _ : Fin d => ℝ) i).hasFDerivAt (x := x)
  have pj := (ContinuousLinearMap.proj (R := ℝ) (φ := fun _ : Fin d => ℝ) j).hasFDerivAt (x := x)
  have pk := (ContinuousLinearMap.proj (R := ℝ) (φ := fun _ : Fin d => ℝ) k).hasFDerivAt (x := x)
  have hs : ∀ v : Fin d → ℝ, c * ∑ l, 2 * x l * v l = 2 * c * ∑ l, x l * v l := fun v => by
    rw [Finset.mul_sum, Finset.mul_sum]
    exact Finset.sum_congr rfl fun l _ => by ring
  unfold turn
  by_cases hk : k = i
  · subst hk
    simp only [if_true]
    refine ((hθ.cos.mul pi).sub (hθ.sin.mul pj)).congr_fderiv ?_
    ext v
    simp only [ContinuousLinearMap.comp_apply, ContinuousLinearMap.proj_apply, LinearMap.coe_toContinuousLinearMap', Matrix.toLin'_apply,
      turnMat_mulVec hij, turn, if_true, Pi.add_apply, Pi.smul_apply, planeGen_mulVec k j hij, hij.symm, if_false]
    simp [hs, ContinuousLinearMap.sum_apply]
    ring
  · by_cases hk' : k = j
    · subst hk'
      simp only [hk, if_false, if_true]
      refine ((hθ.sin.mul pi).add (hθ.cos.mul pj)).congr_fderiv ?_
      ext v
      simp only [ContinuousLinearMap.comp_apply, ContinuousLinearMap.proj_apply, LinearMap.coe_toContinuousLinearMap', Matrix.toLin'_apply,
        turnMat_mulVec hij, turn, if_true, Pi.add_apply, Pi.smul_apply, planeGen_mulVec i k hij, hk, if_false]
      simp [hs, ContinuousLinearMap.sum_apply]
      ring
    · simp only [hk, hk', if_false]
      refine pk.congr_fderiv ?_
      ext v
      simp only [ContinuousLinearMap.comp_apply, ContinuousLinearMap.proj_apply, LinearMap.coe_toContinuousLinearMap', Matrix.toLin'_apply,
        turnMat_mulVec hij, turn, Pi.add_apply, Pi.smul_apply, planeGen_mulVec i j hij, hk, hk', if_false]
      simp

theorem turn_surjective {i j : Fin d} (hij : i < j) (c : ℝ) : Function.Surjective fun x : Fin d → ℝ => turn i j (c * sumSq x) x := by
  simp only [turn_eq_exp hij]
  exact (windBy_bijective (map_mul_skew (planeGen_skew i j) c)).2

/-- Spirals preserve volumes. -/
theorem turn_preserving {i j : Fin d} (hij : i < j) (c : ℝ) : MeasurePreserving (fun x : Fin d → ℝ => turn i j (c * sumSq x) x) volume volume := by
  refine ⟨measurable_turn hij c, ?_⟩
  have hm := map_withDensity_abs_det_fderiv_eq_addHaar (volume : Measure (Fin d → ℝ)) (s := Set.univ) MeasurableSet.univ.nullMeasurableSet
    (fun x _ => (turn_deriv hij.ne c x).hasFDerivWithinAt) (turn_injective hij c).injOn
  have hd : ∀ x, |((Matrix.toLin' (turnMat i j c x)).toContinuousLinearMap : (Fin d → ℝ) →L[ℝ] (Fin d → ℝ)).det| = 1 := fun x => by
    unfold ContinuousLinearMap.det
    rw [LinearMap.coe_toContinuousLinearMap, LinearMap.det_toLin']
    exact turnMat_det i j c x
  simp only [hd] at hm
  rw [Measure.restrict_univ, Set.image_univ, (turn_surjective hij c).range_eq, Measure.restrict_univ, ENNReal.ofReal_one, withDensity_const,
    one_smul] at hm
  exact hm

theorem regular_turn (h : Regular Q) {i j : Fin d} (hij : i < j) (c : ℝ) : Regular (Q.map fun x => turn i j (c * sumSq x) x) :=
  regular_preserving h (turn_preserving hij c) (turn_injective hij c) fun k =>
    tail_linear h.tail ((measurable_pi_apply k).comp (measurable_turn hij c)) fun u => turn_linear _ u k

end

/-! ## Moments -/

section

variable [IsProbabilityMeasure Q] {p : ENNReal}

theorem moment_linear (hQ : ∀ c, MemLp (fun u : Fin d → ℝ => u c) p Q) {g : (Fin d → ℝ) → ℝ} (hg : Measurable g) {B : ℝ}
    (hB : ∀ u, |g u| ≤ B * (1 + ∑ i, |u i|)) : MemLp g p Q := by
  have h1 : MemLp (fun u : Fin d → ℝ => 1 + ∑ i, |u i|) p Q :=
    (memLp_const (1 : ℝ)).add (memLp_finset_sum _ fun i _ => (hQ i).norm)
  exact (h1.const_mul B).mono' hg.aestronglyMeasurable (.of_forall hB)

theorem moment_power {α : ℝ} (hα : 0 < α) {g : (Fin d → ℝ) → ℝ} (hg : Measurable g) (h : MemLp g (ENNReal.ofReal α * p) Q) :
    MemLp (fun u => signedPow α (g u)) p Q := by
  have h1 := h.norm_rpow_div (ENNReal.ofReal α)
  rw [ENNReal.toReal_ofReal hα.le, mul_comm, ENNReal.mul_div_cancel_right (by simpa using hα) ENNReal.ofReal_ne_top] at h1
  refine h1.mono' ((measurable_signedPow α).comp hg).aestronglyMeasurable (.of_forall fun u => ?_)
  rw [Real.norm_eq_abs, abs_signedPow hα, Real.norm_eq_abs]

theorem moment_asinh {r : ENNReal} (hr : r ≠ 0) (hr' : r ≠ ⊤) (hp : p ≠ 0) (hp' : p ≠ ⊤) {g : (Fin d → ℝ) → ℝ} (hg : Measurable g)
    (h : MemLp g r Q) : MemLp (fun u => Real.arsinh (g u)) p Q := by
  have h0 : MemLp (fun u => 1 + 2 * |g u|) r Q := (memLp_const (1 : ℝ)).add (h.norm.const_mul 2)
  have h1 := h0.norm_rpow_div (r / p)
  have e : r / (r / p) = p := by
    rw [div_eq_mul_inv, ENNReal.inv_div (Or.inl hp') (Or.inl hp), ← mul_div_assoc, mul_comm, ENNReal.mul_div_cancel_right hr hr']
  have hs : 0 < (r / p).toReal := ENNReal.toReal_pos (ENNReal.div_ne_zero.2 ⟨hr, hp'⟩) (ENNReal.div_ne_top hr' hp)
  rw [e] at h1
  refine (h1.const_mul (1 / (r / p).toReal)).mono' (Real.continuous_arsinh.measurable.comp hg).aestronglyMeasurable (.of_forall fun u => ?_)
  have h2 : 0 ≤ 1 + 2 * |g u| := by positivity
  rw [Real.norm_eq_abs, Real.norm_eq_abs, abs_of_nonneg h2]
  refine (abs_arsinh_le _).trans ((Real.log_le_rpow_div h2 hs).trans (le_of_eq ?_))
  ring

end

end BMI.Kde
