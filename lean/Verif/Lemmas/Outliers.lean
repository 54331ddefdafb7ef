import Verif.Spec.Outliers
import Verif.Props.MixtureTasks
import Verif.Lemmas.MixtureChannel
import Verif.Lemmas.BmmWitness
import Mathlib.Analysis.SpecialFunctions.BinaryEntropy

/-! Helper lemmas for C70: the signal, the noise and their mixtures. -/

namespace BMI.Outliers

open MeasureTheory BMI.Samplers BMI.Bmm BMI.MixtureTasks BMI.Student BMI.MatrixUtils Matrix

variable {Key : Type} [MeasurableSpace Key] {T : Tfp Key} {κ : Measure Key}

theorem signal_is {C : Matrix (Fin (2 + 2)) (Fin (2 + 2)) ℝ} (h : IsLvmCovariance (dx := 2) (dy := 2) 2 0 2 0.1 2 C) :
    correlationOf C = signalCorrelation := by
  have hs : √(5.01 : ℝ) * √(5.01 : ℝ) = 5.01 := Real.mul_self_sqrt (by norm_num)
  have hd : ∀ p, C p p = 5.01 := by
    intro p
    induction p using Fin.addCases with
    | left i => rw [h.xx]; have := i.2; simp [this]; norm_num
    | right i => rw [h.yy]; have := i.2; simp [this]; norm_num
  ext p q
  rw [correlationOf_apply, hd, hd, hs]
  induction p using Fin.addCases with
  | left i =>
    induction q using Fin.addCases with
    | left j => rw [h.xx]; fin_cases i <;> fin_cases j <;> simp [signalCorrelation] <;> norm_num
    | right j => rw [h.xy]; fin_cases i <;> fin_cases j <;> simp [signalCorrelation] <;> norm_num
  | right i =>
    induction q using Fin.addCases with
    | left j => rw [h.yx]; fin_cases i <;> fin_cases j <;> simp [signalCorrelation] <;> norm_num
    | right j => rw [h.yy]; fin_cases i <;> fin_cases j <;> simp [signalCorrelation] <;> norm_num

theorem signal_posDef : signalCorrelation.PosDef := by
  obtain ⟨-, -, -, -, C, h2, h3, -⟩ := lvm_covariance 2 2 2 le_rfl le_rfl 0 2 0.1 2
  rw [← signal_is h2]
  obtain ⟨A, B, hA, hB, e⟩ := rescaled h3
  have hD : IsUnit (actOn A B) := by
    rw [Matrix.isUnit_iff_isUnit_det, actOn_det]
    exact (mul_ne_zero hA hB).isUnit
  rw [e]
  have := h3.mul_mul_conjTranspose_same (B := actOn A B) (Matrix.vecMul_injective_of_isUnit hD)
  rwa [Matrix.conjTranspose_eq_transpose_of_trivial] at this

instance : IsProbabilityMeasure lawOfSignal := by unfold lawOfSignal; infer_instance

instance (v : ℝ) : IsProbabilityMeasure (lawOfNoise v) := by unfold lawOfNoise; infer_instance

theorem signal_information : mutualInfo lawOfSignal = ENNReal.ofReal signalInformation ∧ 0 ≤ signalInformation := by
  have hx : (blockX (dx := 2) (dy := 2) signalCorrelation).det = 502 * 500 / 501 ^ 2 := by
    rw [Matrix.det_fin_two]
    simp [blockX, signalCorrelation]
    norm_num
  have hy : (blockY (dx := 2) (dy := 2) signalCorrelation).det = 502 * 500 / 501 ^ 2 := by
    rw [Matrix.det_fin_two]
    simp [blockY, signalCorrelation]
    norm_num
  have hd : signalCorrelation.det = 902 * 102 * 900 * 100 / 501 ^ 4 := by
    rw [Matrix.det_succ_row_zero]
    simp [Fin.sum_univ_succ, Matrix.det_fin_three, signalCorrelation, Fin.succAbove]
    norm_num
  have e : (Real.log (blockX (dx := 2) (dy := 2) signalCorrelation).det + Real.log (blockY (dx := 2) (dy := 2) signalCorrelation).det
      - Real.log signalCorrelation.det) / 2 = signalInformation := by
    rw [hx, hy, hd, signalInformation]
    have e1 : (902 * 102 * 900 * 100 / 501 ^ 4 : ℝ)
        = (502 * 500 / 501 ^ 2) * (502 * 500 / 501 ^ 2) * ((1 - (400 / 500) ^ 2) * (1 - (400 / 502) ^ 2)) := by norm_num
    rw [e1, Real.log_mul (by norm_num) (by norm_num), Real.log_mul (by norm_num) (by norm_num),
      Real.log_mul (by norm_num) (by norm_num)]
    ring
  have h := splitNormal_mi (dx := 2) (dy := 2) 0 signal_posDef
  rw [e] at h
  exact h

theorem contaminated_weights {α : ℝ} (h0 : 0 ≤ α) (h1 : α ≤ 1) :
    (∀ j : Fin 2, 0 ≤ (![1 - α, α] : Fin 2 → ℝ) j) ∧ ∑ j, (![1 - α, α] : Fin 2 → ℝ) j = 1 :=
  ⟨fun j => by fin_cases j <;> simp [h0, h1], by simp [Fin.sum_univ_two]⟩

theorem components_fst (v : ℝ) : ∀ j : Fin 2, ((![lawOfSignal, lawOfNoise v] : Fin 2 → _) j).fst = lawOfSignal.fst := by
  intro j
  fin_cases j
  · rfl
  · show (lawOfNoise v).fst = _
    rw [lawOfNoise, Measure.fst_prod]

instance (v : ℝ) : ∀ j : Fin 2, IsProbabilityMeasure ((![lawOfSignal, lawOfNoise v] : Fin 2 → _) j) := by
  intro j
  fin_cases j
  · show IsProbabilityMeasure lawOfSignal
    infer_instance
  · show IsProbabilityMeasure (lawOfNoise v)
    infer_instance

theorem noise_information (v : ℝ) : mutualInfo (lawOfNoise v) = 0 := by
  rw [mutualInfo_eq_zero_iff, lawOfNoise, Measure.fst_prod, Measure.snd_prod]

theorem contaminated_prob (v : ℝ) {α : ℝ} (h0 : 0 ≤ α) (h1 : α ≤ 1) : IsProbabilityMeasure (contaminated v α) := by
  obtain ⟨a, b⟩ := contaminated_weights h0 h1
  exact mixtureLaw_prob a (by rw [List.sum_ofFn, b]) _

/-- The information of a mixture. -/
theorem contaminated_information (v : ℝ) {α : ℝ} (h0 : 0 ≤ α) (h1 : α ≤ 1) :
    (contaminated v α).fst = lawOfSignal.fst ∧
    mutualInfo (contaminated v α) ≤ ENNReal.ofReal ((1 - α) * signalInformation) ∧
    ENNReal.ofReal ((1 - α) * signalInformation - Real.binEntropy α) ≤ mutualInfo (contaminated v α) := by
  obtain ⟨a, b⟩ := contaminated_weights h0 h1
  obtain ⟨s1, s2⟩ := signal_information
  refine ⟨mixtureLaw_fst _ a b _ _ (components_fst v), ?_, ?_⟩
  · refine (mutualInfo_mixture_channel_le _ a b _ lawOfSignal.fst (components_fst v)).trans (le_of_eq ?_)
    rw [Fin.sum_univ_two]
    simp only [cons_val_zero, cons_val_one, noise_information, s1, mul_zero, add_zero]
    rw [← ENNReal.ofReal_mul (by linarith)]
  · refine le_trans (le_of_eq ?_) (mutualInfo_mixture_channel_ge _ a b _ lawOfSignal.fst (components_fst v) fun j _ => ?_)
    · congr 1
      rw [Fin.sum_univ_two, Fin.sum_univ_two]
      simp only [cons_val_zero, cons_val_one, noise_information, s1, ENNReal.toReal_zero, mul_zero, add_zero,
        ENNReal.toReal_ofReal s2, Real.binEntropy_eq_negMulLog_add_negMulLog_one_sub]
      ring
    · fin_cases j
      · show mutualInfo lawOfSignal ≠ ⊤
        rw [s1]
        exact ENNReal.ofReal_ne_top
      · show mutualInfo (lawOfNoise v) ≠ ⊤
        rw [noise_information]
        exact ENNReal.zero_ne_top

/-- More contamination of the same kind. -/
theorem contaminated_mono (v : ℝ) {α β : ℝ} (h0 : 0 ≤ α) (h1 : α ≤ β) (h2 : β ≤ 1) :
    ENNReal.ofReal (1 - α) * mutualInfo (contaminated v β) ≤ ENNReal.ofReal (1 - β) * mutualInfo (contaminated v α) := by
  rcases (h1.trans h2).eq_or_lt with rfl | hα
  · obtain rfl : β = 1 := le_antisymm h2 h1
    simp
  have hα' : 0 < 1 - α := by linarith
  set w := (1 - β) / (1 - α) with hw
  have hw0 : 0 ≤ w := div_nonneg (by linarith) hα'.le
  have hw1 : w ≤ 1 := (div_le_one hα').2 (by linarith)
  have hwα : w * (1 - α) = 1 - β := div_mul_cancel₀ _ hα'.ne'
  haveI := contaminated_prob v h0 hα.le
  have hmix : contaminated v β = mixtureLaw ![1 - (1 - w), 1 - w] ![contaminated v α, lawOfNoise v] := by
    unfold contaminated mixtureLaw
    simp only [Fin.sum_univ_two, cons_val_zero, cons_val_one, smul_add, smul_smul]
    rw [add_assoc, ← add_smul, ← ENNReal.ofReal_mul (by linarith), ← ENNReal.ofReal_mul (by linarith),
      ← ENNReal.ofReal_add (mul_nonneg (by linarith) h0) (by linarith)]
    congr 3
    · linarith
    · linarith
  obtain ⟨a, b⟩ := contaminated_weights (α := 1 - w) (by linarith) (by linarith)
  haveI : ∀ j : Fin 2, IsProbabilityMeasure ((![contaminated v α, lawOfNoise v] : Fin 2 → _) j) := by
    intro j
    fin_cases j
    · show IsProbabilityMeasure (contaminated v α)
      infer_instance
    · show IsProbabilityMeasure (lawOfNoise v)
      infer_instance
  have h := mutualInfo_mixture_channel_le _ a b ![contaminated v α, lawOfNoise v] lawOfSignal.fst (by
    intro j
    fin_cases j
    · exact (contaminated_information v h0 hα.le).1
    · exact components_fst v 1)
  rw [← hmix, Fin.sum_univ_two] at h
  simp only [cons_val_zero, cons_val_one, noise_information, mul_zero, add_zero] at h
  calc ENNReal.ofReal (1 - α) * mutualInfo (contaminated v β)
      ≤ ENNReal.ofReal (1 - α) * (ENNReal.ofReal (1 - (1 - w)) * mutualInfo (contaminated v α)) := by gcongr
    _ = _ := by
      rw [← mul_assoc, ← ENNReal.ofReal_mul hα'.le]
      congr 2
      linarith

/-! ### The objects -/

/-- The signal object. -/
theorem signal_ok (hT : IdealTfp T κ) (R : JaxRandom Key) : ∃ J, signal R T = .ok J ∧
    Consistent κ J Set.univ Set.univ lawOfSignal ∧ Tame J lawOfSignal ∧ J.analyticMi = some signalInformation := by
  obtain ⟨J, a1, a0, a2⟩ := multivariateNormal_consistent hT R 2 2 (by norm_num) (by norm_num) 0 _ signal_posDef
  have a3 := tame_normal hT R 2 2 0 _ signal_posDef a1
  obtain ⟨m, c, c1, -, C, c3, -, r, c4, c5⟩ := lvm_covariance 2 2 2 le_rfl le_rfl 0 2 0.1 2
  rw [signal_is c3] at c5
  refine ⟨J, ?_, a2, a3, ?_⟩
  · have e : sparseLVM 2 2 2 0.1 2.0 1 none = gaussianLVM (2 : ℕ) (2 : ℕ) (2 : ℕ) 0 2 1 none 0.1 none 2 none := by
      have : (2.0 : ℝ) = 2 := by norm_num
      rw [this]
      rfl
    have n := normal_default R T 2 2 (rowsOf signalCorrelation)
    unfold signal
    rw [e, c1]
    simp only [bind, Except.bind, c4, c5]
    exact n.trans a1
  · obtain ⟨x, hx⟩ := Option.isSome_iff_exists.1 a0
    obtain ⟨b1, b2⟩ := a2.analytic x hx
    obtain ⟨s1, s2⟩ := signal_information
    rw [hx, Option.some.injEq]
    have b3 : mutualInfo lawOfSignal = ENNReal.ofReal x := b2
    rw [s1, ENNReal.ofReal_eq_ofReal_iff s2 b1] at b3
    exact b3.symm

/-- The noise object. -/
theorem noise_ok (hT : IdealTfp T κ) {J : JointDistribution Key} (hJ : Consistent κ J Set.univ Set.univ lawOfSignal)
    (hJt : Tame J lawOfSignal) {v : ℝ} (hv : 0 < v) : ∃ K, noise T J v = .ok K ∧
    Consistent κ K Set.univ Set.univ (lawOfNoise v) ∧ Tame K (lawOfNoise v) := by
  have hm : toMatrix 2 (scaledEye 2 v) = v • (1 : Matrix (Fin 2) (Fin 2) ℝ) := by
    refine (toMatrix_rowsOf (Matrix.of fun i j : Fin 2 => if i = j then v else 0)).trans ?_
    ext i j
    simp [Matrix.one_apply]
  have hz : toVec 2 (List.replicate 2 (0 : ℝ)) = 0 := by
    ext i
    fin_cases i <;> rfl
  have hp : (toMatrix 2 (scaledEye 2 v)).PosDef := by
    rw [hm]
    exact Matrix.PosDef.one.smul hv
  have hr := normal_represents hT (List.replicate 2 0) (scaledEye 2 v) hp
  have hg := normal_growth hT (List.replicate 2 0) (scaledEye 2 v) hp
  rw [hm, hz] at hr
  have e : J.dimY = 2 := hJ.dimY
  obtain ⟨K, b1, -, b2⟩ := product_consistent hT MeasurableSet.univ MeasurableSet.univ hJ.x hr
  have hmf : Integrable (fun z => ‖z‖ ^ 4) lawOfSignal.fst := by
    rw [Measure.fst, integrable_map_measure (by fun_prop) (by fun_prop)]
    refine hJt.moment.mono' (by fun_prop) (.of_forall fun z => ?_)
    rw [Real.norm_eq_abs, Function.comp, abs_of_nonneg (by positivity)]
    exact pow_le_pow_left₀ (norm_nonneg _) (norm_fst_le z) 4
  refine ⟨K, ?_, b2, tame_product T hJ.x.shape hr.shape hJt.x hg hmf (normalLaw_moment _ _) b1⟩
  unfold noise
  rw [e]
  exact b1

/-- The mixture object and its sampler. -/
theorem mixture_ok (hT : IdealTfp T κ) (R : JaxRandom Key) {J K : JointDistribution Key} {v : ℝ}
    (hJ : Consistent κ J Set.univ Set.univ lawOfSignal) (hJt : Tame J lawOfSignal)
    (hK : Consistent κ K Set.univ Set.univ (lawOfNoise v)) (hKt : Tame K (lawOfNoise v)) {α : ℝ} (h0 : 0 ≤ α) (h1 : α ≤ 1) :
    ∃ M s, Bmm.mixture T [1.0 - α, α] [J, K] = .ok M ∧ Consistent κ M Set.univ Set.univ (contaminated v α) ∧
      bmmSampler M none (.seed 0) 100000 = .ok s ∧ Wraps R κ s 100000 (contaminated v α) := by
  obtain ⟨a, b⟩ := contaminated_weights h0 h1
  have hc : ∀ j : Fin 2, Consistent κ ((![J, K] : Fin 2 → _) j) Set.univ Set.univ
      ((![lawOfSignal, lawOfNoise v] : Fin 2 → _) j) := fun j => by fin_cases j; exacts [hJ, hK]
  obtain ⟨M, s, h4, h5, h6⟩ := wraps_mixture hT R (by norm_num) (by norm_num) ![1 - α, α] a b ![J, K]
    ![lawOfSignal, lawOfNoise v] hc (fun j => by fin_cases j; exacts [hJt, hKt]) 100000 (by norm_num)
  obtain ⟨M', h7, -, h8⟩ := mixture_consistent hT ![1 - α, α] a b ![J, K] ![lawOfSignal, lawOfNoise v] hc
  obtain rfl : M = M' := Except.ok.inj (h4.symm.trans h7)
  refine ⟨M, s, ?_, h8, h5, h6⟩
  rw [← h4]
  norm_num

end BMI.Outliers
