import Verif.Lemmas.BinormalLevels
import Verif.Lemmas.KdeMixture
import Verif.Props.CcaConsistent
import Verif.Props.MixtureTasksMI
import Verif.Spec.CcaMixture
import Mathlib.MeasureTheory.Measure.LogLikelihoodRatio

/-! Laws with normal marginals encode at least as much information as the normal law with the same covariance; the covariance of a
mixture. -/

namespace BMI.Cca

open MeasureTheory ProbabilityTheory Filter InformationTheory BMI.Samplers BMI.Student BMI.Consistency BMI.Cca.Spec BMI.Bmm

/-! ## The quadratic form of the covariance -/

theorem quad_of_cov {Ω : Type} [MeasurableSpace Ω] {P : Measure Ω} [IsProbabilityMeasure P] {d : ℕ} {Z : Ω → Fin d → ℝ} {m : Fin d → ℝ}
    {S : Matrix (Fin d) (Fin d) ℝ} (hS : S.PosDef) (hL : ∀ i, MemLp (fun ω => Z ω i) 2 P) (hm : ∀ i, ∫ ω, Z ω i ∂P = m i)
    (hC : ∀ i j, cov[fun ω => Z ω i, fun ω => Z ω j; P] = S i j) :
    Integrable (fun ω => quad m S (Z ω)) P ∧ ∫ ω, quad m S (Z ω) ∂P = d := by
  obtain ⟨A, hA⟩ : ∃ A : Fin d → Fin d → ℝ, ∀ i j, S⁻¹ i j = A i j := ⟨fun i j => S⁻¹ i j, fun _ _ => rfl⟩
  have e : ∀ ω, quad m S (Z ω) = ∑ i, ∑ j, A i j * ((Z ω i - m i) * (Z ω j - m j)) := fun ω => by
    unfold quad
    simp only [dotProduct, Matrix.mulVec, Finset.mul_sum, Pi.sub_apply, hA]
    exact Finset.sum_congr rfl fun i _ => Finset.sum_congr rfl fun j _ => by ring
  have hi : ∀ i j, Integrable (fun ω => (Z ω i - m i) * (Z ω j - m j)) P := fun i j =>
    ((hL i).sub (memLp_const _)).integrable_mul ((hL j).sub (memLp_const _))
  have hv : ∀ i j, ∫ ω, (Z ω i - m i) * (Z ω j - m j) ∂P = S i j := fun i j => by
    rw [← hC i j, covariance, hm i, hm j]
  simp only [e]
  refine ⟨integrable_finset_sum _ fun i _ => integrable_finset_sum _ fun j _ => (hi i j).const_mul _, ?_⟩
  rw [integral_finset_sum _ fun i _ => integrable_finset_sum _ fun j _ => (hi i j).const_mul _]
  have k : ∀ i, ∫ ω, ∑ j, A i j * ((Z ω i - m i) * (Z ω j - m j)) ∂P = 1 := fun i => by
    rw [integral_finset_sum _ fun j _ => (hi i j).const_mul _]
    simp only [integral_const_mul, hv]
    have h1 : (S⁻¹ * S) i i = 1 := by
      rw [Matrix.nonsing_inv_mul _ (isUnit_iff_ne_zero.2 hS.det_pos.ne'), Matrix.one_apply_eq]
    rw [Matrix.mul_apply] at h1
    simp only [hA] at h1
    rw [← h1]
    refine Finset.sum_congr rfl fun j _ => ?_
    rw [show S i j = S j i from by simpa using (hS.isHermitian.apply j i)]
  simp [k]

/-! ## Normal marginals -/

variable {p q : ℕ}

theorem mean_append {P : Measure ((Fin p → ℝ) × (Fin q → ℝ))} (m : Fin (p + q) → ℝ) {S : Matrix (Fin (p + q)) (Fin (p + q)) ℝ}
    (hS : S.PosDef) (h1 : P.fst = normalLaw (parts m).1 (blockX S)) (h2 : P.snd = normalLaw (parts m).2 (blockY S)) (i : Fin (p + q)) :
    ∫ z, Fin.append z.1 z.2 i ∂P = m i := by
  refine Fin.addCases (fun i => ?_) (fun i => ?_) i
  · simp only [Fin.append_left]
    have h := (MixtureTasks.normalLaw_moments (parts m).1 (blockX_posDef hS).posSemidef i i).2.1
    rw [← h1, Measure.fst, integral_map measurable_fst.aemeasurable
      (measurable_pi_apply i : Measurable fun z : Fin p → ℝ => z i).aestronglyMeasurable] at h
    exact h
  · simp only [Fin.append_right]
    have h := (MixtureTasks.normalLaw_moments (parts m).2 (blockY_posDef hS).posSemidef i i).2.1
    rw [← h2, Measure.snd, integral_map measurable_snd.aemeasurable
      (measurable_pi_apply i : Measurable fun z : Fin q → ℝ => z i).aestronglyMeasurable] at h
    exact h

theorem logRatio_mean {P : Measure ((Fin p → ℝ) × (Fin q → ℝ))} [IsProbabilityMeasure P] (m : Fin (p + q) → ℝ)
    {S : Matrix (Fin (p + q)) (Fin (p + q)) ℝ} (hS : S.PosDef) (h1 : P.fst = normalLaw (parts m).1 (blockX S))
    (h2 : P.snd = normalLaw (parts m).2 (blockY S)) (hP : HasCov P S) :
    Integrable (logRatio m S) P ∧ ∫ z, logRatio m S z ∂P = (mutualInfo (splitNormal p q m S)).toReal := by
  obtain ⟨n1, n2⟩ := splitNormal_mi m hS
  have iq := quad_of_cov hS hP.1 (mean_append m hS h1 h2) hP.2
  have mx : Measurable (quad (parts m).1 (blockX S)) := (continuous_quad _ _).measurable
  have my : Measurable (quad (parts m).2 (blockY S)) := (continuous_quad _ _).measurable
  have ix : Integrable (fun z : (Fin p → ℝ) × (Fin q → ℝ) => quad (parts m).1 (blockX S) z.1) P := by
    refine (integrable_map_measure mx.aestronglyMeasurable measurable_fst.aemeasurable).1 ?_
    show Integrable _ P.fst
    rw [h1]
    exact integrable_quad _ (blockX_posDef hS)
  have iy : Integrable (fun z : (Fin p → ℝ) × (Fin q → ℝ) => quad (parts m).2 (blockY S) z.2) P := by
    refine (integrable_map_measure my.aestronglyMeasurable measurable_snd.aemeasurable).1 ?_
    show Integrable _ P.snd
    rw [h2]
    exact integrable_quad _ (blockY_posDef hS)
  have vx : ∫ z, quad (parts m).1 (blockX S) z.1 ∂P = p := by
    have h : ∫ x, quad (parts m).1 (blockX S) x ∂P.fst = ∫ z, quad (parts m).1 (blockX S) z.1 ∂P :=
      integral_map measurable_fst.aemeasurable mx.aestronglyMeasurable
    rw [← h, h1]
    exact integral_quad _ (blockX_posDef hS)
  have vy : ∫ z, quad (parts m).2 (blockY S) z.2 ∂P = q := by
    have h : ∫ x, quad (parts m).2 (blockY S) x ∂P.snd = ∫ z, quad (parts m).2 (blockY S) z.2 ∂P :=
      integral_map measurable_snd.aemeasurable my.aestronglyMeasurable
    rw [← h, h2]
    exact integral_quad _ (blockY_posDef hS)
  set c := (Real.log (blockX S).det + Real.log (blockY S).det - Real.log S.det) / 2
  have e : logRatio m S = fun z => c + ((quad (parts m).1 (blockX S) z.1 + quad (parts m).2 (blockY S) z.2)
      - quad m S (Fin.append z.1 z.2)) / 2 := by
    funext z
    unfold logRatio logDensity
    rw [partsEquiv_symm]
    push_cast
    simp only [c]
    ring
  have i1 : Integrable (fun z : (Fin p → ℝ) × (Fin q → ℝ) => quad (parts m).1 (blockX S) z.1 + quad (parts m).2 (blockY S) z.2) P := ix.add iy
  have i2 : Integrable (fun z : (Fin p → ℝ) × (Fin q → ℝ) => (quad (parts m).1 (blockX S) z.1 + quad (parts m).2 (blockY S) z.2)
      - quad m S (Fin.append z.1 z.2)) P := i1.sub iq.1
  rw [e]
  refine ⟨(integrable_const c).add (i2.div_const 2), ?_⟩
  rw [integral_add (integrable_const c) (i2.div_const 2), integral_const, integral_div, integral_sub i1 iq.1, integral_add ix iy, vx, vy,
    iq.2, n1, ENNReal.toReal_ofReal n2]
  simp

/-- The information of a law with normal marginals: that of the normal law with the same covariance, and the divergence from it. -/
theorem info_split {P : Measure ((Fin p → ℝ) × (Fin q → ℝ))} [IsProbabilityMeasure P] (m : Fin (p + q) → ℝ)
    {S : Matrix (Fin (p + q)) (Fin (p + q)) ℝ} (hS : S.PosDef) (h1 : P.fst = normalLaw (parts m).1 (blockX S))
    (h2 : P.snd = normalLaw (parts m).2 (blockY S)) (hP : HasCov P S) (hfin : mutualInfo P ≠ ⊤) :
    klDiv P (splitNormal p q m S) ≠ ⊤ ∧
    (mutualInfo P).toReal = (mutualInfo (splitNormal p q m S)).toReal + (klDiv P (splitNormal p q m S)).toReal := by
  obtain ⟨i1, v1⟩ := logRatio_mean m hS h1 h2 hP
  haveI : IsProbabilityMeasure (splitNormal p q m S) := Measure.isProbabilityMeasure_map (measurable_parts p q).aemeasurable
  have hG := splitNormal_ratio (dx := p) (dy := q) m hS
  rw [splitNormal_fst m hS.posSemidef, splitNormal_snd m hS.posSemidef, ← h1, ← h2] at hG
  have hm : Measurable fun z => Real.exp (logRatio m S z) := Real.continuous_exp.measurable.comp (measurable_logRatio (cov := S) m)
  have hl : ∫⁻ z, ENNReal.ofReal (Real.exp (logRatio m S z)) ∂(P.fst.prod P.snd) = 1 := by
    have h := congrArg (fun μ : Measure _ => μ Set.univ) hG
    simpa using h.symm
  have hQ : Integrable (fun z => Real.exp (logRatio m S z)) (P.fst.prod P.snd) := by
    refine ⟨hm.aestronglyMeasurable, ?_⟩
    rw [hasFiniteIntegral_iff_ofReal (.of_forall fun z => (Real.exp_pos _).le), hl]
    exact ENNReal.one_lt_top
  have hone : ∫ z, Real.exp (logRatio m S z) ∂(P.fst.prod P.snd) = 1 := by
    rw [integral_eq_lintegral_of_nonneg_ae (.of_forall fun z => (Real.exp_pos _).le) hm.aestronglyMeasurable, hl, ENNReal.toReal_one]
  have hT : splitNormal p q m S = (P.fst.prod P.snd).tilted (logRatio m S) := by
    unfold Measure.tilted
    rw [hone]
    simpa using hG
  obtain ⟨a1, a2⟩ := klDiv_ne_top_iff.1 (show klDiv P (P.fst.prod P.snd) ≠ ⊤ from hfin)
  have a3 : P ≪ (P.fst.prod P.snd).tilted (logRatio m S) := a1.trans (absolutelyContinuous_tilted hQ)
  haveI : IsProbabilityMeasure ((P.fst.prod P.snd).tilted (logRatio m S)) := isProbabilityMeasure_tilted hQ
  have a4 := integrable_llr_tilted_right a1 i1 a2 hQ
  have a5 := integral_llr_tilted_right a1 i1 hQ a2
  rw [hone, Real.log_one, add_zero, v1] at a5
  rw [← hT] at a3 a4 a5
  refine ⟨klDiv_ne_top a3 a4, ?_⟩
  rw [toReal_klDiv_of_measure_eq a3 (by simp), a5]
  have : (mutualInfo P).toReal = ∫ z, llr P (P.fst.prod P.snd) z ∂P := toReal_klDiv_of_measure_eq a1 (by simp)
  rw [this]
  ring

/-! ## Moments of mixtures -/

theorem hasCov_mixture {m : ℕ} {w : Fin m → ℝ} (h0 : ∀ j, 0 ≤ w j) (h1 : ∑ j, w j = 1) {P : Fin m → Measure ((Fin p → ℝ) × (Fin q → ℝ))}
    [∀ j, IsProbabilityMeasure (P j)] {mean : Fin m → Fin (p + q) → ℝ} {S : Fin m → Matrix (Fin (p + q)) (Fin (p + q)) ℝ}
    (hm : ∀ j i, ∫ z, Fin.append z.1 z.2 i ∂(P j) = mean j i) (hP : ∀ j, HasCov (P j) (S j)) :
    HasCov (mixtureLaw w P) (mixtureCov w mean S) := by
  haveI : IsProbabilityMeasure (mixtureLaw w P) := mixtureLaw_prob h0 (by rw [List.sum_ofFn, h1]) _
  have hL : ∀ i, MemLp (fun z : (Fin p → ℝ) × (Fin q → ℝ) => Fin.append z.1 z.2 i) 2 (mixtureLaw w P) := fun i =>
    Kde.memLp_mixture w P two_ne_zero ENNReal.ofNat_ne_top (measurable_append i) fun j => (hP j).1 i
  refine ⟨hL, fun i k => ?_⟩
  have e1 : ∀ i, ∫ z, Fin.append z.1 z.2 i ∂(mixtureLaw w P) = mixtureMean w mean i := fun i => by
    rw [(integral_mixture w h0 P _ fun j _ => ((hP j).1 i).integrable one_le_two).2]
    simp only [hm]
    rfl
  have e2 : ∀ j, ∫ z, Fin.append z.1 z.2 i * Fin.append z.1 z.2 k ∂(P j) = S j i k + mean j i * mean j k := fun j => by
    have := covariance_eq_sub ((hP j).1 i) ((hP j).1 k)
    rw [(hP j).2 i k] at this
    simp only [hm] at this
    simp only [Pi.mul_apply] at this
    linarith
  rw [covariance_eq_sub (hL i) (hL k)]
  have e3 : ∫ z, Fin.append z.1 z.2 i * Fin.append z.1 z.2 k ∂(mixtureLaw w P) = ∑ j, w j * (S j i k + mean j i * mean j k) := by
    refine (integral_mixture w h0 P _ fun j _ => ((hP j).1 i).integrable_mul ((hP j).1 k)).2.trans ?_
    exact Finset.sum_congr rfl fun j _ => by rw [← e2 j]; rfl
  simp only [Pi.mul_apply]
  rw [e3, e1, e1]
  unfold mixtureCov
  rw [Matrix.of_apply]
  have e4 : ∀ j, w j * (S j i k + (mean j i - mixtureMean w mean i) * (mean j k - mixtureMean w mean k))
      = w j * (S j i k + mean j i * mean j k) - mixtureMean w mean k * (w j * mean j i) - mixtureMean w mean i * (w j * mean j k)
        + w j * (mixtureMean w mean i * mixtureMean w mean k) := fun j => by ring
  simp only [e4, Finset.sum_add_distrib, Finset.sum_sub_distrib, ← Finset.mul_sum, ← Finset.sum_mul, h1]
  unfold mixtureMean
  ring

theorem mixtureCov_posDef {m d : ℕ} {w : Fin m → ℝ} (h0 : ∀ j, 0 ≤ w j) (h1 : ∑ j, w j = 1) (mean : Fin m → Fin d → ℝ)
    {S : Fin m → Matrix (Fin d) (Fin d) ℝ} (hS : ∀ j, (S j).PosDef) : (mixtureCov w mean S).PosDef := by
  obtain ⟨j, hj⟩ : ∃ j, 0 < w j := by
    by_contra h
    push Not at h
    have : ∑ j, w j = 0 := Finset.sum_eq_zero fun j _ => le_antisymm (h j) (h0 j)
    linarith
  have e : mixtureCov w mean S = (w j • S j + ∑ i ∈ Finset.univ.erase j, w i • S i)
      + ∑ i, w i • Matrix.vecMulVec (mean i - mixtureMean w mean) (star (mean i - mixtureMean w mean)) := by
    rw [Finset.add_sum_erase _ (fun i => w i • S i) (Finset.mem_univ j)]
    ext a b
    simp [mixtureCov, Matrix.sum_apply, Matrix.vecMulVec_apply, mul_add, Finset.sum_add_distrib]
  rw [e]
  refine ((hS j).smul hj |>.add_posSemidef ?_).add_posSemidef ?_
  · exact Matrix.posSemidef_sum _ fun i _ => (hS i).posSemidef.smul (h0 i)
  · exact Matrix.posSemidef_sum _ fun i _ => (Matrix.posSemidef_vecMulVec_self_star _).smul (h0 i)

/-! ## A test for normality -/

/-- The mean of the cosine of a sum of two entries. -/
theorem integral_cos_entries {d : ℕ} {S : Matrix (Fin d) (Fin d) ℝ} (hS : S.PosSemidef) {a b : Fin d} (hab : a ≠ b) :
    ∫ z, Real.cos (z a + z b) ∂(normalLaw 0 S) = Real.exp (-(S a a + S b b + 2 * S a b) / 2) := by
  set L : StrongDual ℝ (Fin d → ℝ) := ContinuousLinearMap.proj (R := ℝ) (φ := fun _ : Fin d => ℝ) a +
    ContinuousLinearMap.proj (R := ℝ) (φ := fun _ : Fin d => ℝ) b with hL
  have h := charFunDual_normalLaw 0 hS L
  have hco : coeffs L = Pi.single a 1 + Pi.single b 1 := by
    funext i
    simp [coeffs, hL, Pi.single_apply, eq_comm]
  rw [hco] at h
  have hsym : S b a = S a b := by simpa using hS.isHermitian.apply a b
  have hq : ((Pi.single a 1 + Pi.single b 1 : Fin d → ℝ) ⬝ᵥ S.mulVec (Pi.single a 1 + Pi.single b 1)) = S a a + S b b + 2 * S a b := by
    simp [Matrix.mulVec_add, add_dotProduct, dotProduct_add, hsym]
    ring
  rw [hq, dotProduct_zero, charFunDual_apply] at h
  have hint : Integrable (fun x : Fin d → ℝ => Complex.exp ((L x : ℝ) * Complex.I)) (normalLaw 0 S) := by
    refine (integrable_const (1 : ℝ)).mono' (by fun_prop) (.of_forall fun x => ?_)
    rw [Complex.norm_exp_ofReal_mul_I]
  have hre := congrArg Complex.re h
  rw [← Complex.reCLM_apply, ← Complex.reCLM.integral_comp_comm hint] at hre
  simp only [Complex.reCLM_apply, Complex.exp_ofReal_mul_I_re] at hre
  refine Eq.trans ?_ (hre.trans ?_)
  · rfl
  · rw [← Complex.exp_ofReal_re]
    congr 2
    push_cast
    ring

end BMI.Cca
