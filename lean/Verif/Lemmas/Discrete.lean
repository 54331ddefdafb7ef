import Verif.Spec.Discrete
import Verif.Props.BmmPmi
import Verif.Props.ProfilesPlot

/-! Bits, and mixtures of products with bits. -/

namespace BMI.Discrete

open MeasureTheory ProbabilityTheory BMI.Samplers BMI.Bmm BMI.Student

variable {Key : Type} [MeasurableSpace Key] {T : Tfp Key} {κ : Measure Key} {uniform : Key → (n : ℕ) → Fin n → ℝ}

instance : SFinite bits := by unfold bits; infer_instance

theorem bernoulliLaw_prob {p : ℝ} (h0 : 0 ≤ p) (h1 : p ≤ 1) : IsProbabilityMeasure (bernoulliLaw p) := by
  constructor
  unfold bernoulliLaw
  simp only [Measure.coe_add, Measure.coe_smul, Pi.add_apply, Pi.smul_apply, measure_univ, smul_eq_mul, mul_one]
  rw [← ENNReal.ofReal_add (by linarith) h0]
  simp

theorem uniform_prob : IsProbabilityMeasure ((volume : Measure ℝ).restrict (Set.Icc 0 1)) := ⟨by simp⟩

/-- Comparing a uniform number with `p`. -/
theorem uniform_bit {p : ℝ} (h0 : 0 ≤ p) (h1 : p ≤ 1) :
    Measurable (fun u : ℝ => bit (decide (u < p))) ∧
    ((volume : Measure ℝ).restrict (Set.Icc 0 1)).map (fun u => bit (decide (u < p))) = bernoulliLaw p := by
  classical
  have hm : Measurable (fun u : ℝ => bit (decide (u < p))) := by
    refine measurable_pi_lambda _ fun i => ?_
    unfold bit
    have : MeasurableSet {u : ℝ | decide (u < p) = true} := by
      simp only [decide_eq_true_eq]
      exact measurableSet_Iio
    exact Measurable.ite this measurable_const measurable_const
  refine ⟨hm, Measure.ext fun s hs => ?_⟩
  rw [Measure.map_apply hm hs, Measure.restrict_apply (hm hs)]
  unfold bernoulliLaw
  simp only [Measure.coe_add, Measure.coe_smul, Pi.add_apply, Pi.smul_apply, smul_eq_mul, Measure.dirac_apply' _ hs]
  have e1 : volume (Set.Iio p ∩ Set.Icc (0 : ℝ) 1) = ENNReal.ofReal p := by
    have : Set.Iio p ∩ Set.Icc (0 : ℝ) 1 = Set.Ico 0 p := by
      ext u
      simp only [Set.mem_inter_iff, Set.mem_Iio, Set.mem_Icc, Set.mem_Ico]
      constructor
      · rintro ⟨h, h', _⟩; exact ⟨h', h⟩
      · rintro ⟨h, h'⟩; exact ⟨h', h, by linarith⟩
    rw [this, Real.volume_Ico, sub_zero]
  have e2 : volume (Set.Ici p ∩ Set.Icc (0 : ℝ) 1) = ENNReal.ofReal (1 - p) := by
    have : Set.Ici p ∩ Set.Icc (0 : ℝ) 1 = Set.Icc p 1 := by
      ext u
      simp only [Set.mem_inter_iff, Set.mem_Ici, Set.mem_Icc]
      constructor
      · rintro ⟨h, _, h'⟩; exact ⟨h, h'⟩
      · rintro ⟨h, h'⟩; exact ⟨h, by linarith, h'⟩
    rw [this, Real.volume_Icc]
  by_cases hf : bit false ∈ s <;> by_cases ht : bit true ∈ s
  · have : (fun u : ℝ => bit (decide (u < p))) ⁻¹' s = Set.univ := by
      ext u
      simp only [Set.mem_preimage, Set.mem_univ, iff_true]
      cases decide (u < p)
      · exact hf
      · exact ht
    rw [this, Set.univ_inter]
    simp only [Set.indicator_of_mem hf, Set.indicator_of_mem ht, Pi.one_apply, mul_one]
    rw [← ENNReal.ofReal_add (by linarith) h0]
    simp
  · have : (fun u : ℝ => bit (decide (u < p))) ⁻¹' s = Set.Ici p := by
      ext u
      simp only [Set.mem_preimage, Set.mem_Ici]
      by_cases h : u < p
      · simp [h, ht]
      · simp [h, hf, not_lt.1 h]
    rw [this, e2]
    simp [hf, ht]
  · have : (fun u : ℝ => bit (decide (u < p))) ⁻¹' s = Set.Iio p := by
      ext u
      simp only [Set.mem_preimage, Set.mem_Iio]
      by_cases h : u < p
      · simp [h, ht]
      · simp [h, hf]
    rw [this, e1]
    simp [hf, ht]
  · have : (fun u : ℝ => bit (decide (u < p))) ⁻¹' s = ∅ := by
      ext u
      simp only [Set.mem_preimage, Set.mem_empty_iff_false, iff_false]
      cases decide (u < p)
      · exact hf
      · exact ht
    rw [this]
    simp [hf, ht]

theorem bernoulli_log (p : ℝ) (b : Bool) : (constructBernoulli uniform p).logProb (List.ofFn (bit b))
    = ((Real.log (if b then p else 1 - p) : ℝ) : EReal) := by
  show ((_ : ℝ) : EReal) = _
  congr 1
  cases b <;> simp [bit]

/-- `construct_bernoulli` stands for the law of a bit. -/
theorem bernoulli_represents (hu : IdealUniform uniform κ) {p : ℝ} (h0 : 0 < p) (h1 : p < 1) :
    Represents κ (constructBernoulli uniform p) 1 List.ofFn bits (bernoulliLaw p) := by
  haveI := uniform_prob
  refine ⟨rfl, fun n => ?_, ?_, ?_⟩
  · obtain ⟨hm, hl⟩ := hu n
    obtain ⟨g1, g2⟩ := uniform_bit h0.le h1.le
    obtain ⟨h2, h3⟩ := map_draws hm hl g1
    rw [g2] at h3
    refine ⟨_, h2, fun k => ?_, h3⟩
    show (List.ofFn fun i => _) = _
    congr 1
    funext i
    simp [bit]
  · have : Measurable fun z : Fin 1 → ℝ => ((z 0 * Real.log p + (1 - z 0) * Real.log (1 - p) : ℝ) : EReal) := by fun_prop
    refine this.aemeasurable.congr (.of_forall fun z => ?_)
    show _ = ((_ : ℝ) : EReal)
    simp
  · refine Measure.ext fun s hs => ?_
    have hmeas : Measurable fun z : Fin 1 → ℝ => ((constructBernoulli uniform p).logProb (List.ofFn z)).exp := by
      have : Measurable fun z : Fin 1 → ℝ => ((z 0 * Real.log p + (1 - z 0) * Real.log (1 - p) : ℝ) : EReal).exp := by
        refine EReal.measurable_exp.comp ?_
        fun_prop
      have e : (fun z : Fin 1 → ℝ => ((constructBernoulli uniform p).logProb (List.ofFn z)).exp)
          = fun z => ((z 0 * Real.log p + (1 - z 0) * Real.log (1 - p) : ℝ) : EReal).exp := by
        funext z
        simp [constructBernoulli]
      rw [e]
      exact this
    rw [withDensity_apply _ hs, ← lintegral_indicator hs]
    unfold bits bernoulliLaw
    rw [lintegral_add_measure, lintegral_dirac' _ (hmeas.indicator hs), lintegral_dirac' _ (hmeas.indicator hs)]
    simp only [Measure.coe_add, Measure.coe_smul, Pi.add_apply, Pi.smul_apply, smul_eq_mul, Measure.dirac_apply' _ hs]
    congr 1
    · by_cases h : bit false ∈ s
      · rw [Set.indicator_of_mem h, Set.indicator_of_mem h, bernoulli_log, EReal.exp_coe]
        simp only [Pi.one_apply, mul_one, Bool.false_eq_true, if_false]
        rw [Real.exp_log (by linarith)]
      · rw [Set.indicator_of_notMem h, Set.indicator_of_notMem h, mul_zero]
    · by_cases h : bit true ∈ s
      · rw [Set.indicator_of_mem h, Set.indicator_of_mem h, bernoulli_log, EReal.exp_coe]
        simp only [Pi.one_apply, mul_one, if_true]
        rw [Real.exp_log h0]
      · rw [Set.indicator_of_notMem h, Set.indicator_of_notMem h, mul_zero]

/-- The product of a distribution and a bit. -/
theorem product_on (hT : IdealTfp T κ) {dx dy : ℕ} {D E : Bmm.Dist Key} {bx : Measure (Fin dx → ℝ)} {by' : Measure (Fin dy → ℝ)}
    [SFinite bx] [SFinite by'] {μ : Measure (Fin dx → ℝ)} {ν : Measure (Fin dy → ℝ)}
    [IsProbabilityMeasure μ] [IsProbabilityMeasure ν]
    (hD : Represents κ D dx List.ofFn bx μ) (hE : Represents κ E dy List.ofFn by' ν) :
    ∃ J, productDistribution T D E = .ok J ∧ ConsistentOn κ J bx by' (μ.prod ν) ∧
      J.distJoint = tfdBlockwise T D E ∧ J.distX = D ∧ J.distY = E := by
  have hJ : productDistribution T D E = .ok
      { dimX := dx, dimY := dy, distJoint := tfdBlockwise T D E, distX := D, distY := E, analyticMi := some 0 } := by
    unfold productDistribution
    rw [hD.shape, hE.shape]
    rfl
  refine ⟨_, hJ, ⟨rfl, rfl, inferInstance, tfdBlockwise_general hT hD hE, ?_, ?_⟩, rfl, rfl, rfl⟩
  · rw [Measure.fst_prod]; exact hD
  · rw [Measure.snd_prod]; exact hE

/-- The probability of a bit. -/
noncomputable def prob (t : ℝ) (b : Bool) : ℝ := if b then t else 1 - t

theorem prob_pos {t : ℝ} (h0 : 0 < t) (h1 : t < 1) (b : Bool) : 0 < prob t b := by
  cases b
  · show 0 < 1 - t
    linarith
  · exact h0

variable {m d : ℕ} {p t : Fin m → ℝ} {l : Fin m → (Fin d → ℝ) → ℝ}

/-- The probability of a one at the point `x`. -/
noncomputable def posterior (p t : Fin m → ℝ) (l : Fin m → (Fin d → ℝ) → ℝ) (x : Fin d → ℝ) : ℝ :=
  (∑ j, p j * Real.exp (l j x) * t j) / ∑ j, p j * Real.exp (l j x)

theorem weights_pos (h0 : ∀ j, 0 ≤ p j) (h1 : ∑ j, p j = 1) {f : Fin m → ℝ} (hf : ∀ j, 0 < f j) : 0 < ∑ j, p j * f j := by
  have : ∃ j, 0 < p j := by
    by_contra h
    push Not at h
    have := Finset.sum_nonpos fun j (_ : j ∈ Finset.univ) => h j
    linarith
  obtain ⟨j, hj⟩ := this
  exact Finset.sum_pos' (fun j _ => mul_nonneg (h0 j) (hf j).le) ⟨j, Finset.mem_univ j, mul_pos hj (hf j)⟩

theorem sum_prob (w : Fin m → ℝ) (b : Bool) : ∑ j, w j * prob (t j) b = (∑ j, w j) * prob ((∑ j, w j * t j) / ∑ j, w j) b ∨ ∑ j, w j = 0 := by
  by_cases h : ∑ j, w j = 0
  · exact .inr h
  · left
    cases b
    · simp only [prob, Bool.false_eq_true, if_false, mul_sub, mul_one, Finset.sum_sub_distrib]
      rw [mul_div_cancel₀ _ h]
    · simp only [prob, if_true]
      rw [mul_div_cancel₀ _ h]

theorem mixture_dists {J : Fin m → JointDistribution Key} {M : JointDistribution Key}
    (h : mixture T (List.ofFn p) (List.ofFn J) = .ok M) :
    M.distJoint = tfdMixture T (List.ofFn p) (List.ofFn fun j => (J j).distJoint) ∧
    M.distX = tfdMixture T (List.ofFn p) (List.ofFn fun j => (J j).distX) ∧
    M.distY = tfdMixture T (List.ofFn p) (List.ofFn fun j => (J j).distY) := by
  cases m with
  | zero =>
    rw [List.ofFn_zero (f := J)] at h
    cases h
  | succ m =>
    have e : ∀ f : JointDistribution Key → Bmm.Dist Key, (List.ofFn fun j => f (J j)) = (List.ofFn J).map f := fun f => by
      rw [List.map_ofFn]
      rfl
    simp only [e]
    rw [List.ofFn_succ (f := J)] at h ⊢
    rw [mixture_cons] at h
    split_ifs at h
    cases h
    exact ⟨rfl, rfl, rfl⟩

/-- A mixture of products with bits. -/
theorem bit_mixture (hT : IdealTfp T κ) (hu : IdealUniform uniform κ) (h0 : ∀ j, 0 ≤ p j) (h1 : ∑ j, p j = 1) (ht : ∀ j, 0 < t j ∧ t j < 1)
    {D : Fin m → Bmm.Dist Key} {bx : Measure (Fin d → ℝ)} [SFinite bx] {μ : Fin m → Measure (Fin d → ℝ)}
    [∀ j, IsProbabilityMeasure (μ j)] (hD : ∀ j, Represents κ (D j) d List.ofFn bx (μ j))
    (hl : ∀ j x, (D j).logProb (List.ofFn x) = (l j x : EReal)) :
    ∃ J M, (∀ j, productDistribution T (D j) (constructBernoulli uniform (t j)) = .ok (J j)) ∧
      mixture T (List.ofFn p) (List.ofFn J) = .ok M ∧
      ConsistentOn κ M bx bits (mixtureLaw p fun j => (μ j).prod (bernoulliLaw (t j))) ∧
      ∀ x b, M.pmiAt (List.ofFn x) (List.ofFn (bit b))
        = ((Real.log (prob (posterior p t l x) b / prob (∑ j, p j * t j) b) : ℝ) : EReal) := by
  haveI := fun j => bernoulliLaw_prob (ht j).1.le (ht j).2.le
  choose J hJ hon hj hx hy using fun j => product_on hT (hD j) (bernoulli_represents hu (ht j).1 (ht j).2)
  obtain ⟨M, h2, h3, h4⟩ := mixture_on hT p h0 h1 J _ hon
  refine ⟨J, M, hJ, h2, h4, fun x b => ?_⟩
  obtain ⟨e1, e2, e3⟩ := mixture_dists h2
  have hjl : ∀ j, ((J j).distJoint).logProb (List.ofFn x ++ List.ofFn (bit b)) = ((l j x + Real.log (prob (t j) b) : ℝ) : EReal) := by
    intro j
    rw [hj]
    show (D j).logProb ((List.ofFn x ++ List.ofFn (bit b)).take (D j).eventShape.prod)
      + (constructBernoulli uniform (t j)).logProb ((List.ofFn x ++ List.ofFn (bit b)).drop (D j).eventShape.prod) = _
    rw [(hD j).shape]
    simp only [List.prod_cons, List.prod_nil, mul_one]
    have q1 : (List.ofFn x ++ List.ofFn (bit b)).take d = List.ofFn x := List.take_left' (by simp)
    have q2 : (List.ofFn x ++ List.ofFn (bit b)).drop d = List.ofFn (bit b) := List.drop_left' (by simp)
    rw [q1, q2, hl, bernoulli_log, ← EReal.coe_add]
    rfl
  have hpos := fun j b => prob_pos (ht j).1 (ht j).2 b
  have hs1 : 0 < ∑ j, p j * Real.exp (l j x) := weights_pos h0 h1 fun j => Real.exp_pos _
  have hs2 : 0 < ∑ j, p j * prob (t j) b := weights_pos h0 h1 fun j => hpos j b
  have hs3 : 0 < ∑ j, p j * Real.exp (l j x + Real.log (prob (t j) b)) := weights_pos h0 h1 fun j => Real.exp_pos _
  unfold JointDistribution.pmiAt
  simp only
  rw [e1, e2, e3, Profiles.mixture_log T h0 _ _ hjl hs3, Profiles.mixture_log T h0 _ _ (fun j => by rw [hx, hl]) hs1,
    Profiles.mixture_log T h0 (fun j => (J j).distY) _ (l := fun j => Real.log (prob (t j) b))
      (fun j => by rw [hy, bernoulli_log]; rfl) (by
      simpa only [Real.exp_log (hpos _ b)] using hs2), ← EReal.coe_add, ← EReal.coe_sub]
  congr 1
  simp only [Real.exp_add, Real.exp_log (hpos _ b)]
  have g1 : ∑ j, p j * (Real.exp (l j x) * prob (t j) b) = (∑ j, p j * Real.exp (l j x)) * prob (posterior p t l x) b := by
    simp only [← mul_assoc]
    exact (sum_prob (t := t) (fun j => p j * Real.exp (l j x)) b).resolve_right hs1.ne'
  have g2 : ∑ j, p j * prob (t j) b = prob (∑ j, p j * t j) b := by
    have := (sum_prob (t := t) p b).resolve_right (by rw [h1]; exact one_ne_zero)
    rwa [h1, div_one, one_mul] at this
  simp only [Real.exp_add, Real.exp_log (hpos _ b)] at hs3
  rw [g1] at hs3
  rw [g2] at hs2
  have hs4 := pos_of_mul_pos_right hs3 hs1.le
  rw [g1, g2, Real.log_mul hs1.ne' hs4.ne', Real.log_div hs4.ne' hs2.ne']
  ring

end BMI.Discrete
