import Verif.Lemmas.BmmNormal
import Mathlib.Probability.Distributions.Gaussian.Fernique

/-! Growth of logarithms of densities, and fourth moments: the pointwise mutual information is square-integrable. -/

namespace BMI.Bmm

open MeasureTheory ProbabilityTheory BMI.Samplers BMI.Student

variable {Key : Type}

/-- Finite everywhere, growing at most quadratically. -/
def QuadGrowth {Ω : Type} [Norm Ω] (f : Ω → EReal) : Prop :=
  ∃ C : ℝ, 0 ≤ C ∧ ∀ z, ∃ a : ℝ, f z = a ∧ |a| ≤ C * (1 + ‖z‖ ^ 2)

/-- The three logarithms of densities grow at most quadratically and the law has a finite fourth moment. -/
structure Tame (J : JointDistribution Key) {dx dy : ℕ} (P : Measure ((Fin dx → ℝ) × (Fin dy → ℝ))) : Prop where
  joint : QuadGrowth fun z : (Fin dx → ℝ) × (Fin dy → ℝ) => J.distJoint.logProb (pairList z)
  x : QuadGrowth fun z : Fin dx → ℝ => J.distX.logProb (List.ofFn z)
  y : QuadGrowth fun z : Fin dy → ℝ => J.distY.logProb (List.ofFn z)
  moment : Integrable (fun z => ‖z‖ ^ 4) P

theorem Tame.bound {J : JointDistribution Key} {dx dy : ℕ} {P : Measure ((Fin dx → ℝ) × (Fin dy → ℝ))} (h : Tame J P) :
    ∃ C : ℝ, ∀ z : (Fin dx → ℝ) × (Fin dy → ℝ),
      |(J.pmiAt (List.ofFn z.1) (List.ofFn z.2)).toReal| ≤ C * (1 + ‖z‖ ^ 2) := by
  obtain ⟨A, hA0, hA⟩ := h.joint
  obtain ⟨B, hB0, hB⟩ := h.x
  obtain ⟨C, hC0, hC⟩ := h.y
  refine ⟨A + B + C, fun z => ?_⟩
  obtain ⟨a, ha, ha'⟩ := hA z
  obtain ⟨b, hb, hb'⟩ := hB z.1
  obtain ⟨c, hc, hc'⟩ := hC z.2
  have e : J.pmiAt (List.ofFn z.1) (List.ofFn z.2) = ((a - (b + c) : ℝ) : EReal) := by
    show J.distJoint.logProb (pairList z) - (J.distX.logProb _ + J.distY.logProb _) = _
    simp only at ha hb hc
    rw [ha, hb, hc]
    rfl
  rw [e, EReal.toReal_coe]
  have h1 : ‖z.1‖ ^ 2 ≤ ‖z‖ ^ 2 := pow_le_pow_left₀ (norm_nonneg _) (norm_fst_le z) 2
  have h2 : ‖z.2‖ ^ 2 ≤ ‖z‖ ^ 2 := pow_le_pow_left₀ (norm_nonneg _) (norm_snd_le z) 2
  have h3 : |b| ≤ B * (1 + ‖z‖ ^ 2) := hb'.trans (mul_le_mul_of_nonneg_left (by linarith) hB0)
  have h4 : |c| ≤ C * (1 + ‖z‖ ^ 2) := hc'.trans (mul_le_mul_of_nonneg_left (by linarith) hC0)
  calc |a - (b + c)| ≤ |a| + |b + c| := abs_sub _ _
    _ ≤ |a| + (|b| + |c|) := by gcongr; exact abs_add_le _ _
    _ ≤ _ := by linarith

/-- The pointwise mutual information is square-integrable. -/
theorem Tame.memLp {J : JointDistribution Key} {dx dy : ℕ} {P : Measure ((Fin dx → ℝ) × (Fin dy → ℝ))}
    [IsProbabilityMeasure P] (h : Tame J P)
    (hm : AEMeasurable (fun z => (J.pmiAt (List.ofFn z.1) (List.ofFn z.2)).toReal) P) :
    MemLp (fun z => (J.pmiAt (List.ofFn z.1) (List.ofFn z.2)).toReal) 2 P := by
  obtain ⟨C, hC⟩ := h.bound
  rw [memLp_two_iff_integrable_sq hm.aestronglyMeasurable]
  refine (((integrable_const (1 : ℝ)).add h.moment).const_mul (2 * C ^ 2)).mono' (hm.pow_const 2).aestronglyMeasurable
    (Filter.Eventually.of_forall fun z => ?_)
  rw [Real.norm_eq_abs, abs_of_nonneg (sq_nonneg _), ← sq_abs]
  have h1 := hC z
  have h2 : 0 ≤ C * (1 + ‖z‖ ^ 2) := (abs_nonneg _).trans h1
  calc _ ≤ (C * (1 + ‖z‖ ^ 2)) ^ 2 := pow_le_pow_left₀ (abs_nonneg _) h1 2
    _ ≤ _ := by
      simp only [Pi.add_apply]
      have : (1 + ‖z‖ ^ 2) ^ 2 ≤ 2 * (1 + ‖z‖ ^ 4) := by nlinarith [sq_nonneg (1 - ‖z‖ ^ 2)]
      rw [mul_pow]
      nlinarith [sq_nonneg C]

/-- A mixture of densities of quadratic growth. -/
theorem mixture_growth [MeasurableSpace Key] (T : Tfp Key) {Ω : Type} [NormedAddCommGroup Ω] {m : ℕ} {p : Fin m → ℝ} (h0 : ∀ j, 0 ≤ p j)
    (h1 : ∑ j, p j = 1) (D : Fin m → Dist Key) (e : Ω → List ℝ) (hD : ∀ j, QuadGrowth fun z => (D j).logProb (e z)) :
    QuadGrowth fun z => (tfdMixture T (List.ofFn p) (List.ofFn D)).logProb (e z) := by
  choose C hC0 hC using hD
  refine ⟨∑ j, C j, Finset.sum_nonneg fun j _ => hC0 j, fun z => ?_⟩
  choose a ha ha' using fun j => hC j z
  set B := (∑ j, C j) * (1 + ‖z‖ ^ 2) with hB
  have hle : ∀ j, |a j| ≤ B := fun j => (ha' j).trans
    (mul_le_mul_of_nonneg_right (Finset.single_le_sum (fun i _ => hC0 i) (Finset.mem_univ j)) (by positivity))
  have hexp := mixture_exp T p D (e z)
  have hs : ((tfdMixture T (List.ofFn p) (List.ofFn D)).logProb (e z)).exp
      = ENNReal.ofReal (∑ j, p j * Real.exp (a j)) := by
    rw [hexp, ENNReal.ofReal_sum_of_nonneg fun j _ => mul_nonneg (h0 j) (Real.exp_pos _).le]
    refine Finset.sum_congr rfl fun j _ => ?_
    have := ha j
    simp only at this
    rw [this, EReal.exp_coe, ENNReal.ofReal_mul (h0 j)]
  have hlow : Real.exp (-B) ≤ ∑ j, p j * Real.exp (a j) := by
    calc Real.exp (-B) = ∑ j, p j * Real.exp (-B) := by rw [← Finset.sum_mul, h1, one_mul]
      _ ≤ _ := Finset.sum_le_sum fun j _ => mul_le_mul_of_nonneg_left (Real.exp_le_exp.2 (abs_le.1 (hle j)).1) (h0 j)
  have hup : ∑ j, p j * Real.exp (a j) ≤ Real.exp B := by
    calc _ ≤ ∑ j, p j * Real.exp B :=
          Finset.sum_le_sum fun j _ => mul_le_mul_of_nonneg_left (Real.exp_le_exp.2 (abs_le.1 (hle j)).2) (h0 j)
      _ = Real.exp B := by rw [← Finset.sum_mul, h1, one_mul]
  have hpos : 0 < ∑ j, p j * Real.exp (a j) := (Real.exp_pos _).trans_le hlow
  refine ⟨Real.log (∑ j, p j * Real.exp (a j)), ?_, ?_⟩
  · simp only
    rw [← EReal.log_exp ((tfdMixture T (List.ofFn p) (List.ofFn D)).logProb (e z)), hs, ENNReal.log_ofReal_of_pos hpos]
  · rw [abs_le]
    refine ⟨?_, ?_⟩
    · rw [Real.le_log_iff_exp_le hpos]; exact hlow
    · rw [Real.log_le_iff_le_exp hpos]; exact hup

theorem mixtureLaw_integrable {Ω : Type} [MeasurableSpace Ω] {m : ℕ} (p : Fin m → ℝ) (μ : Fin m → Measure Ω) {f : Ω → ℝ}
    (h : ∀ j, Integrable f (μ j)) : Integrable f (mixtureLaw p μ) := by
  unfold mixtureLaw
  rw [integrable_finsetSum_measure]
  exact fun j _ => (h j).smul_measure ENNReal.ofReal_ne_top

/-- A mixture of tame distributions is tame. -/
theorem tame_mixture [MeasurableSpace Key] (T : Tfp Key) {m dx dy : ℕ} {p : Fin m → ℝ} (h0 : ∀ j, 0 ≤ p j) (h1 : ∑ j, p j = 1)
    {J : Fin m → JointDistribution Key} {P : Fin m → Measure ((Fin dx → ℝ) × (Fin dy → ℝ))} (hJ : ∀ j, Tame (J j) (P j))
    {M : JointDistribution Key} (hM : mixture T (List.ofFn p) (List.ofFn J) = .ok M) : Tame M (mixtureLaw p P) := by
  have e : M.distJoint = tfdMixture T (List.ofFn p) (List.ofFn fun j => (J j).distJoint) ∧
      M.distX = tfdMixture T (List.ofFn p) (List.ofFn fun j => (J j).distX) ∧
      M.distY = tfdMixture T (List.ofFn p) (List.ofFn fun j => (J j).distY) := by
    obtain ⟨m, rfl⟩ : ∃ k, m = k + 1 := by
      cases m with
      | zero => simp at h1
      | succ k => exact ⟨k, rfl⟩
    have hl : ∀ {β : Type} (g : JointDistribution Key → β), (List.ofFn fun j => g (J j)) = (List.ofFn J).map g := fun g => by
      rw [List.map_ofFn]; rfl
    rw [hl, hl, hl]
    rw [List.ofFn_succ (f := J)] at hM ⊢
    unfold mixture at hM
    simp only at hM
    split_ifs at hM
    obtain rfl := Except.ok.inj hM
    exact ⟨rfl, rfl, rfl⟩
  refine ⟨?_, ?_, ?_, mixtureLaw_integrable p P fun j => (hJ j).moment⟩
  · rw [e.1]; exact mixture_growth T h0 h1 _ _ fun j => (hJ j).joint
  · rw [e.2.1]; exact mixture_growth T h0 h1 _ _ fun j => (hJ j).x
  · rw [e.2.2]; exact mixture_growth T h0 h1 _ _ fun j => (hJ j).y

/-- The logarithm of a normal density. -/
theorem logDensity_growth {d : ℕ} (mean : Fin d → ℝ) (cov : Matrix (Fin d) (Fin d) ℝ) :
    ∃ C : ℝ, 0 ≤ C ∧ ∀ z, |logDensity mean cov z| ≤ C * (1 + ‖z‖ ^ 2) := by
  set K : ℝ := ∑ i, ∑ j, |cov⁻¹ i j| with hK
  have hK0 : 0 ≤ K := Finset.sum_nonneg fun i _ => Finset.sum_nonneg fun j _ => abs_nonneg _
  set c : ℝ := -(Real.log cov.det + d * Real.log (2 * Real.pi)) / 2 with hc
  have hq : ∀ z, |quad mean cov z| ≤ K * (2 * ‖z‖ ^ 2 + 2 * ‖mean‖ ^ 2) := by
    intro z
    have h1 : quad mean cov z = ∑ i, ∑ j, (z - mean) i * (cov⁻¹ i j * (z - mean) j) := by
      unfold quad
      simp only [dotProduct, Matrix.mulVec, Finset.mul_sum]
    have hn : ∀ i, |(z - mean) i| ≤ ‖z‖ + ‖mean‖ := fun i =>
      (norm_le_pi_norm (z - mean) i).trans (norm_sub_le _ _)
    have hb : (‖z‖ + ‖mean‖) * (‖z‖ + ‖mean‖) ≤ 2 * ‖z‖ ^ 2 + 2 * ‖mean‖ ^ 2 := by nlinarith [sq_nonneg (‖z‖ - ‖mean‖)]
    rw [h1, hK, Finset.sum_mul]
    refine (Finset.abs_sum_le_sum_abs _ _).trans (Finset.sum_le_sum fun i _ => ?_)
    rw [Finset.sum_mul]
    refine (Finset.abs_sum_le_sum_abs _ _).trans (Finset.sum_le_sum fun j _ => ?_)
    rw [abs_mul, abs_mul]
    have h2 : |(z - mean) i| * |(z - mean) j| ≤ 2 * ‖z‖ ^ 2 + 2 * ‖mean‖ ^ 2 :=
      (mul_le_mul (hn i) (hn j) (abs_nonneg _) (by positivity)).trans hb
    calc _ = |cov⁻¹ i j| * (|(z - mean) i| * |(z - mean) j|) := by ring
      _ ≤ _ := mul_le_mul_of_nonneg_left h2 (abs_nonneg _)
  refine ⟨|c| + K + K * ‖mean‖ ^ 2, by positivity, fun z => ?_⟩
  have h2 : |logDensity mean cov z| ≤ |c| + |quad mean cov z| / 2 := by
    unfold logDensity
    rw [← hc]
    refine (abs_sub _ _).trans ?_
    rw [abs_div (quad mean cov z), abs_two]
  have h3 := hq z
  have h4 : 0 ≤ ‖z‖ ^ 2 := by positivity
  have h5 : 0 ≤ ‖mean‖ ^ 2 := by positivity
  nlinarith [mul_nonneg (abs_nonneg c) h4, mul_nonneg (mul_nonneg hK0 h5) h4]

instance normalLaw_isGaussian {d : ℕ} (mean : Fin d → ℝ) (cov : Matrix (Fin d) (Fin d) ℝ) : IsGaussian (normalLaw mean cov) := by
  unfold normalLaw
  exact isGaussian_map_equiv (PiLp.continuousLinearEquiv 2 ℝ fun _ : Fin d => ℝ)

theorem normalLaw_moment {d : ℕ} (mean : Fin d → ℝ) (cov : Matrix (Fin d) (Fin d) ℝ) :
    Integrable (fun z => ‖z‖ ^ 4) (normalLaw mean cov) := by
  have := IsGaussian.memLp_id (normalLaw mean cov) (4 : ℕ) (by simp)
  exact this.integrable_norm_pow'

theorem norm_parts_le {dx dy : ℕ} (z : Fin (dx + dy) → ℝ) : ‖(parts z : (Fin dx → ℝ) × (Fin dy → ℝ))‖ ≤ ‖z‖ := by
  rw [norm_prod_le_iff]
  exact ⟨(pi_norm_le_iff_of_nonneg (norm_nonneg _)).2 fun i => norm_le_pi_norm z _,
    (pi_norm_le_iff_of_nonneg (norm_nonneg _)).2 fun i => norm_le_pi_norm z _⟩

theorem norm_append_le {dx dy : ℕ} (z : (Fin dx → ℝ) × (Fin dy → ℝ)) : ‖(partsEquiv dx dy).symm z‖ ≤ ‖z‖ := by
  set w := (partsEquiv dx dy).symm z with hw
  have e : parts w = z := by rw [← partsEquiv_apply, hw, MeasurableEquiv.apply_symm_apply]
  refine (pi_norm_le_iff_of_nonneg (norm_nonneg _)).2 fun i => ?_
  refine Fin.addCases (fun i => ?_) (fun i => ?_) i
  · have : w (Fin.castAdd dy i) = z.1 i := congrFun (congrArg Prod.fst e) i
    rw [this]
    exact (norm_le_pi_norm z.1 i).trans (norm_fst_le z)
  · have : w (Fin.natAdd dx i) = z.2 i := congrFun (congrArg Prod.snd e) i
    rw [this]
    exact (norm_le_pi_norm z.2 i).trans (norm_snd_le z)

theorem normal_growth [MeasurableSpace Key] {T : Tfp Key} {κ : Measure Key} (hT : IdealTfp T κ) {d : ℕ} (mean : List ℝ)
    (cov : Arr) (hS : (toMatrix d cov).PosDef) :
    QuadGrowth fun z : Fin d → ℝ => (constructNormal T d mean cov).logProb (List.ofFn z) := by
  obtain ⟨C, h0, hC⟩ := logDensity_growth (toVec d mean) (toMatrix d cov)
  exact ⟨C, h0, fun z => ⟨_, normal_logProb hT mean cov hS z, hC z⟩⟩

/-- A normal distribution is tame. -/
theorem tame_normal [MeasurableSpace Key] {T : Tfp Key} {κ : Measure Key} (hT : IdealTfp T κ) (R : JaxRandom Key) (dx dy : ℕ)
    (mean : Fin (dx + dy) → ℝ) (cov : Matrix (Fin (dx + dy)) (Fin (dx + dy)) ℝ) (hpos : cov.PosDef)
    {J : JointDistribution Key} (hJ : multivariateNormalDistribution R T dx dy (rowsOf cov) (some (List.ofFn mean)) = .ok J) :
    Tame J ((normalLaw mean cov).map fun z =>
      ((fun i => z (Fin.castAdd dy i), fun i => z (Fin.natAdd dx i)) : (Fin dx → ℝ) × (Fin dy → ℝ))) := by
  have e : J.distJoint = constructNormal T (dx + dy) (List.ofFn mean) (rowsOf cov) ∧
      J.distX = constructNormal T dx ((List.ofFn mean).take dx) (((rowsOf cov).take dx).map (·.take dx)) ∧
      J.distY = constructNormal T dy ((List.ofFn mean).drop dx) (((rowsOf cov).drop dx).map (·.drop dx)) := by
    unfold multivariateNormalDistribution at hJ
    rw [if_neg (by simp)] at hJ
    simp only [Option.getD_some] at hJ
    cases hs : splitMultinormal R dx dy (rowsOf cov) (some (List.ofFn mean)) with
    | error e =>
      simp only [hs] at hJ
      cases hJ
    | ok s =>
      simp only [hs] at hJ
      obtain rfl := Except.ok.inj hJ
      exact ⟨rfl, rfl, rfl⟩
  obtain ⟨e1, e2, e3⟩ := e
  have hjoint := normal_growth hT (d := dx + dy) (List.ofFn mean) (rowsOf cov) (by rwa [toMatrix_rowsOf])
  refine ⟨?_, ?_, ?_, ?_⟩
  · rw [e1]
    obtain ⟨C, h0, hC⟩ := hjoint
    refine ⟨C, h0, fun z => ?_⟩
    obtain ⟨a, ha, hb⟩ := hC ((partsEquiv dx dy).symm z)
    have e : pairList z = List.ofFn ((partsEquiv dx dy).symm z) := by
      rw [← pairList_parts, ← partsEquiv_apply, MeasurableEquiv.apply_symm_apply]
    refine ⟨a, by simp only [e]; exact ha, hb.trans (mul_le_mul_of_nonneg_left ?_ h0)⟩
    have := pow_le_pow_left₀ (norm_nonneg _) (norm_append_le z) 2
    linarith
  · rw [e2]
    refine normal_growth hT _ _ ?_
    have : toMatrix dx (((rowsOf cov).take dx).map (·.take dx)) = blockX cov := by
      ext i j
      simp [toMatrix, rowsOf, blockX, List.getElem?_take]
      rfl
    rw [this]
    exact blockX_posDef hpos
  · rw [e3]
    refine normal_growth hT _ _ ?_
    have : toMatrix dy (((rowsOf cov).drop dx).map (·.drop dx)) = blockY cov := by
      ext i j
      simp [toMatrix, rowsOf, blockY]
      rfl
    rw [this]
    exact blockY_posDef hpos
  · have hm := measurable_parts dx dy
    change Integrable _ ((normalLaw mean cov).map parts)
    rw [integrable_map_measure (by fun_prop) hm.aemeasurable]
    refine (normalLaw_moment mean cov).mono' (by
      refine Measurable.aestronglyMeasurable ?_
      exact (measurable_norm.comp hm).pow_const 4) (Filter.Eventually.of_forall fun z => ?_)
    rw [Real.norm_eq_abs, Function.comp, abs_of_nonneg (by positivity)]
    exact pow_le_pow_left₀ (norm_nonneg _) (norm_parts_le z) 4

/-- A product of distributions of quadratic growth with finite fourth moments is tame. -/
theorem tame_product (T : Tfp Key) {D E : Dist Key} {dx dy : ℕ} (hD : D.eventShape = [dx]) (hE : E.eventShape = [dy])
    {μ : Measure (Fin dx → ℝ)} {ν : Measure (Fin dy → ℝ)} [IsProbabilityMeasure μ] [IsProbabilityMeasure ν]
    (h1 : QuadGrowth fun z : Fin dx → ℝ => D.logProb (List.ofFn z)) (h2 : QuadGrowth fun z : Fin dy → ℝ => E.logProb (List.ofFn z))
    (h3 : Integrable (fun z => ‖z‖ ^ 4) μ) (h4 : Integrable (fun z => ‖z‖ ^ 4) ν)
    {J : JointDistribution Key} (hJ : productDistribution T D E = .ok J) : Tame J (μ.prod ν) := by
  have e : J = { dimX := dx, dimY := dy, distJoint := tfdBlockwise T D E, distX := D, distY := E, analyticMi := some 0 } := by
    unfold productDistribution at hJ
    rw [hD, hE] at hJ
    exact (Except.ok.inj hJ).symm
  subst e
  refine ⟨?_, h1, h2, ?_⟩
  · obtain ⟨A, hA0, hA⟩ := h1
    obtain ⟨B, hB0, hB⟩ := h2
    refine ⟨A + B, by positivity, fun z => ?_⟩
    obtain ⟨a, ha, ha'⟩ := hA z.1
    obtain ⟨b, hb, hb'⟩ := hB z.2
    refine ⟨a + b, ?_, ?_⟩
    · show D.logProb ((pairList z).take D.eventShape.prod) + E.logProb ((pairList z).drop D.eventShape.prod) = _
      rw [hD, List.prod_singleton, take_pairList, drop_pairList]
      simp only at ha hb
      rw [ha, hb]
      rfl
    · have g1 : ‖z.1‖ ^ 2 ≤ ‖z‖ ^ 2 := pow_le_pow_left₀ (norm_nonneg _) (norm_fst_le z) 2
      have g2 : ‖z.2‖ ^ 2 ≤ ‖z‖ ^ 2 := pow_le_pow_left₀ (norm_nonneg _) (norm_snd_le z) 2
      have g3 : |a| ≤ A * (1 + ‖z‖ ^ 2) := ha'.trans (mul_le_mul_of_nonneg_left (by linarith) hA0)
      have g4 : |b| ≤ B * (1 + ‖z‖ ^ 2) := hb'.trans (mul_le_mul_of_nonneg_left (by linarith) hB0)
      exact (abs_add_le _ _).trans (by linarith)
  · refine (h3.comp_fst ν |>.add (h4.comp_snd μ)).mono' (by fun_prop) (Filter.Eventually.of_forall fun z => ?_)
    rw [Real.norm_eq_abs, abs_of_nonneg (by positivity)]
    show ‖z‖ ^ 4 ≤ ‖z.1‖ ^ 4 + ‖z.2‖ ^ 4
    rcases max_choice ‖z.1‖ ‖z.2‖ with h | h
    · rw [Prod.norm_def, h]
      have : 0 ≤ ‖z.2‖ ^ 4 := by positivity
      linarith
    · rw [Prod.norm_def, h]
      have : 0 ≤ ‖z.1‖ ^ 4 := by positivity
      linarith

end BMI.Bmm
