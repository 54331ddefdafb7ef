import Verif.Lemmas.Discrete
import Verif.Props.Integration
import Verif.Lemmas.DiscreteWitness

/-!
Property C75: the example with a binary variable (/repo/workflows/projects/Mixtures/figure_discrete_continuous.smk).
-/

namespace BMI.Discrete

open MeasureTheory ProbabilityTheory BMI.Samplers BMI.Bmm BMI.Student BMI.MatrixUtils BMI.MixtureTasks

variable {Key : Type} [MeasurableSpace Key] {T : Tfp Key} {κ : Measure Key} {uniform : Key → (n : ℕ) → Fin n → ℝ}
  {m d : ℕ} {p t : Fin m → ℝ} {l : Fin m → (Fin d → ℝ) → ℝ}

/-! ## Mixtures of products with bits -/

theorem posterior_mem (h0 : ∀ j, 0 ≤ p j) (h1 : ∑ j, p j = 1) {a b : ℝ} (ht : ∀ j, a ≤ t j ∧ t j ≤ b) (x : Fin d → ℝ) :
    a ≤ posterior p t l x ∧ posterior p t l x ≤ b := by
  have hs : 0 < ∑ j, p j * Real.exp (l j x) := weights_pos h0 h1 fun j => Real.exp_pos _
  unfold posterior
  rw [le_div_iff₀ hs, div_le_iff₀ hs, Finset.mul_sum, Finset.mul_sum]
  refine ⟨Finset.sum_le_sum fun j _ => ?_, Finset.sum_le_sum fun j _ => ?_⟩
  · rw [mul_comm a]
    exact mul_le_mul_of_nonneg_left (ht j).1 (mul_nonneg (h0 j) (Real.exp_pos _).le)
  · rw [mul_comm b]
    exact mul_le_mul_of_nonneg_left (ht j).2 (mul_nonneg (h0 j) (Real.exp_pos _).le)

/-- No guess of the probability of a bit is better than the right one. -/
theorem gibbs {t a q : ℝ} (ht : 0 < t ∧ t < 1) (ha : 0 < a ∧ a < 1) (hq : 0 < q ∧ q < 1) :
    t * Real.log (a / q) + (1 - t) * Real.log ((1 - a) / (1 - q)) ≤ binaryKl t q := by
  unfold binaryKl
  have e : ∀ u v : ℝ, 0 < u → 0 < v → Real.log (u / v) = Real.log u - Real.log v := fun u v hu hv =>
    Real.log_div hu.ne' hv.ne'
  rw [e _ _ ha.1 hq.1, e _ _ (by linarith) (by linarith), e _ _ ht.1 hq.1, e _ _ (by linarith) (by linarith)]
  have h1 := Real.log_le_sub_one_of_pos (div_pos ha.1 ht.1)
  have h2 := Real.log_le_sub_one_of_pos (div_pos (show 0 < 1 - a by linarith) (show 0 < 1 - t by linarith))
  rw [e _ _ ha.1 ht.1] at h1
  rw [e _ _ (by linarith) (by linarith)] at h2
  have h3 := mul_le_mul_of_nonneg_left h1 ht.1.le
  have h4 := mul_le_mul_of_nonneg_left h2 (show 0 ≤ 1 - t by linarith)
  have h5 : t * (a / t - 1) = a - t := by field_simp [ht.1.ne']
  have h6 : (1 - t) * ((1 - a) / (1 - t) - 1) = t - a := by
    have : 1 - t ≠ 0 := by linarith
    field_simp
    ring
  rw [h5] at h3
  rw [h6] at h4
  linarith

theorem integral_bernoulli {t : ℝ} (ht : 0 < t ∧ t < 1) (g : (Fin 1 → ℝ) → ℝ) :
    ∫ y, g y ∂(bernoulliLaw t) = (1 - t) * g (bit false) + t * g (bit true) := by
  unfold bernoulliLaw
  rw [integral_add_measure, integral_smul_measure, integral_smul_measure, integral_dirac, integral_dirac,
    ENNReal.toReal_ofReal (by linarith), ENNReal.toReal_ofReal ht.1.le]
  · rfl
  · exact (integrable_dirac (by simp)).smul_measure ENNReal.ofReal_ne_top
  · exact (integrable_dirac (by simp)).smul_measure ENNReal.ofReal_ne_top

theorem ae_bit (t : ℝ) : ∀ᵐ y ∂(bernoulliLaw t), ∃ b, y = bit b := by
  unfold bernoulliLaw
  rw [ae_add_measure_iff]
  have h : ∀ b, ∀ᵐ y ∂(Measure.dirac (bit b)), ∃ b, y = bit b := fun b => by
    rw [ae_dirac_eq]
    exact ⟨b, rfl⟩
  exact ⟨Measure.ae_smul_measure (h false) _, Measure.ae_smul_measure (h true) _⟩

/-- The mutual information of a mixture of products with bits is at most what the component tells about the bit. -/
theorem bit_mixture_le {M : JointDistribution Key} {bx : Measure (Fin d → ℝ)} [SFinite bx] {μ : Fin m → Measure (Fin d → ℝ)}
    [∀ j, IsProbabilityMeasure (μ j)] (h0 : ∀ j, 0 ≤ p j) (h1 : ∑ j, p j = 1) (ht : ∀ j, 0 < t j ∧ t j < 1)
    (hM : ConsistentOn κ M bx bits (mixtureLaw p fun j => (μ j).prod (bernoulliLaw (t j))))
    (hpmi : ∀ x b, M.pmiAt (List.ofFn x) (List.ofFn (bit b))
      = ((Real.log (prob (posterior p t l x) b / prob (∑ j, p j * t j) b) : ℝ) : EReal)) {a b : ℝ} (ha : 0 < a) (hb : b < 1)
    (hab : ∀ j, a ≤ t j ∧ t j ≤ b) :
    MemLp (fun z => (M.pmiAt (List.ofFn z.1) (List.ofFn z.2)).toReal) 2 (mixtureLaw p fun j => (μ j).prod (bernoulliLaw (t j))) ∧
    mutualInfo (mixtureLaw p fun j => (μ j).prod (bernoulliLaw (t j)))
      = ENNReal.ofReal (∫ z, (M.pmiAt (List.ofFn z.1) (List.ofFn z.2)).toReal
        ∂(mixtureLaw p fun j => (μ j).prod (bernoulliLaw (t j)))) ∧
    mutualInfo (mixtureLaw p fun j => (μ j).prod (bernoulliLaw (t j)))
      ≤ ENNReal.ofReal (∑ j, p j * binaryKl (t j) (∑ j, p j * t j)) := by
  set P := mixtureLaw p fun j => (μ j).prod (bernoulliLaw (t j)) with hP
  haveI := hM.prob
  haveI := fun j => bernoulliLaw_prob (ht j).1.le (ht j).2.le
  set q := ∑ j, p j * t j with hq
  obtain ⟨-, -, hmeas, hiff, hmi⟩ := pmi_density_on hM
  set g : (Fin d → ℝ) × (Fin 1 → ℝ) → ℝ := fun z => (M.pmiAt (List.ofFn z.1) (List.ofFn z.2)).toReal with hg
  have hgv : ∀ x b, g (x, bit b) = Real.log (prob (posterior p t l x) b / prob q b) := fun x b => by
    rw [hg]
    simp only [hpmi, EReal.toReal_coe]
  have hq01 : a ≤ q ∧ q ≤ b := by
    rw [hq]
    constructor
    · calc a = ∑ j, p j * a := by rw [← Finset.sum_mul, h1, one_mul]
        _ ≤ _ := Finset.sum_le_sum fun j _ => mul_le_mul_of_nonneg_left (hab j).1 (h0 j)
    · calc ∑ j, p j * t j ≤ ∑ j, p j * b := Finset.sum_le_sum fun j _ => mul_le_mul_of_nonneg_left (hab j).2 (h0 j)
        _ = b := by rw [← Finset.sum_mul, h1, one_mul]
  have hpost := fun x => posterior_mem (l := l) h0 h1 hab x
  have hprob : ∀ s, a ≤ s ∧ s ≤ b → ∀ c, min a (1 - b) ≤ prob s c ∧ prob s c ≤ 1 := by
    intro s hs c
    cases c
    · exact ⟨(min_le_right _ _).trans (by show 1 - b ≤ 1 - s; linarith [hs.2]), by show 1 - s ≤ 1; linarith [hs.1]⟩
    · exact ⟨(min_le_left _ _).trans hs.1, by show s ≤ 1; linarith [hs.2]⟩
  have hmin : 0 < min a (1 - b) := lt_min ha (by linarith)
  have hbound : ∀ x c, |g (x, bit c)| ≤ -Real.log (min a (1 - b)) := by
    intro x c
    obtain ⟨u1, u2⟩ := hprob _ (hpost x) c
    obtain ⟨v1, v2⟩ := hprob _ hq01 c
    have hu := hmin.trans_le u1
    have hv := hmin.trans_le v1
    rw [hgv, Real.log_div hu.ne' hv.ne', abs_le]
    have w1 := Real.log_le_log hmin u1
    have w2 := Real.log_le_log hmin v1
    have w3 := Real.log_nonpos hu.le u2
    have w4 := Real.log_nonpos hv.le v2
    constructor <;> linarith
  have haej : ∀ j, ∀ᵐ z ∂((μ j).prod (bernoulliLaw (t j))), ‖g z‖ ≤ -Real.log (min a (1 - b)) := by
    intro j
    have h := (Measure.quasiMeasurePreserving_snd (μ := μ j) (ν := bernoulliLaw (t j))).ae (ae_bit (t j))
    filter_upwards [h] with z hz
    obtain ⟨c, hc⟩ := hz
    rw [Real.norm_eq_abs, show z = (z.1, bit c) from Prod.ext rfl hc]
    exact hbound _ _
  have hae : ∀ᵐ z ∂P, ‖g z‖ ≤ -Real.log (min a (1 - b)) := by
    rw [hP, mixtureLaw]
    rw [← Measure.sum_fintype, Measure.ae_sum_iff]
    exact fun j => Measure.ae_smul_measure (haej j) _
  have hLp : MemLp g 2 P := MemLp.of_bound hmeas.aestronglyMeasurable _ hae
  have hint : Integrable g P := hLp.integrable one_le_two
  have hne := hiff.2 hint
  refine ⟨hLp, (hmi hne).1, ?_⟩
  rw [(hmi hne).1]
  refine ENNReal.ofReal_le_ofReal ?_
  have hac : ∀ j, 0 < p j → (μ j).prod (bernoulliLaw (t j)) ≪ P := by
    intro j hj
    refine Measure.AbsolutelyContinuous.mk fun s _ hs => ?_
    rw [hP, mixtureLaw, Measure.finset_sum_apply] at hs
    have := (Finset.sum_eq_zero_iff.1 hs) j (Finset.mem_univ j)
    rw [Measure.smul_apply, smul_eq_mul, mul_eq_zero] at this
    exact this.resolve_left (by simpa using hj)
  have hintj : ∀ j, 0 < p j → Integrable g ((μ j).prod (bernoulliLaw (t j))) := fun j hj =>
    (MemLp.of_bound (p := 1) (hmeas.mono_ac (hac j hj)).aestronglyMeasurable _ (haej j)).integrable le_rfl
  rw [(integral_mixture p h0 _ g hintj).2]
  refine Finset.sum_le_sum fun j _ => ?_
  rcases (h0 j).eq_or_lt with hj | hj
  · rw [← hj, zero_mul, zero_mul]
  refine mul_le_mul_of_nonneg_left ?_ hj.le
  rw [integral_prod _ (hintj j hj)]
  have hle : ∀ x, ∫ y, g (x, y) ∂(bernoulliLaw (t j)) ≤ binaryKl (t j) q := by
    intro x
    rw [integral_bernoulli (ht j), hgv, hgv]
    have := gibbs (ht j) (a := posterior p t l x) ⟨ha.trans_le (hpost x).1, (hpost x).2.trans_lt hb⟩ (q := q)
      ⟨ha.trans_le hq01.1, hq01.2.trans_lt hb⟩
    show (1 - t j) * Real.log ((1 - posterior p t l x) / (1 - q)) + t j * Real.log (posterior p t l x / q) ≤ _
    linarith
  calc ∫ x, ∫ y, g (x, y) ∂(bernoulliLaw (t j)) ∂(μ j) ≤ ∫ _, binaryKl (t j) q ∂(μ j) :=
        integral_mono (hintj j hj).integral_prod_left (integrable_const _) hle
    _ = binaryKl (t j) q := by simp

/-! ## The distribution -/

theorem quad_pos {S : Matrix (Fin d) (Fin d) ℝ} (hS : S.PosDef) {a z : Fin d → ℝ} (h : z ≠ a) : 0 < quad a S z := by
  have := hS.inv.dotProduct_mulVec_pos (sub_ne_zero.2 h)
  rwa [star_trivial] at this

/-- Student-t laws with different centres are different. -/
theorem studentLaw_ne {S : Matrix (Fin d) (Fin d) ℝ} (hS : S.PosDef) {ν ν' : ℝ} (hν : 0 < ν) (hν' : 0 < ν') {a b : Fin d → ℝ}
    (hab : a ≠ b) : studentLaw a S ν ≠ studentLaw b S ν' := by
  intro h
  haveI := studentLaw_prob a S hν
  rw [studentLaw_density _ hS hν, studentLaw_density _ hS hν'] at h
  have c1 := continuous_studentLog a hS hν
  have c2 := continuous_studentLog b hS hν'
  have hae : (fun z => ENNReal.ofReal (Real.exp (studentLog a S ν z))) =ᵐ[volume]
      fun z => ENNReal.ofReal (Real.exp (studentLog b S ν' z)) := by
    refine (withDensity_eq_iff (by fun_prop) (by fun_prop) ?_).1 h
    have := measure_lt_top (studentLaw a S ν) Set.univ
    rw [studentLaw_density _ hS hν, withDensity_apply _ MeasurableSet.univ, Measure.restrict_univ] at this
    exact this.ne
  have heq : studentLog a S ν = studentLog b S ν' := by
    refine (c1.ae_eq_iff_eq (μ := (volume : Measure (Fin d → ℝ))) c2).1 ?_
    filter_upwards [hae] with z hz
    have := (ENNReal.ofReal_eq_ofReal_iff (Real.exp_pos _).le (Real.exp_pos _).le).1 hz
    exact Real.exp_injective this
  have q0 : ∀ c : Fin d → ℝ, quad c S c = 0 := fun c => by simp [quad]
  have e1 := congrFun heq a
  have e2 := congrFun heq b
  have hd : (0 : ℝ) ≤ d := Nat.cast_nonneg d
  unfold studentLog at e1 e2
  rw [q0, zero_div, add_zero, Real.log_one, mul_zero] at e1 e2
  have l1 := Real.log_pos (show 1 < 1 + quad b S a / ν' by have := div_pos (quad_pos hS hab) hν'; linarith)
  have l2 := Real.log_pos (show 1 < 1 + quad a S b / ν by have := div_pos (quad_pos hS hab.symm) hν; linarith)
  have m1 : 0 < (ν' + d) / 2 * Real.log (1 + quad b S a / ν') := mul_pos (by linarith) l1
  have m2 : 0 < (ν + d) / 2 * Real.log (1 + quad a S b / ν) := mul_pos (by linarith) l2
  linarith

/-- The law of the continuous variable in each component. -/
noncomputable def continuousLaw : Fin 3 → Measure (Fin 2 → ℝ) :=
  ![studentLaw ![-1, -1] ((0.2 : ℝ) • 1) 8, normalLaw ![0, 0] ((0.1 : ℝ) • !![1, 0.95; 0.95, 1]), studentLaw ![1, 1] ((0.2 : ℝ) • 1) 5]

/-- The law of the example: three components, of weights 1/4, 1/2 and 1/4, in which the bit is one with probability 19/20, 1/2 and
1/20. -/
noncomputable def exampleLaw : Measure ((Fin 2 → ℝ) × (Fin 1 → ℝ)) :=
  mixtureLaw ![1 / 4, 1 / 2, 1 / 4] fun j => (continuousLaw j).prod (bernoulliLaw (![0.95, 0.5, 0.05] j))

theorem continuousLaw_prob (j : Fin 3) : IsProbabilityMeasure (continuousLaw j) := by
  fin_cases j
  · exact studentLaw_prob _ _ (by norm_num)
  · show IsProbabilityMeasure (normalLaw _ _)
    infer_instance
  · exact studentLaw_prob _ _ (by norm_num)

theorem bernoulli_true {t : ℝ} (ht : 0 ≤ t) : (bernoulliLaw t {bit true}).toReal = t := by
  unfold bernoulliLaw
  have h : bit false ≠ bit true := fun h => by
    have := congrFun h 0
    simp [bit] at this
  simp [h, ht]

theorem mixtureLaw_toReal {Ω : Type} [MeasurableSpace Ω] (h0 : ∀ j, 0 ≤ p j) (μ : Fin m → Measure Ω) [∀ j, IsFiniteMeasure (μ j)]
    (s : Set Ω) : (mixtureLaw p μ s).toReal = ∑ j, p j * (μ j s).toReal := by
  unfold mixtureLaw
  rw [Measure.finset_sum_apply, ENNReal.toReal_sum fun j _ => ?_]
  · refine Finset.sum_congr rfl fun j _ => ?_
    rw [Measure.smul_apply, smul_eq_mul, ENNReal.toReal_mul, ENNReal.toReal_ofReal (h0 j)]
  · rw [Measure.smul_apply, smul_eq_mul]
    exact ENNReal.mul_ne_top ENNReal.ofReal_ne_top (measure_ne_top _ _)

theorem example_bits (j : Fin 3) : (0 : ℝ) < (![0.95, 0.5, 0.05] : Fin 3 → ℝ) j ∧ (![0.95, 0.5, 0.05] : Fin 3 → ℝ) j < 1 := by
  fin_cases j <;> constructor <;> norm_num

theorem example_nonneg (j : Fin 3) : (0 : ℝ) ≤ (![1 / 4, 1 / 2, 1 / 4] : Fin 3 → ℝ) j := by
  fin_cases j <;> norm_num

theorem example_sum : ∑ j : Fin 3, (![1 / 4, 1 / 2, 1 / 4] : Fin 3 → ℝ) j = 1 := by
  rw [Fin.sum_univ_three]
  show (1 / 4 : ℝ) + 1 / 2 + 1 / 4 = 1
  norm_num

/-- The continuous variable and the bit are not independent. -/
theorem example_dependent : mutualInfo exampleLaw ≠ 0 := by
  haveI := continuousLaw_prob
  haveI := fun j => bernoulliLaw_prob (example_bits j).1.le (example_bits j).2.le
  haveI : IsProbabilityMeasure exampleLaw := mixtureLaw_prob example_nonneg (by rw [List.sum_ofFn]; exact example_sum) _
  rw [Ne, mutualInfo_eq_zero_iff]
  intro h
  have hS : ((0.2 : ℝ) • (1 : Matrix (Fin 2) (Fin 2) ℝ)).PosDef := Matrix.PosDef.one.smul (by norm_num)
  refine studentLaw_ne hS (ν := 8) (ν' := 5) (by norm_num) (by norm_num) (a := ![-1, -1]) (b := ![1, 1]) (fun h => by
    have := congrFun h 0
    norm_num at this) (Measure.ext fun A hA => ?_)
  have hfst : exampleLaw.fst = mixtureLaw ![1 / 4, 1 / 2, 1 / 4] continuousLaw := by
    have := mixtureLaw_map ![1 / 4, 1 / 2, 1 / 4] (fun j => (continuousLaw j).prod (bernoulliLaw (![0.95, 0.5, 0.05] j))) measurable_fst
    refine this.trans ?_
    congr 1
    funext j
    exact Measure.fst_prod
  have hsnd : exampleLaw.snd = mixtureLaw ![1 / 4, 1 / 2, 1 / 4] fun j => bernoulliLaw (![0.95, 0.5, 0.05] j) := by
    have := mixtureLaw_map ![1 / 4, 1 / 2, 1 / 4] (fun j => (continuousLaw j).prod (bernoulliLaw (![0.95, 0.5, 0.05] j))) measurable_snd
    refine this.trans ?_
    congr 1
    funext j
    exact Measure.snd_prod
  have h2 := congrArg (fun μ => (μ (A ×ˢ {bit true})).toReal) h
  simp only [Measure.prod_prod] at h2
  rw [hfst, hsnd, ENNReal.toReal_mul, mixtureLaw_toReal example_nonneg, mixtureLaw_toReal example_nonneg, exampleLaw,
    mixtureLaw_toReal example_nonneg] at h2
  simp only [Measure.prod_prod, ENNReal.toReal_mul, bernoulli_true (example_bits _).1.le, Fin.sum_univ_three] at h2
  have h3 : (1 / 4 : ℝ) * ((continuousLaw 0 A).toReal * 0.95) + 1 / 2 * ((continuousLaw 1 A).toReal * 0.5)
      + 1 / 4 * ((continuousLaw 2 A).toReal * 0.05)
      = (1 / 4 * (continuousLaw 0 A).toReal + 1 / 2 * (continuousLaw 1 A).toReal + 1 / 4 * (continuousLaw 2 A).toReal)
        * (1 / 4 * 0.95 + 1 / 2 * 0.5 + 1 / 4 * 0.05) := h2
  have h4 : (continuousLaw 0 A).toReal = (continuousLaw 2 A).toReal := by
    norm_num at h3
    linarith
  exact (ENNReal.toReal_eq_toReal_iff' (measure_ne_top (continuousLaw 0) A) (measure_ne_top (continuousLaw 2) A)).1 h4

theorem component_laws (hT : IdealTfp T κ) : ∃ D : Fin 3 → Bmm.Dist Key, ∃ l : Fin 3 → (Fin 2 → ℝ) → ℝ,
    (∀ j, Represents κ (D j) 2 List.ofFn (volume.restrict Set.univ) (continuousLaw j)) ∧
    (∀ j x, (D j).logProb (List.ofFn x) = (l j x : EReal)) ∧
    ∀ uniform : Key → (n : ℕ) → Fin n → ℝ, ∀ J : Fin 3 → JointDistribution Key,
      (∀ j, productDistribution T (D j) (constructBernoulli uniform ((![0.95, 0.5, 0.05] : Fin 3 → ℝ) j)) = .ok (J j)) →
      defineDistribution T uniform = mixture T (List.ofFn (![0.5 * (1 - 0.5), 0.5, 0.5 * (1 - 0.5)] : Fin 3 → ℝ)) (List.ofFn J) := by
  have hS : ((0.2 : ℝ) • (1 : Matrix (Fin 2) (Fin 2) ℝ)).PosDef := Matrix.PosDef.one.smul (by norm_num)
  have hC : ((0.1 : ℝ) • (!![1, 0.95; 0.95, 1] : Matrix (Fin 2) (Fin 2) ℝ)).PosDef :=
    (by
    rw [unit_pair 0.95]
    exact pair_posDef one_pos one_pos (by rw [abs_of_pos] <;> norm_num) : Matrix.PosDef _).smul (by norm_num)
  obtain ⟨c, hc, hrows⟩ := canonical_pair 0.95
  have hcov : rowsOf ((0.1 : ℝ) • c) = rowsOf ((0.1 : ℝ) • (!![1, 0.95; 0.95, 1] : Matrix (Fin 2) (Fin 2) ℝ)) := by
    rw [BMI.Integration.rowsOf_smul, BMI.Integration.rowsOf_smul, hrows]
  refine ⟨![constructStudent T 2 [-1, -1] (rowsOf ((0.2 : ℝ) • (1 : Matrix (Fin 2) (Fin 2) ℝ))) 8,
    constructNormal T 2 [0, 0] (rowsOf ((0.1 : ℝ) • c)),
    constructStudent T 2 [1, 1] (rowsOf ((0.2 : ℝ) • (1 : Matrix (Fin 2) (Fin 2) ℝ))) 5],
    ![studentLog ![-1, -1] ((0.2 : ℝ) • 1) 8, logDensity ![0, 0] ((0.1 : ℝ) • !![1, 0.95; 0.95, 1]),
      studentLog ![1, 1] ((0.2 : ℝ) • 1) 5], fun j => ?_, fun j x => ?_, fun uniform J hJ => ?_⟩
  · have v : ∀ a b : ℝ, toVec 2 [a, b] = ![a, b] := fun a b => toVec_ofFn ![a, b]
    fin_cases j
    · have := student_represents hT (d := 2) [-1, -1] (rowsOf ((0.2 : ℝ) • (1 : Matrix (Fin 2) (Fin 2) ℝ)))
        (by rw [toMatrix_rowsOf]; exact hS) (df := 8) (by norm_num)
      rwa [toMatrix_rowsOf, v] at this
    · have := normal_represents hT (d := 2) [0, 0] (rowsOf ((0.1 : ℝ) • c)) (by rw [hcov, toMatrix_rowsOf]; exact hC)
      rwa [hcov, toMatrix_rowsOf, v, ← hcov] at this
    · have := student_represents hT (d := 2) [1, 1] (rowsOf ((0.2 : ℝ) • (1 : Matrix (Fin 2) (Fin 2) ℝ)))
        (by rw [toMatrix_rowsOf]; exact hS) (df := 5) (by norm_num)
      rwa [toMatrix_rowsOf, v] at this
  · have v : ∀ a b : ℝ, toVec 2 [a, b] = ![a, b] := fun a b => toVec_ofFn ![a, b]
    fin_cases j
    · have := student_logProb hT (d := 2) [-1, -1] (rowsOf ((0.2 : ℝ) • (1 : Matrix (Fin 2) (Fin 2) ℝ)))
        (by rw [toMatrix_rowsOf]; exact hS) (df := 8) (by norm_num) x
      rwa [toMatrix_rowsOf, v] at this
    · have := normal_logProb hT (d := 2) [0, 0] (rowsOf ((0.1 : ℝ) • c)) (by rw [hcov, toMatrix_rowsOf]; exact hC) x
      rwa [hcov, toMatrix_rowsOf, v, ← hcov] at this
    · have := student_logProb hT (d := 2) [1, 1] (rowsOf ((0.2 : ℝ) • (1 : Matrix (Fin 2) (Fin 2) ℝ)))
        (by rw [toMatrix_rowsOf]; exact hS) (df := 5) (by norm_num) x
      rwa [toMatrix_rowsOf, v] at this
  · have j0 := hJ 0
    have j1 := hJ 1
    have j2 := hJ 2
    simp only [Matrix.cons_val] at j0 j1 j2
    unfold defineDistribution
    simp only [hc, bind, Except.bind, List.zip_cons_cons, List.zip_nil_right, List.mapM_cons, List.mapM_nil, j0, j1, j2, pure, Except.pure]
    rfl

theorem code_weights : (![0.5 * (1 - 0.5), 0.5, 0.5 * (1 - 0.5)] : Fin 3 → ℝ) = ![1 / 4, 1 / 2, 1 / 4] := by
  norm_num

theorem example_mean : ∑ j : Fin 3, (![1 / 4, 1 / 2, 1 / 4] : Fin 3 → ℝ) j * (![0.95, 0.5, 0.05] : Fin 3 → ℝ) j = 1 / 2 := by
  rw [Fin.sum_univ_three]
  show (1 / 4 : ℝ) * 0.95 + 1 / 2 * 0.5 + 1 / 4 * 0.05 = 1 / 2
  norm_num

theorem example_channel : ∑ j : Fin 3, (![1 / 4, 1 / 2, 1 / 4] : Fin 3 → ℝ) j * binaryKl ((![0.95, 0.5, 0.05] : Fin 3 → ℝ) j) (1 / 2)
    = (0.05 * Real.log 0.1 + 0.95 * Real.log 1.9) / 2 := by
  rw [Fin.sum_univ_three]
  show (1 / 4 : ℝ) * binaryKl 0.95 (1 / 2) + 1 / 2 * binaryKl 0.5 (1 / 2) + 1 / 4 * binaryKl 0.05 (1 / 2) = _
  unfold binaryKl
  norm_num
  ring

/-- The bit is fair. -/
theorem example_snd : exampleLaw.snd = bernoulliLaw (1 / 2) := by
  haveI := continuousLaw_prob
  haveI := fun j => bernoulliLaw_prob (example_bits j).1.le (example_bits j).2.le
  have := mixtureLaw_map ![1 / 4, 1 / 2, 1 / 4] (fun j => (continuousLaw j).prod (bernoulliLaw (![0.95, 0.5, 0.05] j))) measurable_snd
  refine this.trans ?_
  have hs : ∀ j, ((continuousLaw j).prod (bernoulliLaw (![0.95, 0.5, 0.05] j))).map Prod.snd = bernoulliLaw (![0.95, 0.5, 0.05] j) :=
    fun j => Measure.snd_prod
  simp only [hs]
  haveI : IsProbabilityMeasure (bernoulliLaw (1 / 2)) := bernoulliLaw_prob (by norm_num) (by norm_num)
  haveI : IsProbabilityMeasure (mixtureLaw ![1 / 4, 1 / 2, 1 / 4] fun j => bernoulliLaw (![0.95, 0.5, 0.05] j)) :=
    mixtureLaw_prob example_nonneg (by rw [List.sum_ofFn]; exact example_sum) _
  refine Measure.ext fun A _ => (ENNReal.toReal_eq_toReal_iff' (measure_ne_top _ _) (measure_ne_top _ _)).1 ?_
  rw [mixtureLaw_toReal example_nonneg, Fin.sum_univ_three]
  have hb : ∀ t : ℝ, 0 < t ∧ t < 1 → (bernoulliLaw t A).toReal
      = (1 - t) * (Measure.dirac (bit false) A).toReal + t * (Measure.dirac (bit true) A).toReal := by
    intro t ht
    unfold bernoulliLaw
    rw [Measure.add_apply, Measure.smul_apply, Measure.smul_apply, smul_eq_mul, smul_eq_mul, ENNReal.toReal_add
      (ENNReal.mul_ne_top ENNReal.ofReal_ne_top (measure_ne_top _ _)) (ENNReal.mul_ne_top ENNReal.ofReal_ne_top (measure_ne_top _ _)),
      ENNReal.toReal_mul, ENNReal.toReal_mul, ENNReal.toReal_ofReal (by linarith), ENNReal.toReal_ofReal ht.1.le]
  rw [hb _ (example_bits 0), hb _ (example_bits 1), hb _ (example_bits 2), hb (1 / 2) (by norm_num)]
  simp only [Matrix.cons_val]
  ring

theorem log_bounds {s : ℝ} (hs : 0.05 ≤ s ∧ s ≤ 0.95) (b : Bool) :
    Real.log 0.1 ≤ Real.log (prob s b / prob (1 / 2) b) ∧ Real.log (prob s b / prob (1 / 2) b) ≤ Real.log 1.9 := by
  have h : 0.1 ≤ prob s b / prob (1 / 2) b ∧ prob s b / prob (1 / 2) b ≤ 1.9 := by
    cases b
    · show 0.1 ≤ (1 - s) / (1 - 1 / 2) ∧ (1 - s) / (1 - 1 / 2) ≤ 1.9
      rw [le_div_iff₀ (by norm_num), div_le_iff₀ (by norm_num)]
      constructor <;> linarith [hs.1, hs.2]
    · show 0.1 ≤ s / (1 / 2) ∧ s / (1 / 2) ≤ 1.9
      rw [le_div_iff₀ (by norm_num), div_le_iff₀ (by norm_num)]
      constructor <;> linarith [hs.1, hs.2]
  exact ⟨Real.log_le_log (by norm_num) h.1, Real.log_le_log (by linarith [h.1]) h.2⟩

/-- **C75**, the distribution: it is the mixture of three components in which a bit is independent of two numbers; the pointwise
mutual information is between log 0.1 and log 1.9 everywhere, and the mutual information between the continuous variable and the bit
is its mean. -/
theorem define_spec (hT : IdealTfp T κ) (hu : IdealUniform uniform κ) : ∃ J, defineDistribution T uniform = .ok J ∧
    ConsistentOn κ J (volume.restrict Set.univ) bits exampleLaw ∧
    (∀ (x : Fin 2 → ℝ) b, ∃ v : ℝ, J.pmiAt (List.ofFn x) (List.ofFn (bit b)) = (v : EReal) ∧ Real.log 0.1 ≤ v ∧ v ≤ Real.log 1.9) ∧
    MemLp (fun z => (J.pmiAt (List.ofFn z.1) (List.ofFn z.2)).toReal) 2 exampleLaw ∧
    mutualInfo exampleLaw = ENNReal.ofReal (∫ z, (J.pmiAt (List.ofFn z.1) (List.ofFn z.2)).toReal ∂exampleLaw) ∧
    mutualInfo exampleLaw ≤ ENNReal.ofReal ((0.05 * Real.log 0.1 + 0.95 * Real.log 1.9) / 2) := by
  haveI := continuousLaw_prob
  obtain ⟨D, l, hD, hl, hcode⟩ := component_laws hT
  obtain ⟨J, M, hJ, hM, hon, hpmi⟩ := bit_mixture hT hu example_nonneg example_sum example_bits hD hl
  have hab : ∀ j : Fin 3, (0.05 : ℝ) ≤ (![0.95, 0.5, 0.05] : Fin 3 → ℝ) j ∧ (![0.95, 0.5, 0.05] : Fin 3 → ℝ) j ≤ 0.95 := by
    intro j
    fin_cases j <;> constructor <;> norm_num
  obtain ⟨h1, h2, h3⟩ := bit_mixture_le example_nonneg example_sum example_bits hon hpmi (by norm_num) (by norm_num) hab
  rw [example_mean, example_channel] at h3
  refine ⟨M, by rw [hcode _ J hJ, code_weights, hM], hon, fun x b => ⟨_, hpmi x b, ?_⟩, h1, h2, h3⟩
  rw [example_mean]
  exact log_bounds (posterior_mem example_nonneg example_sum hab x) b

/-- The continuous variable and the bit share some, and less than a quarter nat of, information. -/
theorem example_mi : 0 < mutualInfo exampleLaw ∧
    mutualInfo exampleLaw ≤ ENNReal.ofReal ((0.05 * Real.log 0.1 + 0.95 * Real.log 1.9) / 2) ∧ mutualInfo exampleLaw ≠ ⊤ := by
  obtain ⟨-, -, -, -, -, -, h⟩ := define_spec bitPath_ideal bitUniform_ideal
  exact ⟨pos_iff_ne_zero.2 example_dependent, h, (h.trans_lt ENNReal.ofReal_lt_top).ne⟩

section

variable {J : JointDistribution Key} {dx dy : ℕ} {bx : Measure (Fin dx → ℝ)} {by' : Measure (Fin dy → ℝ)}
  {P : Measure ((Fin dx → ℝ) × (Fin dy → ℝ))}

theorem sample_draws_on (hJ : ConsistentOn κ J bx by' P) (n : ℕ) (hn : 0 < n) :
    ∃ draw : Key → Fin n → (Fin dx → ℝ) × (Fin dy → ℝ), MeasurePreserving draw κ (Measure.pi fun _ => P) ∧
      (∀ k, J.sample n k = .ok (rowsOf fun i => (draw k i).1, rowsOf fun i => (draw k i).2)) ∧
      ∀ k, pmiProfile k J n = .ok (List.ofFn fun i => J.pmiAt (List.ofFn (draw k i).1) (List.ofFn (draw k i).2)) := by
  obtain ⟨draw, hm, hs, hl⟩ := hJ.joint.law n
  refine ⟨draw, ⟨hm, hl⟩, fun k => ?_, fun k => ?_⟩
  · unfold JointDistribution.sample
    rw [if_neg (by omega), Int.toNat_natCast, hs k, hJ.dimX]
    simp [rowsOf, pairList, List.map_ofFn, Function.comp_def]
  · unfold pmiProfile JointDistribution.sample
    rw [if_neg (by omega)]
    show JointDistribution.pmi _ _ _ = _
    unfold JointDistribution.pmi
    rw [if_pos (by simp), Int.toNat_natCast, hs, hJ.dimX, List.map_ofFn, List.map_ofFn, zipWith_ofFn]
    congr 2
    funext i
    simp only [Function.comp, take_pairList, drop_pairList]

end

theorem ae_example : ∀ᵐ z ∂exampleLaw, ∃ b, z.2 = bit b := by
  haveI := continuousLaw_prob
  haveI := fun j => bernoulliLaw_prob (example_bits j).1.le (example_bits j).2.le
  rw [exampleLaw, mixtureLaw, ← Measure.sum_fintype, Measure.ae_sum_iff]
  exact fun j => Measure.ae_smul_measure (Measure.quasiMeasurePreserving_snd.ae (ae_bit _)) _

theorem ae_draws {n : ℕ} {draw : Key → Fin n → (Fin 2 → ℝ) × (Fin 1 → ℝ)} (h : MeasurePreserving draw κ (Measure.pi fun _ => exampleLaw)) :
    ∀ᵐ k ∂κ, ∃ b : Fin n → Bool, ∀ i, (draw k i).2 = bit (b i) := by
  haveI : IsProbabilityMeasure exampleLaw := by
    obtain ⟨J, -, hc, -⟩ := define_spec bitPath_ideal bitUniform_ideal
    exact hc.prob
  have hall : ∀ᵐ w ∂(Measure.pi fun _ : Fin n => exampleLaw), ∀ i, ∃ b, (w i).2 = bit b := by
    rw [ae_all_iff]
    exact fun i => (measurePreserving_eval (fun _ : Fin n => exampleLaw) i).quasiMeasurePreserving.ae ae_example
  rw [← h.map_eq] at hall
  filter_upwards [ae_of_ae_map h.measurable.aemeasurable hall] with k hk
  choose b hb using hk
  exact ⟨b, hb⟩

/-- **C75**, the estimate: whatever the seeds give, the file has the value of a function of a key that is unbiased, and within `ε` of the
mutual information except for a probability of `(log 19 / 2)² / (10⁶ ε²)`. -/
theorem estimate_spec (hT : IdealTfp T κ) (hu : IdealUniform uniform κ) : ∃ f : Key → Except Err (EReal × ℝ), ∃ v e : Key → ℝ,
    (∀ R : JaxRandom Key, estimateMi R T uniform = f (R.prngKey 121)) ∧
    (∀ᵐ k ∂κ, f k = .ok ((v k : EReal), e k)) ∧ Integrable v κ ∧ ∫ k, v k ∂κ = (mutualInfo exampleLaw).toReal ∧
    ∫ k, e k ^ 2 ∂κ = (1000000 - 1) / 1000000 * Var[v; κ] ∧ Var[v; κ] ≤ (Real.log 19 / 2) ^ 2 / 1000000 ∧
    ∀ ε : ℝ, 0 < ε → κ {k | ε ≤ |v k - (mutualInfo exampleLaw).toReal|} ≤ ENNReal.ofReal ((Real.log 19 / 2) ^ 2 / 1000000 / ε ^ 2) := by
  obtain ⟨J, hJ, hon, hb, hLp, hmi, hle⟩ := define_spec hT hu
  haveI := hon.prob
  haveI : SFinite bits := by unfold bits; infer_instance
  obtain ⟨n, hn⟩ : ∃ n : ℕ, n = 1000000 := ⟨_, rfl⟩
  have hn' : ((n : ℕ) : ℝ) = 1000000 := by rw [hn]; norm_num
  obtain ⟨v, e, h1, h2, h3⟩ := monteCarlo_estimate_on hon n (by omega)
  obtain ⟨h4, h5⟩ := h2 example_mi.2.2
  obtain ⟨h6, h7, h8⟩ := h3 hLp
  have hvar : Var[fun z => (J.pmiAt (List.ofFn z.1) (List.ofFn z.2)).toReal; exampleLaw] ≤ (Real.log 19 / 2) ^ 2 := by
    have hl : Real.log 19 = Real.log 1.9 - Real.log 0.1 := by
      rw [← Real.log_div (by norm_num) (by norm_num)]
      norm_num
    rw [hl]
    refine variance_le_sq_of_bounded ?_ hLp.aestronglyMeasurable.aemeasurable
    filter_upwards [ae_example] with z hz
    obtain ⟨b, hz⟩ := hz
    obtain ⟨w, hw, hw1, hw2⟩ := hb z.1 b
    rw [hz, hw, EReal.toReal_coe]
    exact ⟨hw1, hw2⟩
  rw [hn'] at h6 h7 h8
  refine ⟨fun k => monteCarloMiEstimate k J n, v, e, fun R => ?_, h1, h4, h5, h7, ?_, fun ε hε => (h8 ε hε).trans ?_⟩
  · unfold estimateMi
    rw [hJ, hn]
    rfl
  · rw [h6]
    exact div_le_div_of_nonneg_right hvar (by norm_num)
  · refine ENNReal.ofReal_le_ofReal ?_
    gcongr

/-- **C75**, the profile: the numbers in the histogram are the values of the pointwise mutual information at a million independent draws,
and all of them are on the axis, which is from -3 to 1. -/
theorem profile_spec (hT : IdealTfp T κ) (hu : IdealUniform uniform κ) : ∃ J, defineDistribution T uniform = .ok J ∧
    ∃ draw : Key → Fin 1000000 → (Fin 2 → ℝ) × (Fin 1 → ℝ), MeasurePreserving draw κ (Measure.pi fun _ => exampleLaw) ∧
      (∀ R : JaxRandom Key, samplePmi R T uniform = .ok (List.ofFn fun i =>
        J.pmiAt (List.ofFn (draw (R.prngKey 101) i).1) (List.ofFn (draw (R.prngKey 101) i).2))) ∧
      ∀ᵐ k ∂κ, ∀ samples, ∀ v ∈ (plotFigure samples (List.ofFn fun i =>
          J.pmiAt (List.ofFn (draw k i).1) (List.ofFn (draw k i).2))).histogram,
        ((plotFigure samples []).range.1 : EReal) < v ∧ v < ((plotFigure samples []).range.2 : EReal) := by
  obtain ⟨J, hJ, hon, hb, -⟩ := define_spec hT hu
  obtain ⟨n, hn⟩ : ∃ n : ℕ, n = 1000000 := ⟨_, rfl⟩
  refine ⟨J, hJ, ?_⟩
  unfold samplePmi
  rw [hJ, ← hn]
  obtain ⟨draw, h1, -, h3⟩ := sample_draws_on hon n (by omega)
  refine ⟨draw, h1, fun R => ?_, ?_⟩
  · refine Eq.trans ?_ (h3 _)
    rw [hn]
    rfl
  · filter_upwards [ae_draws h1] with k hk samples v hv
    obtain ⟨b, hk⟩ := hk
    change v ∈ List.ofFn _ at hv
    rw [List.mem_ofFn] at hv
    obtain ⟨i, rfl⟩ := hv
    show ((-3 : ℝ) : EReal) < _ ∧ _ < ((1 : ℝ) : EReal)
    obtain ⟨w, hw, hw1, hw2⟩ := hb (draw k i).1 (b i)
    rw [hk i, hw, EReal.coe_lt_coe_iff, EReal.coe_lt_coe_iff]
    constructor
    · refine lt_of_lt_of_le ?_ hw1
      rw [Real.lt_log_iff_exp_lt (by norm_num), Real.exp_neg, show Real.exp 3 = Real.exp 1 ^ 3 by
        rw [← Real.exp_nat_mul]; norm_num]
      have h3 : (2.7 : ℝ) ^ 3 ≤ Real.exp 1 ^ 3 := pow_le_pow_left₀ (by norm_num) (by linarith [Real.exp_one_gt_d9]) 3
      rw [inv_lt_comm₀ (by positivity) (by norm_num)]
      norm_num at h3 ⊢
      linarith
    · refine lt_of_le_of_lt hw2 ?_
      rw [Real.log_lt_iff_lt_exp (by norm_num)]
      linarith [Real.exp_one_gt_d9]

/-- **C75**, the points: the figure shows a thousand independent draws of the continuous variable, orange if the bit is one and blue
if it is zero. -/
theorem points_spec (hT : IdealTfp T κ) (hu : IdealUniform uniform κ) :
    ∃ draw : Key → Fin 1000 → (Fin 2 → ℝ) × (Fin 1 → ℝ), MeasurePreserving draw κ (Measure.pi fun _ => exampleLaw) ∧
      (∀ R : JaxRandom Key, sampleJoint R T uniform = .ok (rowsOf fun i => (draw (R.prngKey 1000) i).1,
        rowsOf fun i => (draw (R.prngKey 1000) i).2)) ∧
      ∀ᵐ k ∂κ, ∃ b : Fin 1000 → Bool, (∀ i, (draw k i).2 = bit (b i)) ∧ ∀ pmis,
        (plotFigure (rowsOf fun i => (draw k i).1, rowsOf fun i => (draw k i).2) pmis).points
          = List.ofFn fun i => (((draw k i).1 0, (draw k i).1 1), if b i then "orange" else "blue") := by
  obtain ⟨J, hJ, hon, -⟩ := define_spec hT hu
  obtain ⟨n, hn⟩ : ∃ n : ℕ, n = 1000 := ⟨_, rfl⟩
  unfold sampleJoint
  rw [hJ, ← hn]
  obtain ⟨draw, h1, h2, -⟩ := sample_draws_on hon n (by omega)
  refine ⟨draw, h1, fun R => ?_, ?_⟩
  · refine Eq.trans ?_ (h2 _)
    rw [hn]
    rfl
  · filter_upwards [ae_draws h1] with k hk
    obtain ⟨b, hk⟩ := hk
    refine ⟨b, hk, fun pmis => ?_⟩
    unfold plotFigure rowsOf
    simp only [hk]
    have hf : (List.ofFn fun i => List.ofFn (bit (b i))).flatten = (List.finRange n).map fun i => if b i then (1 : ℝ) else 0 := by
      rw [List.ofFn_eq_map, ← List.flatMap_def, List.map_eq_flatMap]
      rfl
    rw [hf, List.ofFn_eq_map, List.ofFn_eq_map, List.map_map, List.map_map, List.zip_map']
    refine List.map_congr_left fun i _ => ?_
    refine Prod.ext (Prod.ext ?_ ?_) ?_
    · simp
    · simp
    · simp only [Function.comp]
      by_cases hb : b i = true
      · simp only [if_pos hb]
        norm_num
      · simp only [if_neg hb]
        norm_num

/-- There is randomness to which the theorems apply. -/
example : ∃ J, defineDistribution bitPath bitUniform = .ok J ∧ J.dimX = 2 ∧ J.dimY = 1 ∧ exampleLaw.snd = bernoulliLaw (1 / 2) ∧
    mutualInfo exampleLaw ≠ 0 := by
  obtain ⟨J, h1, h2, -⟩ := define_spec bitPath_ideal bitUniform_ideal
  exact ⟨J, h1, h2.dimX, h2.dimY, example_snd, example_dependent⟩

example : ∃ v e : BitKey → ℝ, ∀ᵐ k ∂bitKeyLaw, ∃ J, defineDistribution bitPath bitUniform = .ok J ∧
    monteCarloMiEstimate k J 1000000 = .ok ((v k : EReal), e k) := by
  obtain ⟨J, h1, h2, -⟩ := define_spec bitPath_ideal bitUniform_ideal
  haveI : SFinite bits := by unfold bits; infer_instance
  obtain ⟨n, hn⟩ : ∃ n : ℕ, n = 1000000 := ⟨_, rfl⟩
  obtain ⟨v, e, h3, -⟩ := monteCarlo_estimate_on h2 n (by omega)
  refine ⟨v, e, h3.mono fun k hk => ⟨J, h1, ?_⟩⟩
  rw [hn] at hk
  exact hk

/-- The two colours. -/
example : (plotFigure ([[1, 2], [3, 4]], [[0], [1]]) []).points = [((1, 2), "blue"), ((3, 4), "orange")] := by
  norm_num [plotFigure]

end BMI.Discrete
