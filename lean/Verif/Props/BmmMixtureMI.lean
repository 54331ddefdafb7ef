import Verif.Props.BmmSampler
import Verif.Lemmas.MixtureMI

/-! Properties C59 (mutual information of mixtures) and C60 (sign of the reported number), over
/repo/src/bmi/samplers/_tfp/_core.py. -/

namespace BMI.Bmm

open MeasureTheory ProbabilityTheory BMI.Samplers BMI.Student

variable {Key : Type} [MeasurableSpace Key] {T : Tfp Key} {κ : Measure Key} {dx dy : ℕ}
  {Sx : Set (Fin dx → ℝ)} {Sy : Set (Fin dy → ℝ)}

/-- **C59**: if the components have finite mutual information, the mixture has finite mutual information, at most the
weighted mean of those of the components plus the entropy of the proportions, which is at most the logarithm of the number
of components; hence the Monte Carlo estimate of the mixture is unbiased. -/
theorem mixture_mi_le (hT : IdealTfp T κ) {m : ℕ} (p : Fin m → ℝ) (h0 : ∀ j, 0 ≤ p j) (h1 : ∑ j, p j = 1)
    (J : Fin m → JointDistribution Key) (P : Fin m → Measure ((Fin dx → ℝ) × (Fin dy → ℝ)))
    (hJ : ∀ j, Consistent κ (J j) Sx Sy (P j)) (hfin : ∀ j, mutualInfo (P j) ≠ ⊤) :
    ∃ M, mixture T (List.ofFn p) (List.ofFn J) = .ok M ∧ Consistent κ M Sx Sy (mixtureLaw p P) ∧
      mutualInfo (mixtureLaw p P) ≠ ⊤ ∧
      (mutualInfo (mixtureLaw p P)).toReal ≤ ∑ j, p j * (mutualInfo (P j)).toReal + ∑ j, Real.negMulLog (p j) ∧
      (mutualInfo (mixtureLaw p P)).toReal ≤ ∑ j, p j * (mutualInfo (P j)).toReal + Real.log m ∧
      ∀ n : ℕ, 0 < n → ∃ v e : Key → ℝ, (∀ᵐ k ∂κ, monteCarloMiEstimate k M n = .ok ((v k : EReal), e k)) ∧
        ∫ k, v k ∂κ = (mutualInfo (mixtureLaw p P)).toReal := by
  haveI := fun j => (hJ j).prob
  obtain ⟨M, hM, -, hC⟩ := mixture_consistent hT p h0 h1 J P hJ
  have hle := mutualInfo_mixture_le p h0 h1 P fun j _ => hfin j
  have hne : mutualInfo (mixtureLaw p P) ≠ ⊤ := (hle.trans_lt ENNReal.ofReal_lt_top).ne
  have hp1 : ∀ j, p j ≤ 1 := fun j => by
    rw [← h1]
    exact Finset.single_le_sum (fun i _ => h0 i) (Finset.mem_univ j)
  have hle' : (mutualInfo (mixtureLaw p P)).toReal ≤ ∑ j, p j * (mutualInfo (P j)).toReal + ∑ j, Real.negMulLog (p j) := by
    refine ENNReal.toReal_le_of_le_ofReal ?_ hle
    exact add_nonneg (Finset.sum_nonneg fun j _ => mul_nonneg (h0 j) ENNReal.toReal_nonneg)
      (Finset.sum_nonneg fun j _ => Real.negMulLog_nonneg (h0 j) (hp1 j))
  refine ⟨M, hM, hC, hne, hle', hle'.trans ?_, fun n hn => ?_⟩
  · have := entropy_le p h0 h1
    linarith
  · obtain ⟨v, e, h2, h3, -⟩ := monteCarlo_estimate hC n hn
    exact ⟨v, e, h2, (h3 hne).2⟩

/-- **C59**, components which encode no information: the mixture encodes at most `log K`. -/
theorem mixture_of_products_mi_le (hT : IdealTfp T κ) {m : ℕ} (p : Fin m → ℝ) (h0 : ∀ j, 0 ≤ p j) (h1 : ∑ j, p j = 1)
    (J : Fin m → JointDistribution Key) (P : Fin m → Measure ((Fin dx → ℝ) × (Fin dy → ℝ)))
    (hJ : ∀ j, Consistent κ (J j) Sx Sy (P j)) (hzero : ∀ j, mutualInfo (P j) = 0) :
    ∃ M, mixture T (List.ofFn p) (List.ofFn J) = .ok M ∧ Consistent κ M Sx Sy (mixtureLaw p P) ∧
      mutualInfo (mixtureLaw p P) ≤ ENNReal.ofReal (Real.log m) := by
  obtain ⟨M, h2, h3, h4, -, h5, -⟩ := mixture_mi_le hT p h0 h1 J P hJ fun j => by rw [hzero j]; exact ENNReal.zero_ne_top
  refine ⟨M, h2, h3, ?_⟩
  simp only [hzero, ENNReal.toReal_zero, mul_zero, Finset.sum_const_zero, zero_add] at h5
  rw [← ENNReal.ofReal_toReal h4]
  exact ENNReal.ofReal_le_ofReal h5

/-- Two normal distributions with their means apart: components without information, at most `log 2` in the mixture. -/
example (R : JaxRandom PathKey) : ∃ J K M, multivariateNormalDistribution R path 1 1 (rowsOf (1 : Matrix (Fin 2) (Fin 2) ℝ))
    (some (List.ofFn ![-3, -3])) = .ok J ∧ multivariateNormalDistribution R path 1 1 (rowsOf (1 : Matrix (Fin 2) (Fin 2) ℝ))
    (some (List.ofFn ![3, 3])) = .ok K ∧ mixture path [0.5, 0.5] [J, K] = .ok M ∧
    ∃ P, Consistent (dx := 1) (dy := 1) pathLaw M Set.univ Set.univ P ∧ mutualInfo P ≤ ENNReal.ofReal (Real.log 2) := by
  have key : ∀ μ : Fin 2 → ℝ, ∃ J P, multivariateNormalDistribution R path 1 1 (rowsOf (1 : Matrix (Fin 2) (Fin 2) ℝ))
      (some (List.ofFn μ)) = .ok J ∧ Consistent (dx := 1) (dy := 1) pathLaw J Set.univ Set.univ P ∧ mutualInfo P = 0 := by
    intro μ
    obtain ⟨J, h1, -, h3⟩ := multivariateNormal_consistent path_ideal R 1 1 one_pos one_pos μ 1 Matrix.PosDef.one
    refine ⟨J, _, h1, h3, ?_⟩
    have h := (splitNormal_mi (dx := 1) (dy := 1) μ (cov := 1) Matrix.PosDef.one).1
    have e1 : blockX (dx := 1) (dy := 1) 1 = 1 := by
      ext i j
      fin_cases i
      fin_cases j
      rfl
    have e2 : blockY (dx := 1) (dy := 1) 1 = 1 := by
      ext i j
      fin_cases i
      fin_cases j
      rfl
    rw [e1, e2] at h
    refine Eq.trans h ?_
    simp
  obtain ⟨J, P, h1, h2, h3⟩ := key ![-3, -3]
  obtain ⟨K, Q, k1, k2, k3⟩ := key ![3, 3]
  obtain ⟨M, m1, m2, m3⟩ := mixture_of_products_mi_le path_ideal ![0.5, 0.5] (fun j => by fin_cases j <;> norm_num)
    (by norm_num [Fin.sum_univ_two]) ![J, K] ![P, Q] (fun j => by fin_cases j; exacts [h2, k2])
    (fun j => by fin_cases j; exacts [h3, k3])
  exact ⟨J, K, M, h1, k1, by simpa using m1, _, m2, by simpa using m3⟩

/-! ## C60 -/

/-- **C60** fails: unless the variables are independent, the Monte Carlo estimate is negative with positive probability,
whatever the number of points, for every distribution whose density is positive wherever those of the marginals are; and
then `mutual_information()` of a wrapper returns a negative number. -/
theorem monteCarlo_negative {J : JointDistribution Key} {P : Measure ((Fin dx → ℝ) × (Fin dy → ℝ))}
    (hJ : Consistent κ J Sx Sy P) (hac : P.fst.prod P.snd ≪ P) (hne : mutualInfo P ≠ 0) (n : ℕ) (hn : 0 < n) :
    κ {k | ∃ v e : ℝ, v < 0 ∧ monteCarloMiEstimate k J n = .ok ((v : EReal), e) ∧
      ∀ R : JaxRandom Key, ∀ s, bmmSampler J none (.key k) n = .ok s → (s.mutualInformation R).1 = .ok (v : EReal)} ≠ 0 := by
  haveI := hJ.prob
  obtain ⟨draw, hm, hl, hest⟩ := monteCarlo_draws hJ n hn
  obtain ⟨hdens, hfin, -, -, -⟩ := pmi_density hJ
  set w : (Fin dx → ℝ) × (Fin dy → ℝ) → EReal := fun z => J.pmiAt (List.ofFn z.1) (List.ofFn z.2) with hw
  -- with positive probability the pointwise mutual information of a draw is negative
  have hneg : P {z | w z < 0} ≠ 0 := by
    intro h
    have h1 : ∀ᵐ z ∂(P.fst.prod P.snd), 0 ≤ w z := by
      have : ∀ᵐ z ∂P, 0 ≤ w z := by
        rw [ae_iff]
        simpa only [not_le] using h
      exact hac.ae_le this
    have h2 : ∀ᵐ z ∂(P.fst.prod P.snd), (1 : ENNReal) ≤ (w z).exp := by
      filter_upwards [h1] with z hz
      simpa using EReal.exp_monotone hz
    have h3 : ∫⁻ z, (w z).exp ∂(P.fst.prod P.snd) = 1 := by
      have := congrArg (fun μ => μ Set.univ) hdens
      simp only [measure_univ] at this
      rw [withDensity_apply _ MeasurableSet.univ, Measure.restrict_univ] at this
      exact this.symm
    have h4 : ∫⁻ _, (1 : ENNReal) ∂(P.fst.prod P.snd) = 1 := by simp
    have h5 : (fun _ => (1 : ENNReal)) =ᵐ[P.fst.prod P.snd] fun z => (w z).exp :=
      ae_eq_of_ae_le_of_lintegral_le h2 (by rw [h4]; exact ENNReal.one_ne_top)
        (EReal.measurable_exp.comp_aemeasurable (pmi_aemeasurable hJ)) (by rw [h3, h4])
    apply hne
    rw [mutualInfo_eq_zero_iff]
    conv_lhs => rw [hdens]
    rw [withDensity_congr_ae h5.symm]
    exact withDensity_one
  have hall : (Measure.pi fun _ : Fin n => P) {u | ∀ i, w (u i) < 0} ≠ 0 := by
    have : {u : Fin n → (Fin dx → ℝ) × (Fin dy → ℝ) | ∀ i, w (u i) < 0} = Set.univ.pi fun _ => {z | w z < 0} := by
      ext u
      simp
    rw [this, Measure.pi_pi]
    exact Finset.prod_ne_zero_iff.2 fun _ _ => hneg
  have hk : κ (draw ⁻¹' {u | ∀ i, w (u i) < 0}) ≠ 0 := by
    intro h0
    apply hall
    have hacP : P ≪ P.fst.prod P.snd := by
      conv_lhs => rw [hdens]
      exact withDensity_absolutelyContinuous _ _
    have hnull : NullMeasurableSet {u : Fin n → (Fin dx → ℝ) × (Fin dy → ℝ) | ∀ i, w (u i) < 0}
        (Measure.pi fun _ => P) := by
      have e : {u : Fin n → (Fin dx → ℝ) × (Fin dy → ℝ) | ∀ i, w (u i) < 0} = ⋂ i, Function.eval i ⁻¹' {z | w z < 0} := by
        ext u
        simp
      rw [e]
      refine NullMeasurableSet.iInter fun i => NullMeasurableSet.preimage ?_
        (measurePreserving_eval (fun _ : Fin n => P) i).quasiMeasurePreserving
      exact nullMeasurableSet_lt ((pmi_aemeasurable hJ).mono_ac hacP) aemeasurable_const
    rw [← hl] at hnull ⊢
    rw [Measure.map_apply₀ hm.aemeasurable hnull]
    exact h0
  intro h0
  apply hk
  refine measure_mono_null_ae ?_ h0
  have hfin' : ∀ᵐ k ∂κ, ∀ i, w (draw k i) ≠ ⊥ ∧ w (draw k i) ≠ ⊤ := by
    have : ∀ᵐ u ∂(Measure.pi fun _ : Fin n => P), ∀ i, w (u i) ≠ ⊥ ∧ w (u i) ≠ ⊤ := by
      rw [ae_all_iff]
      exact fun i => (measurePreserving_eval (fun _ : Fin n => P) i).quasiMeasurePreserving.ae hfin
    rw [← hl] at this
    exact ae_of_ae_map hm.aemeasurable this
  filter_upwards [hest, hfin'] with k hk hf hin
  refine ⟨_, _, ?_, hk, fun R s hs => ?_⟩
  · refine div_neg_of_neg_of_pos (Finset.sum_neg (fun i _ => ?_) ⟨⟨0, hn⟩, Finset.mem_univ _⟩) (by exact_mod_cast hn)
    have h := hin i
    rw [← EReal.coe_toReal (hf i).2 (hf i).1] at h
    exact_mod_cast h
  · exact mutualInformation_none R hs hk

/-- A law with a positive density dominates the product of its marginals. -/
theorem product_ac_of_positive {J : JointDistribution Key} {P : Measure ((Fin dx → ℝ) × (Fin dy → ℝ))}
    (hJ : Consistent κ J Sx Sy P) (hpos : ∀ z : (Fin dx → ℝ) × (Fin dy → ℝ), J.distJoint.logProb (pairList z) ≠ ⊥) :
    P.fst.prod P.snd ≪ P := by
  haveI := hJ.prob
  have h1 : P.fst.prod P.snd ≪ (volume.restrict Sx).prod (volume.restrict Sy) := by
    refine Measure.AbsolutelyContinuous.prod ?_ ?_
    · rw [hJ.x.density]
      exact withDensity_absolutelyContinuous _ _
    · rw [hJ.y.density]
      exact withDensity_absolutelyContinuous _ _
  rw [Measure.prod_restrict] at h1
  refine h1.trans ?_
  conv_rhs => rw [hJ.joint.density]
  refine withDensity_absolutelyContinuous' (EReal.measurable_exp.comp_aemeasurable hJ.joint.measurable)
    (Filter.Eventually.of_forall fun z h => hpos z ?_)
  simpa using h

/-- The densities of a normal distribution are positive and finite. -/
theorem multivariateNormal_finite {K : Type} (R : JaxRandom K) (T : Tfp K) {dimX dimY : ℤ} {cov : Arr}
    {mean : Option (List ℝ)} {J : JointDistribution K} (h : multivariateNormalDistribution R T dimX dimY cov mean = .ok J)
    (z : List ℝ) : (J.distJoint.logProb z ≠ ⊥ ∧ J.distJoint.logProb z ≠ ⊤) ∧ (J.distX.logProb z ≠ ⊥ ∧ J.distX.logProb z ≠ ⊤) ∧
      (J.distY.logProb z ≠ ⊥ ∧ J.distY.logProb z ≠ ⊤) := by
  unfold multivariateNormalDistribution at h
  split_ifs at h
  cases hs : splitMultinormal R dimX dimY cov (some (mean.getD (List.replicate (dimX + dimY).toNat 0))) with
  | error e =>
    simp only [hs] at h
    cases h
  | ok s =>
    simp only [hs] at h
    obtain rfl := Except.ok.inj h
    exact ⟨⟨EReal.coe_ne_bot _, EReal.coe_ne_top _⟩, ⟨EReal.coe_ne_bot _, EReal.coe_ne_top _⟩,
      ⟨EReal.coe_ne_bot _, EReal.coe_ne_top _⟩⟩

example (R : JaxRandom PathKey) : ∃ J, multivariateNormalDistribution R path 1 1 (rowsOf (bivariateCov 0.5 1 1))
    (some (List.ofFn ![1, 2])) = .ok J ∧
    pathLaw {k | ∃ v e : ℝ, v < 0 ∧ monteCarloMiEstimate k J 200000 = .ok ((v : EReal), e)} ≠ 0 := by
  have hpos := bivariateCov_posDef 0.5 1 1 one_pos one_pos (by norm_num) (by norm_num)
  obtain ⟨J, h1, -, h3⟩ := multivariateNormal_consistent path_ideal R 1 1 one_pos one_pos ![1, 2] (bivariateCov 0.5 1 1) hpos
  refine ⟨J, h1, ?_⟩
  have hlog : ∀ z : (Fin 1 → ℝ) × (Fin 1 → ℝ), J.distJoint.logProb (pairList z) ≠ ⊥ := fun z =>
    (multivariateNormal_finite R path h1 _).1.1
  have hmi : mutualInfo ((normalLaw ![1, 2] (bivariateCov 0.5 1 1)).map fun z =>
      ((fun i => z (Fin.castAdd 1 i), fun i => z (Fin.natAdd 1 i)) : (Fin 1 → ℝ) × (Fin 1 → ℝ))) = _ :=
    (splitNormal_mi (dx := 1) (dy := 1) ![1, 2] hpos).1
  have e1 : (blockX (dx := 1) (dy := 1) (bivariateCov 0.5 1 1)).det = 1 := by
    rw [Matrix.det_fin_one]
    show bivariateCov 0.5 1 1 0 0 = 1
    simp [bivariateCov]
  have e2 : (blockY (dx := 1) (dy := 1) (bivariateCov 0.5 1 1)).det = 1 := by
    rw [Matrix.det_fin_one]
    show bivariateCov 0.5 1 1 1 1 = 1
    simp [bivariateCov]
  have e3 : (bivariateCov 0.5 1 1).det = 3 / 4 := by
    rw [Matrix.det_fin_two]
    norm_num [bivariateCov]
  have e3' : Matrix.det (n := Fin (1 + 1)) (bivariateCov 0.5 1 1) = 3 / 4 := e3
  have h := monteCarlo_negative h3 (product_ac_of_positive h3 hlog) (by
    rw [hmi, e1, e2, e3', Ne, ENNReal.ofReal_eq_zero, not_le]
    have : Real.log (3 / 4) < 0 := Real.log_neg (by norm_num) (by norm_num)
    simp only [Real.log_one]
    linarith) 200000 (by norm_num)
  intro h0
  refine h (measure_mono_null ?_ h0)
  rintro k ⟨v, e, hv, hk, -⟩
  exact ⟨v, e, hv, hk⟩

/-- **C60**, what is true: the estimate is negative with probability at most `Var[pmi] / (n I(X; Y)²)`, if the pointwise
mutual information has a finite variance and the variables are dependent.  Missing: nothing stronger can hold, by
`monteCarlo_negative`. -/
theorem monteCarlo_nonneg_partial {J : JointDistribution Key} {P : Measure ((Fin dx → ℝ) × (Fin dy → ℝ))}
    (hJ : Consistent κ J Sx Sy P) (hne : mutualInfo P ≠ 0)
    (h2 : MemLp (fun z => (J.pmiAt (List.ofFn z.1) (List.ofFn z.2)).toReal) 2 P) (n : ℕ) (hn : 0 < n) :
    κ {k | ¬ ∃ v e : ℝ, 0 ≤ v ∧ monteCarloMiEstimate k J n = .ok ((v : EReal), e)}
      ≤ ENNReal.ofReal (Var[fun z => (J.pmiAt (List.ofFn z.1) (List.ofFn z.2)).toReal; P] / n / (mutualInfo P).toReal ^ 2) := by
  haveI := hJ.prob
  obtain ⟨-, -, -, hiff, -⟩ := pmi_density hJ
  have htop : mutualInfo P ≠ ⊤ := hiff.2 (h2.integrable one_le_two)
  have hpos : 0 < (mutualInfo P).toReal := ENNReal.toReal_pos hne htop
  obtain ⟨v, e, hv, -, h3⟩ := monteCarlo_estimate hJ n hn
  obtain ⟨-, -, h4⟩ := h3 h2
  refine le_trans (measure_mono_ae ?_) (h4 _ hpos)
  filter_upwards [hv] with k hk hneg
  have hlt : v k < 0 := by
    by_contra h
    exact hneg ⟨v k, e k, not_lt.1 h, hk⟩
  show (mutualInfo P).toReal ≤ |v k - (mutualInfo P).toReal|
  rw [abs_of_neg (by linarith)]
  linarith

example (R : JaxRandom PathKey) : ∃ J, multivariateNormalDistribution R path 1 1 (rowsOf (bivariateCov 0.5 1 1))
    (some (List.ofFn ![1, 2])) = .ok J ∧ ∃ C : ℝ, ∀ n : ℕ, 0 < n →
      pathLaw {k | ¬ ∃ v e : ℝ, 0 ≤ v ∧ monteCarloMiEstimate k J n = .ok ((v : EReal), e)} ≤ ENNReal.ofReal (C / n) := by
  obtain ⟨J, P, h1, h2, h3, -, h5⟩ := example_normal R
  refine ⟨J, h1, Var[fun z => (J.pmiAt (List.ofFn z.1) (List.ofFn z.2)).toReal; P] / (mutualInfo P).toReal ^ 2, fun n hn => ?_⟩
  refine (monteCarlo_nonneg_partial h2 h5 h3 n hn).trans (le_of_eq ?_)
  congr 1
  ring

end BMI.Bmm
