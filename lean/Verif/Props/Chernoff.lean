import Verif.Lemmas.Chernoff
import Verif.Lemmas.Gaps
import Verif.Props.BmmMixtureMI

/-! Property C83: how seldom Monte Carlo estimates of mutual information are negative (/repo/src/bmi/samplers/_tfp/_core.py:169-186). -/

namespace BMI.Chernoff

open MeasureTheory BMI.Samplers BMI.Bmm BMI.Student BMI.MixtureTasks BMI.Integration BMI.Fitting

variable {Key : Type} [MeasurableSpace Key] {κ : Measure Key} {J : JointDistribution Key} {dx dy : ℕ}
  {Sx : Set (Fin dx → ℝ)} {Sy : Set (Fin dy → ℝ)} {P : Measure ((Fin dx → ℝ) × (Fin dy → ℝ))}

/-- The keys for which the estimate is not a number above `c`. -/
def Fails (J : JointDistribution Key) (n : ℕ) (c : ℝ) : Set Key := {k | ¬ ∃ v e : ℝ, c < v ∧ monteCarloMiEstimate k J n = .ok ((v : EReal), e)}

theorem density_facts (hJ : Consistent κ J Sx Sy P) :
    AEMeasurable (fun z : (Fin dx → ℝ) × (Fin dy → ℝ) => (J.pmiAt (List.ofFn z.1) (List.ofFn z.2)).exp) (P.fst.prod P.snd) ∧
    P = (P.fst.prod P.snd).withDensity fun z => (J.pmiAt (List.ofFn z.1) (List.ofFn z.2)).exp := by
  refine ⟨?_, (pmi_density hJ).1⟩
  exact EReal.measurable_exp.comp_aemeasurable (pmi_aemeasurable hJ)

theorem fails_le (hJ : Consistent κ J Sx Sy P) (n : ℕ) (hn : 0 < n) (c s : ℝ) (hs : 0 < s)
    (hi : Integrable (fun z => Real.exp (-(s * (J.pmiAt (List.ofFn z.1) (List.ofFn z.2)).toReal))) P) :
    κ (Fails J n c) ≤ ENNReal.ofReal ((∫ z, Real.exp (-(s * (J.pmiAt (List.ofFn z.1) (List.ofFn z.2)).toReal)) ∂P) ^ n * Real.exp (s * (n * c))) := by
  haveI := hJ.prob
  obtain ⟨draw, hm, hl, hest⟩ := monteCarlo_draws hJ n hn
  have hn' : (0 : ℝ) < n := by exact_mod_cast hn
  have h1 := product_tail hi (z := draw) ⟨hm, hl⟩
    (S := {k | (∑ i, (J.pmiAt (List.ofFn (draw k i).1) (List.ofFn (draw k i).2)).toReal) / n ≤ c}) (c := -(s * (n * c))) (fun k hk => by
      rw [Finset.sum_neg_distrib, ← Finset.mul_sum, neg_le_neg_iff]
      have : (∑ i, (J.pmiAt (List.ofFn (draw k i).1) (List.ofFn (draw k i).2)).toReal) / n ≤ c := hk
      rw [div_le_iff₀ hn'] at this
      exact mul_le_mul_of_nonneg_left (by linarith) hs.le)
  rw [neg_neg] at h1
  refine le_trans (measure_mono_ae ?_) h1
  filter_upwards [hest] with k hk hneg
  show _ ≤ c
  by_contra h
  exact hneg ⟨_, _, not_le.1 h, hk⟩

/-- **C83**: the estimate from `n` points is below `-c` with probability at most `exp (-n c)`, whatever the distribution. -/
theorem below_improbable (hJ : Consistent κ J Sx Sy P) (n : ℕ) (hn : 0 < n) (c : ℝ) :
    κ (Fails J n (-c)) ≤ ENNReal.ofReal (Real.exp (-(n * c))) := by
  haveI := hJ.prob
  obtain ⟨h1, h2⟩ := density_facts hJ
  obtain ⟨h3, h4⟩ := exp_one h1 h2
  have h5 := fails_le hJ n hn (-c) 1 one_pos (by simpa only [one_mul] using h3)
  simp only [one_mul] at h5
  refine h5.trans (ENNReal.ofReal_le_ofReal ?_)
  rw [mul_neg]
  refine mul_le_of_le_one_left (Real.exp_pos _).le (pow_le_one₀ (integral_nonneg fun z => (Real.exp_pos _).le) h4)

example (R : JaxRandom PathKey) : ∃ J, multivariateNormalDistribution R path 1 1 (rowsOf (bivariateCov 0.5 1 1))
    (some (List.ofFn ![1, 2])) = .ok J ∧ pathLaw {k | ∃ v e : ℝ, v ≤ -(1 / 100) ∧ monteCarloMiEstimate k J 1000 = .ok ((v : EReal), e)}
      ≤ ENNReal.ofReal (Real.exp (-10)) := by
  obtain ⟨J, P, h1, h2, -⟩ := example_normal R
  refine ⟨J, h1, le_trans (measure_mono ?_) ((below_improbable h2 1000 (by norm_num) (1 / 100)).trans (le_of_eq (by norm_num)))⟩
  rintro k ⟨v, e, hv, hk⟩ ⟨v', e', hv', hk'⟩
  have hk' : monteCarloMiEstimate k J 1000 = .ok ((v' : EReal), e') := hk'
  rw [hk] at hk'
  have h := congrArg Prod.fst (Except.ok.inj hk')
  have h : v = v' := EReal.coe_eq_coe_iff.1 h
  linarith

/-- **C83**: if the mean of a function with values between `-1` and `1` differs by `d` for dependent and for independent variables, the
estimate from `n` points is not positive with probability at most `exp (-n d² / 8)`. -/
theorem negative_improbable (hJ : Consistent κ J Sx Sy P) {f : (Fin dx → ℝ) × (Fin dy → ℝ) → ℝ} (hf : Measurable f) (hb : ∀ z, |f z| ≤ 1)
    {d : ℝ} (hd : 0 < d) (h : d ≤ |∫ z, f z ∂P - ∫ z, f z ∂(P.fst.prod P.snd)|) (n : ℕ) (hn : 0 < n) :
    κ (Fails J n 0) ≤ ENNReal.ofReal (Real.exp (-(n * (d ^ 2 / 8)))) := by
  haveI := hJ.prob
  obtain ⟨h1, h2⟩ := density_facts hJ
  obtain ⟨h3, h4⟩ := exp_half h1 h2
  have e : ∀ z : (Fin dx → ℝ) × (Fin dy → ℝ), 1 / 2 * (J.pmiAt (List.ofFn z.1) (List.ofFn z.2)).toReal
      = (J.pmiAt (List.ofFn z.1) (List.ofFn z.2)).toReal / 2 := fun z => by ring
  have h5 := fails_le hJ n hn 0 (1 / 2) (by norm_num) (by simpa only [e] using h3)
  simp only [e, h4, mul_zero, Real.exp_zero, mul_one] at h5
  refine h5.trans (ENNReal.ofReal_le_ofReal ?_)
  have h6 := affinity_le h1 h2 hf hb hd h
  have h7 : affinity (P.fst.prod P.snd) (fun z => J.pmiAt (List.ofFn z.1) (List.ofFn z.2)) ≤ Real.exp (-(d ^ 2 / 8)) := by
    have := Real.add_one_le_exp (-(d ^ 2 / 8))
    linarith
  calc _ ≤ Real.exp (-(d ^ 2 / 8)) ^ n := pow_le_pow_left₀ (affinity_nonneg _ _) h7 n
    _ = _ := by
      rw [← Real.exp_nat_mul]
      congr 1
      ring

example (n : ℕ) (hn : 0 < n) : ∃ J, IsExample pathLaw (fun R => createX R path n) n id smallX J ∧
    pathLaw (Fails J n 0) ≤ ENNReal.ofReal (Real.exp (-(n * ((8 / 100) ^ 2 / 8)))) := by
  obtain ⟨J, h⟩ := exampleX path_ideal pathRandom n hn
  obtain ⟨f, h1, h2, h3⟩ := tells_cross (3 / 10) (by norm_num)
  exact ⟨J, h, negative_improbable h.stands h1 h2 (by norm_num) h3 n hn⟩

/-- **C83**: for dependent variables the probability that the estimate is not positive decreases geometrically in the number of points. -/
theorem negative_geometric (hJ : Consistent κ J Sx Sy P) (hne : mutualInfo P ≠ 0) :
    ∃ b : ℝ, 0 ≤ b ∧ b < 1 ∧ ∀ n : ℕ, 0 < n → κ (Fails J n 0) ≤ ENNReal.ofReal (b ^ n) := by
  haveI := hJ.prob
  obtain ⟨h1, h2⟩ := density_facts hJ
  obtain ⟨h3, h4⟩ := exp_half h1 h2
  refine ⟨affinity (P.fst.prod P.snd) (fun z => J.pmiAt (List.ofFn z.1) (List.ofFn z.2)), affinity_nonneg _ _,
    affinity_lt h1 h2 fun hP => hne ((mutualInfo_eq_zero_iff P).2 hP), fun n hn => ?_⟩
  have e : ∀ z : (Fin dx → ℝ) × (Fin dy → ℝ), 1 / 2 * (J.pmiAt (List.ofFn z.1) (List.ofFn z.2)).toReal
      = (J.pmiAt (List.ofFn z.1) (List.ofFn z.2)).toReal / 2 := fun z => by ring
  have h5 := fails_le hJ n hn 0 (1 / 2) (by norm_num) (by simpa only [e] using h3)
  simpa only [e, h4, mul_zero, Real.exp_zero, mul_one] using h5

example (R : JaxRandom PathKey) : ∃ J, multivariateNormalDistribution R path 1 1 (rowsOf (bivariateCov 0.5 1 1))
    (some (List.ofFn ![1, 2])) = .ok J ∧ ∃ b : ℝ, 0 ≤ b ∧ b < 1 ∧ ∀ n : ℕ, 0 < n → pathLaw (Fails J n 0) ≤ ENNReal.ofReal (b ^ n) := by
  obtain ⟨J, P, h1, h2, -, -, h5⟩ := example_normal R
  exact ⟨J, h1, negative_geometric h2 h5⟩

/-- The number reported by an example is not positive with small probability. -/
theorem example_positive {create : JaxRandom Key → Except Err (ExampleDistribution Key)} {size : ℕ} (hs : 0 < size)
    {f : (Fin dx → ℝ) → Fin dx → ℝ} (hE : IsExample κ create size f P J) {d : ℝ} (hd : 0 < d) (ht : Tells P d) :
    ∃ B : Set Key, κ B ≤ ENNReal.ofReal (Real.exp (-(size * (d ^ 2 / 8)))) ∧
      ∀ R : JaxRandom Key, R.prngKey 0 ∉ B → ∃ E, create R = .ok E ∧ 0 < E.sampler.mi := by
  obtain ⟨g, h1, h2, h3⟩ := ht
  refine ⟨Fails J size 0, negative_improbable hE.stands h1 h2 hd h3 size hs, fun R hR => ?_⟩
  obtain ⟨E, e1, -⟩ := hE.created R
  obtain ⟨v, e, h4, h5⟩ := not_not.1 hR
  obtain ⟨e', h6⟩ := hE.estimate R E e1
  refine ⟨E, e1, ?_⟩
  rw [h5] at h6
  have h7 := congrArg Prod.fst (Except.ok.inj h6)
  have h7 : v = E.sampler.mi := EReal.coe_eq_coe_iff.1 h7
  rwa [← h7]

/-- **C83**: the four example distributions of the figures.  All four numbers reported are positive, but for keys of probability at most
`4 exp (-n / 1250)`, where `n` is the number of points; for the 200000 points of the figures, this is `4 exp (-160)`. -/
theorem examples_positive {T : Tfp Key} (hT : IdealTfp T κ) (R₀ : JaxRandom Key) (n k : ℕ) (hn : 0 < n) (hk : 0 < k) :
    ∃ B : Set Key, κ B ≤ 4 * ENNReal.ofReal (Real.exp (-(n / 1250))) ∧ ∀ R : JaxRandom Key, R.prngKey 0 ∉ B →
      (∃ E, createX R T n = .ok E ∧ 0 < E.sampler.mi) ∧ (∃ E, createGalaxy R T n = .ok E ∧ 0 < E.sampler.mi) ∧
      (∃ E, createAi R T n = .ok E ∧ 0 < E.sampler.mi) ∧ ∃ E, createWaves R T (4 * k : ℕ) n = .ok E ∧ 0 < E.sampler.mi := by
  have hle : ∀ d : ℝ, 8 / 100 ≤ d → ENNReal.ofReal (Real.exp (-(n * (d ^ 2 / 8)))) ≤ ENNReal.ofReal (Real.exp (-(n / 1250))) := fun d hd => by
    refine ENNReal.ofReal_le_ofReal (Real.exp_le_exp.2 ?_)
    have : (0 : ℝ) ≤ n := Nat.cast_nonneg n
    have : (n : ℝ) * (1 / 1250) ≤ n * (d ^ 2 / 8) := mul_le_mul_of_nonneg_left (by nlinarith) this
    linarith
  obtain ⟨J1, e1⟩ := exampleX hT R₀ n hn
  obtain ⟨J2, e2⟩ := exampleGalaxy hT R₀ n hn
  obtain ⟨J3, e3⟩ := exampleAi hT R₀ n hn
  obtain ⟨J4, e4⟩ := exampleWaves hT R₀ (4 * k) (by omega) n hn
  obtain ⟨B1, b1, c1⟩ := example_positive hn e1 (d := 8 / 100) (by norm_num) (tells_cross (3 / 10) (by norm_num))
  obtain ⟨B2, b2, c2⟩ := example_positive hn e2 (d := 2 / 10) (by norm_num) tells_balls
  obtain ⟨B3, b3, c3⟩ := example_positive hn e3 (d := 8 / 100) (by norm_num) tells_ai
  obtain ⟨B4, b4, c4⟩ := example_positive hn e4 (d := 8 / 10) (by norm_num) (tells_columns (4 * k) k rfl hk)
  refine ⟨B1 ∪ B2 ∪ B3 ∪ B4, ?_, fun R hR => ?_⟩
  · refine (measure_union_le _ _).trans ((add_le_add ((measure_union_le _ _).trans (add_le_add ((measure_union_le _ _).trans
      (add_le_add (b1.trans (hle _ le_rfl)) (b2.trans (hle _ (by norm_num))))) (b3.trans (hle _ le_rfl)))) (b4.trans (hle _ (by norm_num)))).trans (le_of_eq ?_))
    ring
  · simp only [Set.mem_union, not_or] at hR
    obtain ⟨⟨⟨h1, h2⟩, h3⟩, h4⟩ := hR
    exact ⟨c1 R h1, c2 R h2, c3 R h3, c4 R h4⟩

example : ∃ B : Set PathKey, pathLaw B ≤ 4 * ENNReal.ofReal (Real.exp (-(((200000 : ℕ) : ℝ) / 1250))) ∧ ∀ R : JaxRandom PathKey, R.prngKey 0 ∉ B →
    (∃ E, createX R path (200000 : ℕ) = .ok E ∧ 0 < E.sampler.mi) ∧ (∃ E, createGalaxy R path (200000 : ℕ) = .ok E ∧ 0 < E.sampler.mi) ∧
    (∃ E, createAi R path (200000 : ℕ) = .ok E ∧ 0 < E.sampler.mi) ∧
    ∃ E, createWaves R path (4 * 3 : ℕ) (200000 : ℕ) = .ok E ∧ 0 < E.sampler.mi :=
  examples_positive path_ideal pathRandom 200000 3 (by norm_num) (by norm_num)

end BMI.Chernoff
