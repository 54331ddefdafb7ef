import Verif.Props.BmmTransform
import Verif.Lemmas.BmmPmi
import Verif.Lemmas.BmmMoments

/-! Properties C22 (pointwise mutual information) and C58 (Monte Carlo estimate), over /repo/src/bmi/samplers/_tfp/_core.py. -/

namespace BMI.Bmm

open MeasureTheory ProbabilityTheory BMI.Samplers BMI.Student

variable {Key : Type} [MeasurableSpace Key] {κ : Measure Key} {J : JointDistribution Key} {dx dy : ℕ}
  {Sx : Set (Fin dx → ℝ)} {Sy : Set (Fin dy → ℝ)} {P : Measure ((Fin dx → ℝ) × (Fin dy → ℝ))} {bx : Measure (Fin dx → ℝ)} {by' : Measure (Fin dy → ℝ)}

/-- Meaning of the pointwise mutual information: `exp (pmi)` is the density of the joint law with respect to the
product of its marginals; `pmi` is finite almost surely; and the mutual information, if finite, is the mean of `pmi`. -/
theorem pmi_density_on [SFinite bx] [SFinite by'] (hJ : ConsistentOn κ J bx by' P) :
    P = (P.fst.prod P.snd).withDensity (fun z => (J.pmiAt (List.ofFn z.1) (List.ofFn z.2)).exp) ∧
    (∀ᵐ z ∂P, J.pmiAt (List.ofFn z.1) (List.ofFn z.2) ≠ ⊥ ∧ J.pmiAt (List.ofFn z.1) (List.ofFn z.2) ≠ ⊤) ∧
    AEMeasurable (fun z => (J.pmiAt (List.ofFn z.1) (List.ofFn z.2)).toReal) P ∧
    (mutualInfo P ≠ ⊤ ↔ Integrable (fun z => (J.pmiAt (List.ofFn z.1) (List.ofFn z.2)).toReal) P) ∧
    (mutualInfo P ≠ ⊤ → mutualInfo P = ENNReal.ofReal (∫ z, (J.pmiAt (List.ofFn z.1) (List.ofFn z.2)).toReal ∂P) ∧
      0 ≤ ∫ z, (J.pmiAt (List.ofFn z.1) (List.ofFn z.2)).toReal ∂P) := by
  haveI := hJ.prob
  have hjm := hJ.joint.measurable
  have hjd := hJ.joint.density
  obtain ⟨h1, h2, h3⟩ := ratio_density hjm hJ.x.measurable hJ.y.measurable hjd hJ.x.density hJ.y.density
  obtain ⟨h4, h5, h6⟩ := mutualInfo_of_log P _ h2 h1
  exact ⟨h1, h3, h4, h5, h6⟩

/-- **C58**, meaning of the pointwise mutual information: `exp (pmi)` is the density of the joint law with respect to the
product of its marginals; `pmi` is finite almost surely; and the mutual information, if finite, is the mean of `pmi`. -/
theorem pmi_density (hJ : Consistent κ J Sx Sy P) :
    P = (P.fst.prod P.snd).withDensity (fun z => (J.pmiAt (List.ofFn z.1) (List.ofFn z.2)).exp) ∧
    (∀ᵐ z ∂P, J.pmiAt (List.ofFn z.1) (List.ofFn z.2) ≠ ⊥ ∧ J.pmiAt (List.ofFn z.1) (List.ofFn z.2) ≠ ⊤) ∧
    AEMeasurable (fun z => (J.pmiAt (List.ofFn z.1) (List.ofFn z.2)).toReal) P ∧
    (mutualInfo P ≠ ⊤ ↔ Integrable (fun z => (J.pmiAt (List.ofFn z.1) (List.ofFn z.2)).toReal) P) ∧
    (mutualInfo P ≠ ⊤ → mutualInfo P = ENNReal.ofReal (∫ z, (J.pmiAt (List.ofFn z.1) (List.ofFn z.2)).toReal ∂P) ∧
      0 ≤ ∫ z, (J.pmiAt (List.ofFn z.1) (List.ofFn z.2)).toReal ∂P) :=
  pmi_density_on hJ.on

theorem pmi_aemeasurable (hJ : Consistent κ J Sx Sy P) :
    AEMeasurable (fun z => J.pmiAt (List.ofFn z.1) (List.ofFn z.2)) (P.fst.prod P.snd) := by
  haveI := hJ.prob
  have hb : (volume : Measure ((Fin dx → ℝ) × (Fin dy → ℝ))).restrict (Sx ×ˢ Sy)
      = ((volume : Measure (Fin dx → ℝ)).restrict Sx).prod ((volume : Measure (Fin dy → ℝ)).restrict Sy) :=
    (Measure.prod_restrict Sx Sy).symm
  have hjm := hJ.joint.measurable
  have hjd := hJ.joint.density
  rw [hb] at hjm hjd
  obtain ⟨-, h2, -⟩ := ratio_density hjm hJ.x.measurable hJ.y.measurable hjd hJ.x.density hJ.y.density
  have e : (fun z : (Fin dx → ℝ) × (Fin dy → ℝ) => J.pmiAt (List.ofFn z.1) (List.ofFn z.2))
      = fun z => ENNReal.log ((J.pmiAt (List.ofFn z.1) (List.ofFn z.2)).exp) := by
    funext z
    rw [EReal.log_exp]
  rw [e]
  exact ENNReal.measurable_log.comp_aemeasurable h2

theorem ereal_sum_coe (l : List ℝ) : (l.map Real.toEReal).sum = ((l.sum : ℝ) : EReal) := by
  induction l with
  | nil => simp
  | cons a l ih => rw [List.map_cons, List.sum_cons, List.sum_cons, ih, EReal.coe_add]

/-- The estimate as a function of independent draws. -/
theorem monteCarlo_draws_on [SFinite bx] [SFinite by'] (hJ : ConsistentOn κ J bx by' P) (n : ℕ) (hn : 0 < n) :
    ∃ draw : Key → Fin n → (Fin dx → ℝ) × (Fin dy → ℝ), Measurable draw ∧ κ.map draw = Measure.pi (fun _ => P) ∧
      ∀ᵐ k ∂κ, monteCarloMiEstimate k J n = .ok
        ((((∑ i, (J.pmiAt (List.ofFn (draw k i).1) (List.ofFn (draw k i).2)).toReal) / n : ℝ) : EReal),
          √((∑ i, ((J.pmiAt (List.ofFn (draw k i).1) (List.ofFn (draw k i).2)).toReal
            - (∑ j, (J.pmiAt (List.ofFn (draw k j).1) (List.ofFn (draw k j).2)).toReal) / n) ^ 2) / n) / √n) := by
  haveI := hJ.prob
  obtain ⟨draw, hm, hs, hl⟩ := hJ.joint.law n
  refine ⟨draw, hm, hl, ?_⟩
  obtain ⟨-, hfin, -, -, -⟩ := pmi_density_on hJ
  have hall : ∀ᵐ w ∂(Measure.pi fun _ : Fin n => P), ∀ i, J.pmiAt (List.ofFn (w i).1) (List.ofFn (w i).2) ≠ ⊥ ∧
      J.pmiAt (List.ofFn (w i).1) (List.ofFn (w i).2) ≠ ⊤ := by
    rw [ae_all_iff]
    exact fun i => (measurePreserving_eval (fun _ : Fin n => P) i).quasiMeasurePreserving.ae hfin
  rw [← hl] at hall
  filter_upwards [ae_of_ae_map hm.aemeasurable hall] with k hk
  have hprof : pmiProfile k J n
      = .ok (List.ofFn fun i => J.pmiAt (List.ofFn (draw k i).1) (List.ofFn (draw k i).2)) := by
    unfold pmiProfile JointDistribution.sample
    rw [if_neg (by omega)]
    show JointDistribution.pmi _ _ _ = _
    unfold JointDistribution.pmi
    rw [if_pos (by simp), Int.toNat_natCast, hs, hJ.dimX, List.map_ofFn, List.map_ofFn, zipWith_ofFn]
    congr 2
    funext i
    simp only [Function.comp, take_pairList, drop_pairList]
  unfold monteCarloMiEstimate
  rw [hprof]
  show Except.ok _ = _
  have hcoe : (List.ofFn fun i => J.pmiAt (List.ofFn (draw k i).1) (List.ofFn (draw k i).2))
      = (List.ofFn fun i => (J.pmiAt (List.ofFn (draw k i).1) (List.ofFn (draw k i).2)).toReal).map Real.toEReal := by
    rw [List.map_ofFn]
    congr 1
    funext i
    exact (EReal.coe_toReal (hk i).2 (hk i).1).symm
  congr 2
  · unfold mean
    rw [hcoe, ereal_sum_coe, List.sum_ofFn, List.length_map, List.length_ofFn, EReal.coe_div]
    rfl
  · unfold std
    simp only [List.map_ofFn, List.sum_ofFn, List.length_ofFn, Function.comp, Int.cast_natCast]

/-- The estimate as a function of independent draws. -/
theorem monteCarlo_draws (hJ : Consistent κ J Sx Sy P) (n : ℕ) (hn : 0 < n) :
    ∃ draw : Key → Fin n → (Fin dx → ℝ) × (Fin dy → ℝ), Measurable draw ∧ κ.map draw = Measure.pi (fun _ => P) ∧
      ∀ᵐ k ∂κ, monteCarloMiEstimate k J n = .ok
        ((((∑ i, (J.pmiAt (List.ofFn (draw k i).1) (List.ofFn (draw k i).2)).toReal) / n : ℝ) : EReal),
          √((∑ i, ((J.pmiAt (List.ofFn (draw k i).1) (List.ofFn (draw k i).2)).toReal
            - (∑ j, (J.pmiAt (List.ofFn (draw k j).1) (List.ofFn (draw k j).2)).toReal) / n) ^ 2) / n) / √n) :=
  monteCarlo_draws_on hJ.on n hn

/-- For every number of points, the Monte Carlo estimate is almost surely a finite number; it is unbiased if the
mutual information is finite; and if the pointwise mutual information has a finite variance, the variance of the estimate
is that variance over `n`, the squared standard error estimates it up to the factor `(n - 1) / n`, and large deviations
from the mutual information are improbable. -/
theorem monteCarlo_estimate_on [SFinite bx] [SFinite by'] (hJ : ConsistentOn κ J bx by' P) (n : ℕ) (hn : 0 < n) :
    ∃ v e : Key → ℝ, (∀ᵐ k ∂κ, monteCarloMiEstimate k J n = .ok ((v k : EReal), e k)) ∧
      (mutualInfo P ≠ ⊤ → Integrable v κ ∧ ∫ k, v k ∂κ = (mutualInfo P).toReal) ∧
      (MemLp (fun z => (J.pmiAt (List.ofFn z.1) (List.ofFn z.2)).toReal) 2 P →
        Var[v; κ] = Var[fun z => (J.pmiAt (List.ofFn z.1) (List.ofFn z.2)).toReal; P] / n ∧
        ∫ k, e k ^ 2 ∂κ = (n - 1) / n * Var[v; κ] ∧
        ∀ ε : ℝ, 0 < ε → κ {k | ε ≤ |v k - (mutualInfo P).toReal|}
          ≤ ENNReal.ofReal (Var[fun z => (J.pmiAt (List.ofFn z.1) (List.ofFn z.2)).toReal; P] / n / ε ^ 2)) := by
  haveI := hJ.prob
  obtain ⟨draw, hm, hl, hest⟩ := monteCarlo_draws_on hJ n hn
  obtain ⟨-, -, hmeas, hiff, hmi⟩ := pmi_density_on hJ
  set p : (Fin dx → ℝ) × (Fin dy → ℝ) → ℝ := fun z => (J.pmiAt (List.ofFn z.1) (List.ofFn z.2)).toReal with hp
  set V : (Fin n → (Fin dx → ℝ) × (Fin dy → ℝ)) → ℝ := fun w => (∑ i, p (w i)) / n with hV
  set Q : (Fin n → (Fin dx → ℝ) × (Fin dy → ℝ)) → ℝ := fun w => (∑ i, (p (w i) - (∑ j, p (w j)) / n) ^ 2) / n with hQ
  have hQ0 : ∀ w, 0 ≤ Q w := fun w => by rw [hQ]; positivity
  have hpres : MeasurePreserving draw κ (Measure.pi fun _ => P) := ⟨hm, hl⟩
  haveI : IsProbabilityMeasure κ := by
    constructor
    have := congrArg (fun μ => μ Set.univ) hl
    simpa [Measure.map_apply hm MeasurableSet.univ] using this
  have hn' : (n : ℝ) ≠ 0 := by positivity
  have hmean : mutualInfo P ≠ ⊤ → ∫ z, p z ∂P = (mutualInfo P).toReal := fun h => by
    conv_rhs => rw [(hmi h).1]
    rw [ENNReal.toReal_ofReal (hmi h).2]
  refine ⟨fun k => V (draw k), fun k => √(Q (draw k)) / √n, hest, fun hne => ?_, fun h2 => ?_⟩
  · obtain ⟨h1, h2⟩ := mean_draws P (hiff.1 hne) n hn
    refine ⟨hpres.integrable_comp_of_integrable h1, ?_⟩
    have := integral_map (μ := κ) (φ := draw) hm.aemeasurable (f := V) (by rw [hl]; exact h1.1)
    rw [← this, hl, h2, hmean hne]
  · have hne : mutualInfo P ≠ ⊤ := hiff.2 (h2.integrable one_le_two)
    obtain ⟨hV2, hvar⟩ := variance_draws P h2 n hn
    obtain ⟨hE1, hE2⟩ := empirical_variance_draws P h2 n hn
    obtain ⟨hI, hI2⟩ := mean_draws P (hiff.1 hne) n hn
    have hV3 : MemLp (fun k => V (draw k)) 2 κ := hV2.comp_measurePreserving hpres
    have hVe : ∫ k, V (draw k) ∂κ = (mutualInfo P).toReal := by
      have := integral_map (μ := κ) (φ := draw) hm.aemeasurable (f := V) (by rw [hl]; exact hI.1)
      rw [← this, hl, hI2, hmean hne]
    have hv : Var[fun k => V (draw k); κ] = Var[p; P] / n := by
      have := variance_map (X := V) (Y := draw) (μ := κ) (by rw [hl]; exact hV2.1.aemeasurable) hm.aemeasurable
      rw [hl, hvar] at this
      exact this.symm
    refine ⟨hv, ?_, fun ε hε => ?_⟩
    · have e : ∀ k, (√(Q (draw k)) / √n) ^ 2 = Q (draw k) / n := fun k => by
        rw [div_pow, Real.sq_sqrt (hQ0 _), Real.sq_sqrt (by positivity)]
      simp only [e]
      have := integral_map (μ := κ) (φ := draw) hm.aemeasurable (f := Q) (by rw [hl]; exact hE1.1)
      rw [integral_div, ← this, hl, hE2, hv]
      field_simp
    · have := meas_ge_le_variance_div_sq hV3 hε
      rw [hVe, hv] at this
      exact this

/-- **C58**: for every number of points, the Monte Carlo estimate is almost surely a finite number; it is unbiased if the
mutual information is finite; and if the pointwise mutual information has a finite variance, the variance of the estimate
is that variance over `n`, the squared standard error estimates it up to the factor `(n - 1) / n`, and large deviations
from the mutual information are improbable. -/
theorem monteCarlo_estimate (hJ : Consistent κ J Sx Sy P) (n : ℕ) (hn : 0 < n) :
    ∃ v e : Key → ℝ, (∀ᵐ k ∂κ, monteCarloMiEstimate k J n = .ok ((v k : EReal), e k)) ∧
      (mutualInfo P ≠ ⊤ → Integrable v κ ∧ ∫ k, v k ∂κ = (mutualInfo P).toReal) ∧
      (MemLp (fun z => (J.pmiAt (List.ofFn z.1) (List.ofFn z.2)).toReal) 2 P →
        Var[v; κ] = Var[fun z => (J.pmiAt (List.ofFn z.1) (List.ofFn z.2)).toReal; P] / n ∧
        ∫ k, e k ^ 2 ∂κ = (n - 1) / n * Var[v; κ] ∧
        ∀ ε : ℝ, 0 < ε → κ {k | ε ≤ |v k - (mutualInfo P).toReal|}
          ≤ ENNReal.ofReal (Var[fun z => (J.pmiAt (List.ofFn z.1) (List.ofFn z.2)).toReal; P] / n / ε ^ 2)) :=
  monteCarlo_estimate_on hJ.on n hn

/-- A concrete distribution to which the theorems of this file apply. -/
theorem example_normal (R : JaxRandom PathKey) : ∃ J P, multivariateNormalDistribution R path 1 1 (rowsOf (bivariateCov 0.5 1 1))
    (some (List.ofFn ![1, 2])) = .ok J ∧ Consistent (dx := 1) (dy := 1) pathLaw J Set.univ Set.univ P ∧
    MemLp (fun z => (J.pmiAt (List.ofFn z.1) (List.ofFn z.2)).toReal) 2 P ∧ mutualInfo P ≠ ⊤ ∧ mutualInfo P ≠ 0 := by
  have hpos := bivariateCov_posDef 0.5 1 1 one_pos one_pos (by norm_num) (by norm_num)
  obtain ⟨J, h1, -, h3⟩ := multivariateNormal_consistent path_ideal R 1 1 one_pos one_pos ![1, 2] (bivariateCov 0.5 1 1) hpos
  haveI := h3.prob
  have h4 := (tame_normal path_ideal R 1 1 ![1, 2] (bivariateCov 0.5 1 1) hpos h1).memLp (pmi_density h3).2.2.1
  refine ⟨J, _, h1, h3, h4, (pmi_density h3).2.2.2.1.2 (h4.integrable one_le_two), ?_⟩
  have hmi : mutualInfo ((normalLaw ![1, 2] (bivariateCov 0.5 1 1)).map fun z =>
      ((fun i => z (Fin.castAdd 1 i), fun i => z (Fin.natAdd 1 i)) : (Fin 1 → ℝ) × (Fin 1 → ℝ))) = _ :=
    (splitNormal_mi (dx := 1) (dy := 1) ![1, 2] hpos).1
  have e1 : (blockX (dx := 1) (dy := 1) (bivariateCov 0.5 1 1)).det = 1 := by
    rw [Matrix.det_fin_one]
    show bivariateCov 0.5 1 1 0 0 = 1
    simp [bivariateCov]
  have e2 : (blockY (dx := 1) (dy := 1) (bivariateCov 0.5 1 1)).det = 1 := by
    rw [Matrix.det_fin_one]
    show bivariateCov 0.5 1 1 1 1 = 1
    simp [bivariateCov]
  have e3 : (bivariateCov 0.5 1 1).det = 3 / 4 := by
    rw [Matrix.det_fin_two]
    norm_num [bivariateCov]
  have e3' : Matrix.det (n := Fin (1 + 1)) (bivariateCov 0.5 1 1) = 3 / 4 := e3
  rw [hmi, e1, e2, e3', Ne, ENNReal.ofReal_eq_zero, not_le]
  have : Real.log (3 / 4) < 0 := Real.log_neg (by norm_num) (by norm_num)
  simp only [Real.log_one]
  linarith

/-- The hypotheses of `monteCarlo_estimate`, including finite mutual information and finite variance. -/
example (R : JaxRandom PathKey) : ∃ J, multivariateNormalDistribution R path 1 1 (rowsOf (bivariateCov 0.5 1 1))
    (some (List.ofFn ![1, 2])) = .ok J ∧ ∃ v e : PathKey → ℝ, ∃ P : Measure ((Fin 1 → ℝ) × (Fin 1 → ℝ)),
      (∀ᵐ k ∂pathLaw, monteCarloMiEstimate k J 200000 = .ok ((v k : EReal), e k)) ∧
      ∫ k, v k ∂pathLaw = (mutualInfo P).toReal ∧ ∫ k, e k ^ 2 ∂pathLaw = (200000 - 1) / 200000 * Var[v; pathLaw] := by
  obtain ⟨J, P, h1, h2, h3, h4, -⟩ := example_normal R
  obtain ⟨v, e, g1, g2, g3⟩ := monteCarlo_estimate h2 200000 (by norm_num)
  exact ⟨J, h1, v, e, P, g1, (g2 h4).2, by simpa using (g3 h3).2.1⟩

section gaussian

variable {Key : Type} [MeasurableSpace Key] {T : Tfp Key} {κ : Measure Key}

/-- **C58** for mixtures of normal distributions: without any assumption on the mutual information, the Monte Carlo
estimate is almost surely finite and unbiased, its variance is finite and proportional to `1 / n`, and its squared standard
error estimates this variance up to the factor `(n - 1) / n`. -/
theorem gaussianMixture_estimate (hT : IdealTfp T κ) (R : JaxRandom Key) {m : ℕ} (p : Fin m → ℝ) (h0 : ∀ j, 0 ≤ p j)
    (h1 : ∑ j, p j = 1) (dx dy : ℕ) (hx : 0 < dx) (hy : 0 < dy) (mean : Fin m → Fin (dx + dy) → ℝ)
    (cov : Fin m → Matrix (Fin (dx + dy)) (Fin (dx + dy)) ℝ) (hpos : ∀ j, (cov j).PosDef) :
    ∃ (J : Fin m → JointDistribution Key) (M : JointDistribution Key) (P : Measure ((Fin dx → ℝ) × (Fin dy → ℝ))),
      P = mixtureLaw p (fun j => (normalLaw (mean j) (cov j)).map fun z =>
        (fun i => z (Fin.castAdd dy i), fun i => z (Fin.natAdd dx i))) ∧ (∀ j, multivariateNormalDistribution R T dx dy (rowsOf (cov j)) (some (List.ofFn (mean j))) = .ok (J j)) ∧
      mixture T (List.ofFn p) (List.ofFn J) = .ok M ∧ Consistent κ M Set.univ Set.univ P ∧ mutualInfo P ≠ ⊤ ∧
      ∀ n : ℕ, 0 < n → ∃ v e : Key → ℝ, (∀ᵐ k ∂κ, monteCarloMiEstimate k M n = .ok ((v k : EReal), e k)) ∧
        ∫ k, v k ∂κ = (mutualInfo P).toReal ∧ 
        Var[v; κ] = Var[fun z => (M.pmiAt (List.ofFn z.1) (List.ofFn z.2)).toReal; P] / n ∧
        ∫ k, e k ^ 2 ∂κ = (n - 1) / n * Var[v; κ] ∧
        ∀ ε : ℝ, 0 < ε → κ {k | ε ≤ |v k - (mutualInfo P).toReal|} 
          ≤ ENNReal.ofReal (Var[fun z => (M.pmiAt (List.ofFn z.1) (List.ofFn z.2)).toReal; P] / n / ε ^ 2) := by
  choose J hJ _ hC using fun j => multivariateNormal_consistent hT R dx dy hx hy (mean j) (cov j) (hpos j)
  obtain ⟨M, hM, -, hMC⟩ := mixture_consistent hT p h0 h1 J _ hC
  haveI := hMC.prob
  have ht := (tame_mixture T h0 h1 (fun j => tame_normal hT R dx dy (mean j) (cov j) (hpos j) (hJ j)) hM).memLp
    (pmi_density hMC).2.2.1
  have hne := (pmi_density hMC).2.2.2.1.2 (ht.integrable one_le_two)
  refine ⟨J, M, _, rfl, hJ, hM, hMC, hne, fun n hn => ?_⟩
  obtain ⟨v, e, g1, g2, g3⟩ := monteCarlo_estimate hMC n hn
  obtain ⟨g4, g5, g6⟩ := g3 ht
  exact ⟨v, e, g1, (g2 hne).2, g4, g5, g6⟩

example (R : JaxRandom PathKey) : ∃ (J : Fin 2 → _) (M : _), mixture path (List.ofFn ![0.3, 0.7]) (List.ofFn J) = .ok M ∧
    ∀ j, multivariateNormalDistribution R path (1 : ℕ) (1 : ℕ) (rowsOf (bivariateCov 0.5 1 1)) (some (List.ofFn ![1, 2]))
      = .ok (J j) := by
  obtain ⟨J, M, -, -, h1, h2, -⟩ := gaussianMixture_estimate path_ideal R ![0.3, 0.7] (fun j => by fin_cases j <;> norm_num)
    (by norm_num [Fin.sum_univ_two]) 1 1 one_pos one_pos (fun _ => ![1, 2]) (fun _ => bivariateCov 0.5 1 1)
    (fun _ => bivariateCov_posDef _ _ _ one_pos one_pos (by norm_num) (by norm_num))
  exact ⟨J, M, h2, h1⟩

end gaussian

end BMI.Bmm
