import Verif.Spec.ChiCheck
import Verif.Props.PmiProfile
import Verif.Props.Integration

/-!
Property C80: the script which validates the profile of normal distributions
(/repo/scripts/Mixtures/validate_chi2_combination.py).
-/

namespace BMI.ChiCheck

open MeasureTheory ProbabilityTheory BMI.Samplers BMI.Student BMI.Bmm BMI.MatrixUtils Matrix

variable {Key : Type} [MeasurableSpace Key] {T : Tfp Key} {κ : Measure Key}

theorem combinationLaw_eq (mi : ℝ) (rho : List ℝ) : combinationLaw mi rho = chiCombination mi rho.get := by
  unfold combinationLaw chiCombination
  have e : ∀ d, (Measure.pi fun _ : Fin d => gaussianReal 0 1) = stdNormal d := fun d => rfl
  rw [e]
  congr 1
  funext w
  congr 1
  refine Finset.sum_congr rfl fun i _ => ?_
  simp only [List.get_eq_getElem, Fin.getElem_fin]
  ring

/-! ### The loop -/

theorem combine_spec {m n : ℕ} (len : ℕ) (g : ℕ → Fin n → ℝ) (hm : 2 * len ≤ m) : ∀ (rs : List ℝ) (i : ℕ) (acc : Fin n → ℝ),
    i + rs.length ≤ len → combine len (fun a : Fin m => g a) rs i acc =
      .ok fun s => acc s + ∑ j ∈ Finset.range rs.length, 1 / 2 * rs.getD j 0 * (g (i + j) s - g (i + j + len) s)
  | [], i, acc, _ => by simp [combine]
  | r :: rs, i, acc, h => by
    simp only [List.length_cons] at h
    unfold combine
    rw [dif_pos (by omega), combine_spec len g hm rs (i + 1) _ (by omega)]
    congr 1
    funext s
    rw [List.length_cons, Finset.sum_range_succ']
    simp only [List.getD_cons_succ, List.getD_cons_zero, Nat.add_zero]
    have : ∀ j, i + 1 + j = i + (j + 1) := fun j => by omega
    simp only [this]
    norm_num
    ring

/-- The numbers of the second histogram. -/
theorem combine_all {n : ℕ} (rho : List ℝ) (chi2 : Fin (2 * rho.length) → Fin n → ℝ) (mi : ℝ) :
    combine rho.length chi2 rho 0 (fun _ => mi) = .ok fun s => mi + ∑ i : Fin rho.length, 1 / 2 * rho.get i *
      (chi2 ⟨i, by omega⟩ s - chi2 ⟨i + rho.length, by omega⟩ s) := by
  set g : ℕ → Fin n → ℝ := fun a s => if h : a < 2 * rho.length then chi2 ⟨a, h⟩ s else 0 with hg
  have e : chi2 = fun a : Fin (2 * rho.length) => g a := by
    funext a s
    simp [hg]
  conv_lhs => rw [e]
  rw [combine_spec rho.length g le_rfl rho 0 _ (by omega)]
  congr 1
  funext s
  rw [Finset.sum_range]
  congr 1
  refine Finset.sum_congr rfl fun i _ => ?_
  have h1 : (i : ℕ) < 2 * rho.length := by omega
  have h2 : (i : ℕ) + rho.length < 2 * rho.length := by omega
  simp [hg, h1, h2]

theorem chi_memLp {k : ℕ} (mi : ℝ) (ρ : Fin k → ℝ) : MemLp id 2 (chiCombination mi ρ) := by
  have h4 : MemLp (fun t : ℝ => t ^ 2) 2 (gaussianReal 0 1) := by
    rw [memLp_two_iff_integrable_sq (by fun_prop)]
    have := (memLp_id_gaussianReal (μ := 0) (v := 1) 4).integrable_norm_pow (by norm_num)
    refine (this.congr ?_)
    filter_upwards with t
    simp only [id, Real.norm_eq_abs]
    have : ((4 : NNReal) : ℝ) = 4 := rfl
    rw [← pow_mul]
    exact Even.pow_abs (by decide) t
  have h5 : ∀ i : Fin k, MemLp (fun z : Fin k → ℝ => z i ^ 2) 2 (stdNormal k) := fun i =>
    h4.comp_measurePreserving (measurePreserving_eval (fun _ : Fin k => gaussianReal 0 1) i)
  unfold chiCombination
  rw [memLp_map_measure_iff (by fun_prop) (measurable_chi mi ρ).aemeasurable]
  refine (memLp_const mi).add (memLp_finset_sum _ fun i _ => ?_)
  exact (((h5 i).comp_fst _).sub ((h5 i).comp_snd _)).const_mul _

/-- The law of the second histogram. -/
theorem chi_draws {k n : ℕ} (mi : ℝ) (ρ : Fin k → ℝ) :
    (Measure.pi fun _ : Fin (2 * k) => Measure.pi fun _ : Fin n => gaussianReal 0 1).map
      (fun z s => mi + ∑ i : Fin k, 1 / 2 * ρ i * (z ⟨i, by omega⟩ s ^ 2 - z ⟨i + k, by omega⟩ s ^ 2)) =
      Measure.pi fun _ : Fin n => chiCombination mi ρ := by
  have h1 := pi_swap (n := n) fun _ : Fin (2 * k) => gaussianReal 0 1
  set f : (Fin (2 * k) → ℝ) → ℝ := fun z => mi + ∑ i : Fin k, 1 / 2 * ρ i * (z ⟨i, by omega⟩ ^ 2 - z ⟨i + k, by omega⟩ ^ 2) with hf
  have hfm : Measurable f := by fun_prop
  have h2 : (Measure.pi fun _ : Fin (2 * k) => gaussianReal 0 1).map f = chiCombination mi ρ := by
    have hk : 2 * k = k + k := by omega
    unfold chiCombination
    rw [← stdNormal_split, Measure.map_map (measurable_chi mi ρ) (measurable_parts k k)]
    have e : (stdNormal (k + k)) = (Measure.pi fun _ : Fin (2 * k) => gaussianReal 0 1).map
        (fun z i => z (Fin.cast hk.symm i)) := by
      have := (measurePreserving_piCongrLeft (fun _ : Fin (k + k) => gaussianReal 0 1) (finCongr hk)).map_eq
      unfold stdNormal
      rw [← this]
      congr 1
    rw [e, Measure.map_map ((measurable_chi mi ρ).comp (measurable_parts k k)) (by fun_prop)]
    congr 1
    funext z
    simp only [hf, Function.comp, parts]
    congr 1
    refine Finset.sum_congr rfl fun i _ => ?_
    congr 5
    simp [add_comm]
  have hg : Measurable fun (z : Fin n → Fin (2 * k) → ℝ) s => f (z s) := by fun_prop
  rw [← h2, ← Measure.pi_map_pi fun _ => hfm.aemeasurable, ← h1, Measure.map_map hg (by fun_prop)]
  rfl

/-! ### The two formulas -/

theorem npLog_mapM (rho : List ℝ) : (∀ r ∈ rho, |r| < 1) →
    (rho.mapM fun r : ℝ => npLog (1 - r ^ 2)) = some (rho.map fun r => Real.log (1 - r ^ 2)) := by
  induction rho with
  | nil => simp
  | cons r rs ih =>
    intro h
    have hr : 0 < 1 - r ^ 2 := by
      have := (sq_lt_one_iff_abs_lt_one r).2 (h r (by simp))
      linarith
    rw [List.mapM_cons, ih fun x hx => h x (by simp [hx])]
    simp [npLog, hr]

theorem npLog_mapM_none (rho : List ℝ) {r : ℝ} (hr : r ∈ rho) (h : 1 ≤ |r|) : (rho.mapM fun r : ℝ => npLog (1 - r ^ 2)) = none := by
  induction rho with
  | nil => cases hr
  | cons x rs ih =>
    rw [List.mapM_cons]
    rcases List.mem_cons.1 hr with rfl | hr
    · have : ¬ 0 < 1 - r ^ 2 := by
        have := (one_le_sq_iff_one_le_abs r).2 h
        linarith
      simp [npLog, this]
    · rw [ih hr]
      cases npLog (1 - x ^ 2) <;> rfl

theorem sum_get (rho : List ℝ) (f : ℝ → ℝ) : ∑ i, f (rho.get i) = (rho.map f).sum := by
  have : rho.map f = List.ofFn fun i => f (rho.get i) := by
    conv_lhs => rw [← List.ofFn_get rho, List.map_ofFn]
    rfl
  rw [this, List.sum_ofFn]

theorem miRho_eq (rho : List ℝ) (h : ∀ r ∈ rho, |r| < 1) : miRho rho = some (-(1 / 2) * (rho.map fun r => Real.log (1 - r ^ 2)).sum) := by
  unfold miRho
  rw [npLog_mapM rho h]
  norm_num

theorem miDet_eq (R : JaxRandom Key) {dx dy : ℕ} {ρ : Fin dx → ℝ} {m : Matrix (Fin (dx + dy)) (Fin (dx + dy)) ℝ} (hx : 0 < dx)
    (hd : dx ≤ dy) (h : IsCanonical ρ m) (hρ : ∀ i, |ρ i| < 1) : miDet m = some (-(1 / 2) * ∑ i, Real.log (1 - ρ i ^ 2)) := by
  have hpos := (canonical_posDef_iff h hd).2 hρ
  obtain ⟨s, h1, h2⟩ := canonical_number R hx hd h hρ 0
  obtain ⟨s', h1', h2'⟩ := splitMultinormal_number R dx dy hx (by omega) 0 m hpos
  obtain rfl : s = s' := Except.ok.inj (h1.symm.trans h1')
  have dX := (blockX_posDef (dx := dx) (dy := dy) hpos).det_pos
  have dY := (blockY_posDef (dx := dx) (dy := dy) hpos).det_pos
  have d := hpos.det_pos
  unfold miDet npLog
  rw [if_neg d.ne', if_pos (by positivity), Option.map_some, ← h2, h2', Real.log_div (by positivity) d.ne', Real.log_mul dX.ne' dY.ne']
  congr 1
  norm_num
  ring

/-! ### The panels -/

/-- The panel in terms of the standard normal numbers behind it. -/
theorem plotSamples_eq (hT : IdealTfp T κ) (rho : List ℝ) (hne : rho ≠ []) (hρ : ∀ r ∈ rho, |r| < 1) (a : ℕ) :
    ∃ (mi : ℝ) (profile : Key → Fin nSamples → ℝ), mi = -(1 / 2) * (rho.map fun r => Real.log (1 - r ^ 2)).sum ∧ Measurable profile ∧
      κ.map profile = (Measure.pi fun _ => combinationLaw mi rho) ∧ ∀ R : JaxRandom Key,
      plotSamples R T rho a = .ok
        { bins := linspace (-2) 4 21
          profile := List.ofFn (profile (T.split (R.prngKey 21) 3 1))
          chi2Profile := List.ofFn fun s => mi + ∑ i : Fin rho.length, 1 / 2 * rho.get i *
            (T.normal (T.split (R.prngKey 21) 3 2) (2 * rho.length) nSamples ⟨i, by omega⟩ s ^ 2 -
              T.normal (T.split (R.prngKey 21) 3 2) (2 * rho.length) nSamples ⟨i + rho.length, by omega⟩ s ^ 2)
          varAnalytic := (rho.map (· ^ 2)).sum
          varEmpirical := variance (List.ofFn (profile (T.split (R.prngKey 21) 3 1)))
          line := mi
          span := (mi - √(rho.map (· ^ 2)).sum, mi + √(rho.map (· ^ 2)).sum) } := by
  by_cases hR : Nonempty (JaxRandom Key)
  swap
  · haveI := hT.prob
    obtain ⟨k⟩ : Nonempty Key := κ.nonempty_of_neZero
    exact absurd ⟨⟨fun _ => k, fun _ _ _ => k, fun _ _ _ _ _ _ _ => 0, fun _ _ _ _ _ _ _ => 0, fun _ _ _ _ _ => 0,
      fun _ _ _ _ _ _ => true, fun _ _ _ _ _ _ => 0, fun _ _ _ _ _ _ _ => 0⟩⟩ hR
  obtain ⟨R₀⟩ := hR
  obtain ⟨m, J, h1, h2, mi, law, h3, -, h4, -, -, -, h5⟩ := script_profile hT R₀ rho hne hρ a
  obtain ⟨m', h1', hm⟩ := canonicalCorrelation_spec rho a (by positivity)
  obtain rfl : m = m' := Except.ok.inj (h1.symm.trans h1')
  obtain ⟨profile, p1, p2, p3⟩ := h5 nSamples (by norm_num [nSamples])
  have hd : rho.length ≤ ((rho.length : ℤ) + a).toNat := by omega
  have hmi := miDet_eq R₀ (List.length_pos_iff.2 hne) hd hm fun i => hρ _ (List.get_mem rho i)
  rw [sum_get rho fun r => Real.log (1 - r ^ 2), ← h3] at hmi
  refine ⟨mi, profile, h3, p2, by rw [p3, combinationLaw_eq, h4], fun R => ?_⟩
  unfold plotSamples
  rw [h1]
  simp only [bind, Except.bind]
  rw [hmi, miRho_eq rho hρ, ← h3]
  dsimp only
  rw [if_pos (by norm_num), Integration.normal_indep R R₀, h2]
  dsimp only
  rw [p1]
  dsimp only
  rw [combine_all]
  dsimp only
  simp only [List.map_ofFn, Function.comp_def, EReal.toReal_coe]

/-- C80: for correlations between `-1` and `1` the assertion holds, and the panel shows the profile of the pointwise mutual information
next to an independent sample of the same law, the combination of `χ²` laws; the line is at the mutual information of the normal
law, `-½ ∑ log (1 - ρ²)`, and the variance is `∑ ρ²`. -/
theorem plotSamples_spec (hT : IdealTfp T κ) (rho : List ℝ) (hne : rho ≠ []) (hρ : ∀ r ∈ rho, |r| < 1) (a : ℕ) :
    ∃ mi : ℝ, mi = -(1 / 2) * (rho.map fun r => Real.log (1 - r ^ 2)).sum ∧
      ∫ t, t ∂combinationLaw mi rho = mi ∧ Var[id; combinationLaw mi rho] = (rho.map (· ^ 2)).sum ∧
      ShowsLaw 20000 κ (fun R => plotSamples R T rho a) (combinationLaw mi rho) := by
  obtain ⟨mi, profile, h1, h2, h3, h4⟩ := plotSamples_eq hT rho hne hρ a
  haveI := hT.prob
  have hm : ∫ t, t ∂combinationLaw mi rho = mi ∧ Var[id; combinationLaw mi rho] = (rho.map (· ^ 2)).sum := by
    have hb := bilinearLaw_diagonal (dy := rho.length) mi rho.get le_rfl
    obtain ⟨g1, g2⟩ := bilinearLaw_moments mi (cross rho.length rho.get)
    rw [hb] at g1 g2
    rw [combinationLaw_eq]
    refine ⟨g1, g2.trans ?_⟩
    rw [← sum_get rho fun r => r ^ 2]
    refine Finset.sum_congr rfl fun i _ => ?_
    rw [Finset.sum_eq_single i]
    · simp [cross]
    · intro j _ hj
      have hij : ¬ (i : ℕ) = j := fun h => hj (Fin.ext h.symm)
      simp [cross, hij]
    · simp
  have hfin : MemLp id 2 (combinationLaw mi rho) := by
    rw [combinationLaw_eq]
    exact chi_memLp mi rho.get
  haveI : IsProbabilityMeasure (combinationLaw mi rho) := by
    rw [combinationLaw_eq]
    exact Measure.isProbabilityMeasure_map (measurable_chi mi rho.get).aemeasurable
  refine ⟨mi, h1, hm.1, hm.2, ?_⟩
  suffices ShowsLaw nSamples κ (fun R => plotSamples R T rho a) (combinationLaw mi rho) by
    rwa [show nSamples = 20000 from rfl] at this
  refine ⟨hfin, ?_⟩
  set chi : Key → Fin nSamples → ℝ := fun k s => mi + ∑ i : Fin rho.length, 1 / 2 * rho.get i *
    (T.normal k (2 * rho.length) nSamples ⟨i, by omega⟩ s ^ 2 -
      T.normal k (2 * rho.length) nSamples ⟨i + rho.length, by omega⟩ s ^ 2) with hchi
  obtain ⟨n1, n2⟩ := hT.normal (2 * rho.length) nSamples
  have hc0 : Measurable fun (z : Fin (2 * rho.length) → Fin nSamples → ℝ) s => mi + ∑ i : Fin rho.length, 1 / 2 * rho.get i *
    (z ⟨i, by omega⟩ s ^ 2 - z ⟨i + rho.length, by omega⟩ s ^ 2) := by fun_prop
  have hcm : Measurable chi := hc0.comp n1
  have hcl : κ.map chi = Measure.pi fun _ => combinationLaw mi rho := by
    rw [combinationLaw_eq, ← chi_draws mi rho.get, ← n2, Measure.map_map hc0 n1]
    rfl
  obtain ⟨s1, s2⟩ := hT.split 3
  have hpair : Measurable fun ks : Fin 3 → Key => (profile (ks 1), chi (ks 2)) := by fun_prop
  have hlaw : κ.map (fun k => (profile (T.split k 3 1), chi (T.split k 3 2))) =
      (Measure.pi fun _ => combinationLaw mi rho).prod (Measure.pi fun _ => combinationLaw mi rho) := by
    have : κ.map (fun k => (profile (T.split k 3 1), chi (T.split k 3 2))) = (κ.map fun k => T.split k 3).map
        fun ks : Fin 3 → Key => (profile (ks 1), chi (ks 2)) := by
      rw [Measure.map_map hpair s1]
      rfl
    have hind : (Measure.pi fun _ : Fin 3 => κ).map (fun ks => (ks 1, ks 2)) = κ.prod κ := by
      have hi := (iIndepFun_pi (μ := fun _ : Fin 3 => κ) (X := fun _ => id) fun _ => aemeasurable_id).indepFun
        (show (1 : Fin 3) ≠ 2 by decide)
      simp only [id] at hi
      rw [indepFun_iff_map_prod_eq_prod_map_map (measurable_pi_apply 1).aemeasurable (measurable_pi_apply 2).aemeasurable] at hi
      rw [hi, (measurePreserving_eval (fun _ : Fin 3 => κ) 1).map_eq, (measurePreserving_eval (fun _ : Fin 3 => κ) 2).map_eq]
    have he : (fun ks : Fin 3 → Key => (profile (ks 1), chi (ks 2))) = Prod.map profile chi ∘ fun ks => (ks 1, ks 2) := rfl
    rw [this, s2, he, ← Measure.map_map (by fun_prop) (by fun_prop), hind, ← Measure.map_prod_map _ _ h2 hcm, h3, hcl]
  obtain ⟨v1, v2⟩ := empirical_variance_draws (combinationLaw mi rho) hfin nSamples (by norm_num [nSamples])
  refine ⟨fun k => (profile (T.split k 3 1), chi (T.split k 3 2)), hpair.comp s1, hlaw, _, v1, v2, fun R =>
    ⟨_, h4 R, ?_, ?_, ?_, ?_, ?_, ?_, ?_⟩⟩
  · dsimp only
  · dsimp only [hchi]
  · dsimp only
    exact hm.2.symm
  · unfold variance
    simp only [List.map_ofFn, List.sum_ofFn, List.length_ofFn, Function.comp_def, id]
  · dsimp only
    exact hm.1.symm
  · rw [hm.1, hm.2]
  · dsimp only
    unfold linspace
    rw [List.ofFn_eq_map, ← List.map_coe_finRange_eq_range, List.map_map]
    refine List.map_congr_left fun i _ => ?_
    simp only [Function.comp]
    push_cast
    norm_num
    ring

/-- C80: the line is at the mutual information of the normal law whose profile is shown. -/
theorem line_is_information (R : JaxRandom Key) {κ : Measure Key} (hT : IdealTfp T κ) (rho : List ℝ) (hne : rho ≠ [])
    (hρ : ∀ r ∈ rho, |r| < 1) (a : ℕ) : ∃ m p, canonicalCorrelation rho a = .ok m ∧ plotSamples R T rho a = .ok p ∧ 0 ≤ p.line ∧
      mutualInfo (splitNormal rho.length ((rho.length : ℤ) + a).toNat 0 m) = ENNReal.ofReal p.line := by
  obtain ⟨mi, profile, h1, -, -, h4⟩ := plotSamples_eq hT rho hne hρ a
  obtain ⟨m, h5, h6⟩ := canonicalCorrelation_spec rho a (by positivity)
  have hd : rho.length ≤ ((rho.length : ℤ) + a).toNat := by omega
  have hx := List.length_pos_iff.2 hne
  have hρ' : ∀ i, |rho.get i| < 1 := fun i => hρ _ (List.get_mem rho i)
  have hpos := (canonical_posDef_iff h6 hd).2 hρ'
  obtain ⟨s, g1, g2⟩ := canonical_number R hx hd h6 hρ' 0
  obtain ⟨s', g1', g2'⟩ := splitMultinormal_number R _ _ hx (by omega) 0 m hpos
  obtain rfl : s = s' := Except.ok.inj (g1.symm.trans g1')
  obtain ⟨i1, i2⟩ := splitNormal_mi (0 : Fin (rho.length + ((rho.length : ℤ) + a).toNat) → ℝ) hpos
  rw [← g2', g2, sum_get rho fun r => Real.log (1 - r ^ 2), ← h1] at i1 i2
  exact ⟨m, _, h5, h4 R, i2, i1⟩

/-- C80: with a correlation outside of `(-1, 1)` the assertion fails. -/
theorem plotSamples_rejects (R : JaxRandom Key) (T : Tfp Key) (rho : List ℝ) {r : ℝ} (hr : r ∈ rho) (h : 1 ≤ |r|) (a : ℕ) :
    plotSamples R T rho a = .error .assertionError := by
  obtain ⟨m, h1, -⟩ := canonicalCorrelation_spec rho a (by positivity)
  have h2 : miRho rho = none := by
    unfold miRho
    rw [npLog_mapM_none rho hr h]
    rfl
  unfold plotSamples
  rw [h1]
  simp only [bind, Except.bind]
  rw [h2]
  cases miDet m <;> rfl

/-- C80: the four panels.  The profiles in the lower row have the same law, and their second histograms show the very same numbers. -/
theorem main_spec (hT : IdealTfp T κ) : ∃ law₀ law₁ law₂ : Measure ℝ,
    (∫ t, t ∂law₀ = -(1 / 2) * (Real.log 0.36 + Real.log 0.75) ∧ Var[id; law₀] = 0.89) ∧
    (∫ t, t ∂law₁ = -(3 / 2) * Real.log 0.51 ∧ Var[id; law₁] = 1.47) ∧
    (∫ t, t ∂law₂ = -(1 / 2) * Real.log 0.75 ∧ Var[id; law₂] = 0.25) ∧
    ∃ p : Fin 4 → JaxRandom Key → Panel, (∀ R, main R T = .ok (List.ofFn fun i => p i R)) ∧
      ShowsLaw 20000 κ (fun R => .ok (p 0 R)) law₀ ∧ ShowsLaw 20000 κ (fun R => .ok (p 1 R)) law₁ ∧ ShowsLaw 20000 κ (fun R => .ok (p 2 R)) law₂ ∧
      ShowsLaw 20000 κ (fun R => .ok (p 3 R)) law₂ ∧ ∀ R, (p 2 R).chi2Profile = (p 3 R).chi2Profile := by
  have b0 : ∀ r ∈ [(0.8 : ℝ), 0.5], |r| < 1 := by
    intro r hr
    simp only [List.mem_cons, List.not_mem_nil, or_false] at hr
    rcases hr with rfl | rfl <;> norm_num [abs_lt]
  have b1 : ∀ r ∈ [(0.7 : ℝ), 0.7, 0.7], |r| < 1 := by
    intro r hr
    simp only [List.mem_cons, List.not_mem_nil, or_false] at hr
    rcases hr with rfl | rfl | rfl <;> norm_num [abs_lt]
  have b2 : ∀ r ∈ [(0.5 : ℝ), 0.0, 0.0], |r| < 1 := by
    intro r hr
    simp only [List.mem_cons, List.not_mem_nil, or_false] at hr
    rcases hr with rfl | rfl | rfl <;> norm_num [abs_lt]
  obtain ⟨m0, e0, f0, g0, s0⟩ := plotSamples_spec hT [0.8, 0.5] (by simp) b0 0
  obtain ⟨m1, e1, f1, g1, s1⟩ := plotSamples_spec hT [0.7, 0.7, 0.7] (by simp) b1 0
  obtain ⟨m2, e2, f2, g2, s2⟩ := plotSamples_spec hT [0.5, 0.0, 0.0] (by simp) b2 1
  obtain ⟨m3, e3, f3, g3, s3⟩ := plotSamples_spec hT [0.5, 0.0, 0.0] (by simp) b2 3
  have h23 : m3 = m2 := e3.trans e2.symm
  have q0 : ∀ R, ∃ p, plotSamples R T [0.8, 0.5] 0 = .ok p := fun R =>
    let ⟨_, _, _, _, _, _, h⟩ := s0.draws; let ⟨p, hp, _⟩ := h R; ⟨p, hp⟩
  have q1 : ∀ R, ∃ p, plotSamples R T [0.7, 0.7, 0.7] 0 = .ok p := fun R =>
    let ⟨_, _, _, _, _, _, h⟩ := s1.draws; let ⟨p, hp, _⟩ := h R; ⟨p, hp⟩
  have q2 : ∀ R, ∃ p, plotSamples R T [0.5, 0.0, 0.0] 1 = .ok p := fun R =>
    let ⟨_, _, _, _, _, _, h⟩ := s2.draws; let ⟨p, hp, _⟩ := h R; ⟨p, hp⟩
  have q3 : ∀ R, ∃ p, plotSamples R T [0.5, 0.0, 0.0] 3 = .ok p := fun R =>
    let ⟨_, _, _, _, _, _, h⟩ := s3.draws; let ⟨p, hp, _⟩ := h R; ⟨p, hp⟩
  choose p0 hp0 using q0
  choose p1 hp1 using q1
  choose p2 hp2 using q2
  choose p3 hp3 using q3
  have c0 : (fun R => plotSamples R T [0.8, 0.5] ((0 : ℕ) : ℤ)) = fun R => .ok (p0 R) := funext fun R => hp0 R
  have c1 : (fun R => plotSamples R T [0.7, 0.7, 0.7] ((0 : ℕ) : ℤ)) = fun R => .ok (p1 R) := funext fun R => hp1 R
  have c2 : (fun R => plotSamples R T [0.5, 0.0, 0.0] ((1 : ℕ) : ℤ)) = fun R => .ok (p2 R) := funext fun R => hp2 R
  have c3 : (fun R => plotSamples R T [0.5, 0.0, 0.0] ((3 : ℕ) : ℤ)) = fun R => .ok (p3 R) := funext fun R => hp3 R
  rw [c0] at s0
  rw [c1] at s1
  rw [c2] at s2
  rw [c3, h23] at s3
  refine ⟨_, _, _, ⟨f0.trans ?_, g0.trans ?_⟩, ⟨f1.trans ?_, g1.trans ?_⟩, ⟨f2.trans ?_, g2.trans ?_⟩, ![p0, p1, p2, p3], fun R => ?_, s0, s1,
    s2, s3, fun R => ?_⟩
  · rw [e0]; norm_num
  · norm_num
  · rw [e1]; norm_num; ring
  · norm_num
  · rw [e2]; norm_num
  · norm_num
  · unfold main
    rw [hp0, hp1, hp2, hp3]
    rfl
  · obtain ⟨n2, _, i2, -, -, j2⟩ := plotSamples_eq hT [0.5, 0.0, 0.0] (by simp) b2 1
    obtain ⟨n3, _, i3, -, -, j3⟩ := plotSamples_eq hT [0.5, 0.0, 0.0] (by simp) b2 3
    have k2 := Except.ok.inj ((hp2 R).symm.trans (j2 R))
    have k3 := Except.ok.inj ((hp3 R).symm.trans (j3 R))
    show (p2 R).chi2Profile = (p3 R).chi2Profile
    rw [k2, k3, i2, i3]

/-- The hypotheses of the theorems: an ideal generator exists. -/
example : IdealTfp path pathLaw := path_ideal

/-- A correlation of one. -/
example (R : JaxRandom PathKey) : plotSamples R path [0.5, 1] 2 = .error .assertionError :=
  plotSamples_rejects R path [0.5, 1] (r := 1) (by simp) (by simp) 2

end BMI.ChiCheck
