import Verif.Model.Gallery
import Verif.Spec.Gallery
import Verif.Props.ProfilesPlot
import Verif.Props.PmiProfile
import Verif.Props.LVM

/-!
Property C73: profiles of five distributions (/repo/workflows/projects/Mixtures/pmi_profiles.smk).
-/

namespace BMI.Gallery

open MeasureTheory ProbabilityTheory BMI.Samplers BMI.Bmm BMI.Student BMI.MatrixUtils BMI.MixtureTasks BMI.Workflow BMI.Integration
  BMI.Profiles

variable {Key State : Type} [MeasurableSpace Key] {T : Tfp Key} {κ : Measure Key}

/-! ## The sigmoid -/

theorem sigmoid_facts (x : ℝ) : 0 < 1 / (1 + Real.exp (-x)) ∧ 1 - 1 / (1 + Real.exp (-x)) = Real.exp (-x) / (1 + Real.exp (-x)) ∧
    0 < Real.exp (-x) / (1 + Real.exp (-x)) ∧
    Real.log (1 / (1 + Real.exp (-x))) - Real.log (1 - 1 / (1 + Real.exp (-x))) = x := by
  have h := Real.exp_pos (-x)
  have h1 : 1 - 1 / (1 + Real.exp (-x)) = Real.exp (-x) / (1 + Real.exp (-x)) := by
    field_simp
    ring
  refine ⟨by positivity, h1, by positivity, ?_⟩
  rw [h1, Real.log_div one_ne_zero (by positivity), Real.log_div h.ne' (by positivity), Real.log_exp, Real.log_one]
  ring

theorem sigmoid_undoes (r : List ℝ) : Undoes sigmoid r := by
  refine ⟨by simp [sigmoid], ?_⟩
  simp only [sigmoid, List.map_map]
  conv_rhs => rw [← List.map_id r]
  exact List.map_congr_left fun x _ => (sigmoid_facts x).2.2.2

/-- **C73**: the bijector is the sigmoid function of every coordinate, with the right Jacobian determinant. -/
theorem sigmoid_diffeo {d : ℕ} : Diffeo sigmoid Set.univ (fun v : Fin d → ℝ => fun i => 1 / (1 + Real.exp (-v i)))
    fun v => ContinuousLinearMap.pi fun i => (Real.exp (-v i) / (1 + Real.exp (-v i)) ^ 2) • ContinuousLinearMap.proj i := by
  have hdet : ∀ v : Fin d → ℝ, (ContinuousLinearMap.pi fun i => (Real.exp (-v i) / (1 + Real.exp (-v i)) ^ 2) •
      ContinuousLinearMap.proj i : (Fin d → ℝ) →L[ℝ] Fin d → ℝ).det = ∏ i, Real.exp (-v i) / (1 + Real.exp (-v i)) ^ 2 := by
    intro v
    rw [← Matrix.det_diagonal, ← LinearMap.det_toLin']
    unfold ContinuousLinearMap.det
    congr 1
    refine LinearMap.ext fun w => funext fun i => ?_
    simp [Matrix.mulVec_diagonal]
  have hpos : ∀ x : ℝ, 0 < Real.exp (-x) / (1 + Real.exp (-x)) ^ 2 := fun x => by positivity
  refine ⟨?_, fun v => ?_, fun v _ => ?_, fun v _ => ?_, fun v _ => ?_, fun v _ => ?_⟩
  · fun_prop
  · show (List.ofFn v).map _ = _
    rw [List.map_ofFn]
    rfl
  · show (List.ofFn _).map _ = _
    rw [List.map_ofFn]
    congr 1
    funext i
    exact (sigmoid_facts (v i)).2.2.2
  · refine (hasFDerivAt_pi.2 fun i => ?_).hasFDerivWithinAt
    have h1 : HasDerivAt (fun x : ℝ => 1 / (1 + Real.exp (-x))) (Real.exp (-v i) / (1 + Real.exp (-v i)) ^ 2) (v i) := by
      have h2 : HasDerivAt (fun x : ℝ => 1 + Real.exp (-x)) (-Real.exp (-v i)) (v i) := by
        have := ((hasDerivAt_neg (v i)).exp).const_add 1
        simpa using this
      have h3 := h2.inv (by positivity)
      simp only [one_div]
      rw [neg_neg] at h3
      exact h3
    exact HasDerivAt.comp_hasFDerivAt (h₂ := fun x : ℝ => 1 / (1 + Real.exp (-x))) (f := fun w : Fin d → ℝ => w i) v h1
      (ContinuousLinearMap.proj (R := ℝ) (φ := fun _ : Fin d => ℝ) i).hasFDerivAt
  · rw [hdet]
    exact Finset.prod_ne_zero_iff.2 fun i _ => (hpos (v i)).ne'
  · rw [hdet, abs_of_pos (Finset.prod_pos fun i _ => hpos (v i)), Real.log_prod fun i _ => (hpos (v i)).ne']
    show ((List.ofFn _).map _).sum = _
    rw [List.map_ofFn, List.sum_ofFn, ← Finset.sum_neg_distrib]
    refine Finset.sum_congr rfl fun i _ => ?_
    obtain ⟨s1, s2, s3, -⟩ := sigmoid_facts (v i)
    have h := Real.exp_pos (-v i)
    simp only [Function.comp]
    rw [s2, ← neg_add', ← Real.log_mul s1.ne' s3.ne']
    congr 2
    field_simp

example : (sigmoid.forward [0], sigmoid.inverse [1 / 2]) = ([1 / 2], [0]) := by
  norm_num [sigmoid]

/-! ## The covariance -/

/-- **C73**: the covariance of the normal and the dispersion of the Student distribution. -/
theorem dispersion_eq : dispersion = .ok (rowsOf pairMatrix) := by
  have hm : sparseLVM 2 3 1 0.0 1.0 1.0 none = .ok ⟨2, 3, 1, 0, 1.0, 1.0, 1.0, 0.0, 0.0, 1.0, 1.0⟩ := by
    unfold sparseLVM gaussianLVM
    rw [if_neg (by norm_num)]
    rfl
  obtain ⟨c, hc, hxx, hyy, hxy, hyx⟩ := covariance_entries ⟨2, 3, 1, 0, 1.0, 1.0, 1.0, 0.0, 0.0, 1.0, 1.0⟩ (by norm_num) (by norm_num)
  have e : c = pairMatrix := by
    ext p q
    induction p using Fin.addCases with
    | left i =>
      induction q using Fin.addCases with
      | left j =>
        rw [hxx i j]
        fin_cases i <;> fin_cases j <;> norm_num <;> simp [pairMatrix] <;> rfl
      | right j =>
        rw [hxy i j]
        fin_cases i <;> fin_cases j <;> norm_num <;> simp [pairMatrix] <;> rfl
    | right i =>
      induction q using Fin.addCases with
      | left j =>
        rw [hyx j i]
        fin_cases i <;> fin_cases j <;> norm_num <;> simp [pairMatrix] <;> rfl
      | right j =>
        rw [hyy i j]
        fin_cases i <;> fin_cases j <;> norm_num <;> simp [pairMatrix] <;> rfl
  unfold dispersion
  rw [hm]
  simp only [bind, Except.bind, hc, e]

example : pairMatrix 0 2 = 1 ∧ pairMatrix 1 3 = 0 ∧ pairMatrix 4 4 = 2 := by simp [pairMatrix]

theorem pairMatrix_posDef : pairMatrix.PosDef := by
  refine Matrix.PosDef.of_dotProduct_mulVec_pos ?_ fun v hv => ?_
  · ext i j
    fin_cases i <;> fin_cases j <;> simp [pairMatrix]
  · have e : star v ⬝ᵥ (Matrix.mulVec pairMatrix v) = v 0 ^ 2 + (v 0 + v 2) ^ 2 + v 2 ^ 2 + 2 * v 1 ^ 2 + 2 * v 3 ^ 2 + 2 * v 4 ^ 2 := by
      simp [pairMatrix, dotProduct, Matrix.mulVec, Fin.sum_univ_five]
      ring
    rw [e]
    by_contra h
    refine hv ?_
    have h0 : v 0 ^ 2 = 0 := by nlinarith [sq_nonneg (v 0), sq_nonneg (v 0 + v 2), sq_nonneg (v 2), sq_nonneg (v 1), sq_nonneg (v 3), sq_nonneg (v 4)]
    have h1 : v 1 ^ 2 = 0 := by nlinarith [sq_nonneg (v 0), sq_nonneg (v 0 + v 2), sq_nonneg (v 2), sq_nonneg (v 1), sq_nonneg (v 3), sq_nonneg (v 4)]
    have h2 : v 2 ^ 2 = 0 := by nlinarith [sq_nonneg (v 0), sq_nonneg (v 0 + v 2), sq_nonneg (v 2), sq_nonneg (v 1), sq_nonneg (v 3), sq_nonneg (v 4)]
    have h3 : v 3 ^ 2 = 0 := by nlinarith [sq_nonneg (v 0), sq_nonneg (v 0 + v 2), sq_nonneg (v 2), sq_nonneg (v 1), sq_nonneg (v 3), sq_nonneg (v 4)]
    have h4 : v 4 ^ 2 = 0 := by nlinarith [sq_nonneg (v 0), sq_nonneg (v 0 + v 2), sq_nonneg (v 2), sq_nonneg (v 1), sq_nonneg (v 3), sq_nonneg (v 4)]
    funext i
    fin_cases i <;> simp_all

theorem pairMatrix_det : pairMatrix.det = 24 ∧ (blockX (dx := 2) (dy := 3) pairMatrix).det = 4 ∧ (blockY (dx := 2) (dy := 3) pairMatrix).det = 8 := by
  have hx : blockX (dx := 2) (dy := 3) pairMatrix = (2 : ℝ) • 1 := by
    ext i j
    fin_cases i <;> fin_cases j <;> simp [blockX, pairMatrix] <;> rfl
  have hy : blockY (dx := 2) (dy := 3) pairMatrix = (2 : ℝ) • 1 := by
    ext i j
    fin_cases i <;> fin_cases j <;> simp [blockY, pairMatrix] <;> rfl
  refine ⟨?_, ?_, ?_⟩
  · have e : pairMatrix = (!![1, 0, 0, 0, 0; 0, 1, 0, 0, 0; 1 / 2, 0, 1, 0, 0; 0, 0, 0, 1, 0; 0, 0, 0, 0, 1] : Matrix (Fin 5) (Fin 5) ℝ)
        * !![2, 0, 1, 0, 0; 0, 2, 0, 0, 0; 0, 0, 3 / 2, 0, 0; 0, 0, 0, 2, 0; 0, 0, 0, 0, 2] := by
      ext i j
      fin_cases i <;> fin_cases j <;> simp [pairMatrix, Matrix.mul_apply, Fin.sum_univ_five] <;> norm_num
    rw [e]
    erw [Matrix.det_mul]
    rw [Matrix.det_of_lowerTriangular, Matrix.det_of_upperTriangular]
    · simp [Fin.prod_univ_five]
      norm_num
    · intro i j h
      fin_cases i <;> fin_cases j <;> first | rfl | exact absurd h (by decide)
    · intro i j h
      fin_cases i <;> fin_cases j <;> first | rfl | exact absurd h (by decide)
  · rw [hx, Matrix.det_smul]
    norm_num
  · rw [hy, Matrix.det_smul]
    norm_num

/-! ## Profiles -/

/-- The profile of a distribution with finite mutual information. -/
theorem profile_of {dx dy : ℕ} {P : Measure ((Fin dx → ℝ) × (Fin dy → ℝ))} {J : JointDistribution Key}
    (hJ : Consistent κ J Set.univ Set.univ P) {r : (Fin dx → ℝ) × (Fin dy → ℝ) → ℝ}
    (hr : ∀ x y, J.pmiAt (List.ofFn x) (List.ofFn y) = (r (x, y) : EReal)) (hfin : mutualInfo P ≠ ⊤) {n : ℕ} (hn : 0 < n) :
    ∃ f : Key → List EReal, (∀ k, pmiProfile k J n = .ok (f k)) ∧ IsProfile κ n P f ∧ MeanIs κ f (mutualInfo P).toReal := by
  haveI := hJ.prob
  obtain ⟨z, hz, hs⟩ := sample_draws hJ n hn
  obtain ⟨h1, -, -, h4, h5⟩ := pmi_density hJ
  have e : (fun w : (Fin dx → ℝ) × (Fin dy → ℝ) => (J.pmiAt (List.ofFn w.1) (List.ofFn w.2)).toReal) = r := by
    funext w
    rw [hr, EReal.toReal_coe]
  rw [e] at h4 h5
  obtain ⟨i1, i2⟩ := mean_draws P (h4.1 hfin) n hn
  refine ⟨fun k => List.ofFn fun i => ((r (z k i) : ℝ) : EReal), fun k => ?_, ⟨r, ?_, z, hz, fun k => rfl⟩,
    fun k => (∑ i, r (z k i)) / n, fun k => Neural.mean_ofFn _, hz.integrable_comp_of_integrable i1, ?_⟩
  · have hpmi : J.pmi (rowsOf fun i => (z k i).1) (rowsOf fun i => (z k i).2)
        = .ok (List.ofFn fun i => ((r (z k i) : ℝ) : EReal)) := by
      unfold JointDistribution.pmi
      rw [if_pos (by simp [rowsOf]), rowsOf, rowsOf, zipWith_ofFn]
      simp only [hr]
    unfold pmiProfile
    rw [hs]
    exact hpmi
  · refine h1.trans ?_
    congr 1
    funext w
    rw [hr, EReal.exp_coe]
  · have e := integral_map (μ := κ) hz.measurable.aemeasurable (f := fun w => (∑ i, r (w i)) / n) (by
      rw [hz.map_eq]
      exact i1.1)
    rw [hz.map_eq] at e
    rw [← e, i2, (h5 hfin).1, ENNReal.toReal_ofReal (h5 hfin).2]

/-- **C73**: bending by the sigmoid does not change the profile, whatever the key. -/
theorem bent_profile {dx dy : ℕ} {P : Measure ((Fin dx → ℝ) × (Fin dy → ℝ))} {J : JointDistribution Key}
    (hJ : Consistent κ J Set.univ Set.univ P) (n : ℕ) (k : Key) :
    pmiProfile k (transform J (some sigmoid) (some sigmoid)) n = pmiProfile k J n ∧
    pmiProfile k (transform J (some sigmoid) (some .identity)) n = pmiProfile k J n := by
  obtain ⟨draw, -, hs, -⟩ := hJ.joint.law n
  have hrow : ∀ r ∈ J.distJoint.sample k (n : ℤ).toNat, J.dimX ≤ r.length := by
    intro r hr
    rw [Int.toNat_natCast, hs] at hr
    obtain ⟨i, rfl⟩ := (List.mem_ofFn' _ _).1 hr
    simp [pairList, hJ.dimX]
  exact ⟨(transform_estimate J sigmoid sigmoid k n fun r hr => ⟨hrow r hr, sigmoid_undoes _, sigmoid_undoes _⟩).1,
    (transform_estimate J sigmoid .identity k n fun r hr => ⟨hrow r hr, sigmoid_undoes _, rfl, rfl⟩).1⟩

/-! ## Mutual information -/

theorem weights_nonneg : ∀ j : Fin 3, 0 ≤ (![1 / 10, 2 / 5, 1 / 2] : Fin 3 → ℝ) j := fun j => by fin_cases j <;> norm_num

theorem weights_sum : ∑ j : Fin 3, (![1 / 10, 2 / 5, 1 / 2] : Fin 3 → ℝ) j = 1 := by
  simp [Fin.sum_univ_three]
  norm_num

/-- A round component. -/
theorem ball_facts {s : ℝ} (hs : 0 < s) (m : Fin (2 + 3) → ℝ) : (s • (1 : Matrix (Fin (2 + 3)) (Fin (2 + 3)) ℝ)).PosDef ∧
    mutualInfo (component 2 3 m (s • 1)) = 0 := by
  have e : s • (1 : Matrix (Fin (2 + 3)) (Fin (2 + 3)) ℝ) = Matrix.diagonal fun _ => s := Matrix.smul_one_eq_diagonal s
  rw [e]
  exact ⟨Matrix.PosDef.diagonal fun _ => hs, (splitNormal_diagonal (dx := 2) (dy := 3) m (fun _ => s) fun _ => hs).1⟩

theorem ballsLaw_eq : ballsLaw = mixtureLaw ![1 / 10, 2 / 5, 1 / 2] fun j : Fin 3 =>
    component 2 3 (fun _ => (![0, 1, -1] : Fin 3 → ℝ) j) ((![1, 1, 2] : Fin 3 → ℝ) j • 1) := by
  unfold ballsLaw
  congr 1
  funext j
  fin_cases j
  · show _ = component 2 3 (fun _ => 0) ((1 : ℝ) • 1)
    rw [one_smul]
    rfl
  · show _ = component 2 3 (fun _ => 1) ((1 : ℝ) • 1)
    rw [one_smul]
    rfl
  · rfl

theorem sizes_pos : ∀ j : Fin 3, 0 < (![1, 1, 2] : Fin 3 → ℝ) j := fun j => by fin_cases j <;> norm_num

instance : IsProbabilityMeasure ballsLaw := by
  rw [ballsLaw_eq]
  exact mixtureLaw_prob weights_nonneg (by rw [List.sum_ofFn, weights_sum]) _

theorem ballsLaw_pos : 0 < mutualInfo ballsLaw := by
  rw [pos_iff_ne_zero]
  intro h
  have hz := integral_mul_of_zero (f := fun x : Fin 2 → ℝ => x 0) (g := fun y : Fin 3 → ℝ => y 0) h (by fun_prop) (by fun_prop)
  have hm := fun j : Fin 3 => component_moments (dx := 2) (dy := 3) (fun _ => (![0, 1, -1] : Fin 3 → ℝ) j)
    (ball_facts (sizes_pos j) fun _ => 0).1.posSemidef 0 0
  rw [ballsLaw_eq] at hz
  set A : Fin 3 → Measure ((Fin 2 → ℝ) × (Fin 3 → ℝ)) := fun j =>
    component 2 3 (fun _ => (![0, 1, -1] : Fin 3 → ℝ) j) ((![1, 1, 2] : Fin 3 → ℝ) j • 1) with hA
  rw [(integral_mixture _ weights_nonneg A (fun z => z.1 0 * z.2 0) fun j _ => (hm j).2.2.1).2,
    (integral_mixture _ weights_nonneg A (fun z => z.1 0) fun j _ => (hm j).1.1).2,
    (integral_mixture _ weights_nonneg A (fun z => z.2 0) fun j _ => (hm j).2.1.1).2] at hz
  have k1 : ∀ j, ∫ z, z.1 0 * z.2 0 ∂(A j) = _ := fun j => (hm j).2.2.2
  have k2 : ∀ j, ∫ z, z.1 0 ∂(A j) = _ := fun j => (hm j).1.2
  have k3 : ∀ j, ∫ z, z.2 0 ∂(A j) = _ := fun j => (hm j).2.1.2
  clear_value A
  simp only [k1, k2, k3] at hz
  rw [Fin.sum_univ_three, Fin.sum_univ_three] at hz
  have hoff : (1 : Matrix (Fin (2 + 3)) (Fin (2 + 3)) ℝ) (Fin.castAdd 3 0) (Fin.natAdd 2 0) = 0 := by
    rw [Matrix.one_apply_ne (by decide)]
  simp [Matrix.smul_apply, hoff] at hz
  norm_num at hz

theorem ballsLaw_le : mutualInfo ballsLaw
    ≤ ENNReal.ofReal (Real.negMulLog (1 / 10) + Real.negMulLog (2 / 5) + Real.negMulLog (1 / 2)) := by
  rw [ballsLaw_eq]
  have h0 := fun j : Fin 3 => (ball_facts (sizes_pos j) fun _ => (![0, 1, -1] : Fin 3 → ℝ) j).2
  refine (mutualInfo_mixture_le _ weights_nonneg weights_sum _ fun j _ => by rw [h0 j]; exact ENNReal.zero_ne_top).trans ?_
  simp only [h0]
  rw [Fin.sum_univ_three, Fin.sum_univ_three]
  simp

/-- **C73**: the mutual information of the three laws. -/
theorem informations : mutualInfo (component 2 3 0 pairMatrix) = ENNReal.ofReal (1 / 2 * Real.log (4 / 3)) ∧
    mutualInfo (splitStudent 2 3 0 pairMatrix 5)
      = ENNReal.ofReal (1 / 2 * Real.log (4 / 3) + (studentEntropy 2 5 + studentEntropy 3 5 - studentEntropy 5 5)) ∧
    0 ≤ 1 / 2 * Real.log (4 / 3) + (studentEntropy 2 5 + studentEntropy 3 5 - studentEntropy 5 5) ∧
    0 < mutualInfo ballsLaw ∧ mutualInfo ballsLaw
      ≤ ENNReal.ofReal (Real.negMulLog (1 / 10) + Real.negMulLog (2 / 5) + Real.negMulLog (1 / 2)) := by
  obtain ⟨d1, d2, d3⟩ := pairMatrix_det
  have e : (Real.log 4 + Real.log 8 - Real.log 24) / 2 = 1 / 2 * Real.log (4 / 3) := by
    rw [← Real.log_mul (by norm_num) (by norm_num), ← Real.log_div (by norm_num) (by norm_num)]
    norm_num
    ring
  have h1 := (splitNormal_mi (dx := 2) (dy := 3) 0 pairMatrix_posDef).1
  obtain ⟨h2, h3⟩ := splitStudent_mi (dx := 2) (dy := 3) 0 pairMatrix_posDef (ν := 5) (by norm_num)
  rw [d1, d2, d3, e] at h1 h2 h3
  exact ⟨h1, h2, h3, ballsLaw_pos, ballsLaw_le⟩

/-! ## The workflow -/

theorem normal_ok (hT : IdealTfp T κ) (R₀ : JaxRandom Key) : ∃ J, (∀ R : JaxRandom Key, normal R T = .ok J) ∧
    Consistent κ J Set.univ Set.univ (component 2 3 0 pairMatrix) ∧ Tame J (component 2 3 0 pairMatrix) ∧
    multivariateNormalDistribution R₀ T (2 : ℕ) (3 : ℕ) (rowsOf pairMatrix) (some (List.ofFn (0 : Fin (2 + 3) → ℝ))) = .ok J := by
  obtain ⟨J, h1, h2, h3⟩ := normal_component hT R₀ 2 3 (by norm_num) (by norm_num) 0 _ pairMatrix_posDef
  refine ⟨J, fun R => ?_, h2, h3, h1⟩
  unfold normal
  simp only [dispersion_eq, bind, Except.bind]
  exact ((normal_indep R R₀ T 2 3 _ none).trans (normal_default R₀ T 2 3 _)).trans h1

theorem student_ok (hT : IdealTfp T κ) (R₀ : JaxRandom Key) (N₀ : NpRandom State) :
    ∃ J, (∀ (R : JaxRandom Key) (N : NpRandom State), student R N T = .ok J) ∧
    Consistent κ J Set.univ Set.univ (splitStudent 2 3 0 pairMatrix 5) ∧
    ∃ r : (Fin 2 → ℝ) × (Fin 3 → ℝ) → ℝ, ∀ x y, J.pmiAt (List.ofFn x) (List.ofFn y) = (r (x, y) : EReal) := by
  obtain ⟨J, h1, -, h2⟩ := multivariateStudent_consistent hT R₀ N₀ 2 3 (by norm_num) (by norm_num) 0 _ pairMatrix_posDef 5 (by norm_num)
  obtain ⟨l1, l2, l3⟩ := student_logs (dx := 2) (dy := 3) hT R₀ N₀ (mean := 0) (cov := pairMatrix) pairMatrix_posDef
    (df := 5) (by norm_num) h1
  refine ⟨J, fun R N => ?_, h2, fun w => studentLog 0 pairMatrix 5 (Fin.append w.1 w.2)
    - (studentLog (parts (dx := 2) (dy := 3) 0).1 (blockX pairMatrix) 5 w.1 + studentLog (parts (dx := 2) (dy := 3) 0).2 (blockY pairMatrix) 5 w.2), fun x y => ?_⟩
  · unfold student
    simp only [dispersion_eq, bind, Except.bind]
    exact ((student_indep R R₀ N N₀ T 2 3 5 _ none).trans (student_default R₀ N₀ T 2 3 5 _)).trans h1
  · unfold JointDistribution.pmiAt
    rw [← List.ofFn_fin_append]
    simp only
    rw [l1, l2, l3, ← EReal.coe_add, ← EReal.coe_sub]

theorem balls_ok (hT : IdealTfp T κ) (R₀ : JaxRandom Key) : ∃ J, (∀ R : JaxRandom Key, threeBalls R T = .ok J) ∧
    Consistent κ J Set.univ Set.univ ballsLaw ∧ Tame J ballsLaw := by
  have p1 : (1 : Matrix (Fin (2 + 3)) (Fin (2 + 3)) ℝ).PosDef := Matrix.PosDef.one
  obtain ⟨J1, a1, a2, a3⟩ := normal_component hT R₀ 2 3 (by norm_num) (by norm_num) 0 _ p1
  obtain ⟨J2, b1, b2, b3⟩ := normal_component hT R₀ 2 3 (by norm_num) (by norm_num) 1 _ p1
  obtain ⟨J3, c1, c2, c3⟩ := normal_component hT R₀ 2 3 (by norm_num) (by norm_num) (-1) _ (ball_facts two_pos 0).1
  have hC : ∀ j : Fin 3, Consistent κ ((![J1, J2, J3] : Fin 3 → JointDistribution Key) j) Set.univ Set.univ
      ((![component 2 3 0 1, component 2 3 1 1, component 2 3 (-1) ((2 : ℝ) • 1)] : Fin 3 → Measure ((Fin 2 → ℝ) × (Fin 3 → ℝ))) j) :=
    fun j => by fin_cases j <;> assumption
  have hTm : ∀ j : Fin 3, Tame ((![J1, J2, J3] : Fin 3 → JointDistribution Key) j)
      ((![component 2 3 0 1, component 2 3 1 1, component 2 3 (-1) ((2 : ℝ) • 1)] : Fin 3 → Measure ((Fin 2 → ℝ) × (Fin 3 → ℝ))) j) :=
    fun j => by fin_cases j <;> assumption
  obtain ⟨M, hM, -, hMC⟩ := mixture_consistent hT _ weights_nonneg weights_sum _ _ hC
  refine ⟨M, fun R => ?_, hMC, tame_mixture T weights_nonneg weights_sum hTm hM⟩
  have l0 : List.replicate 5 (0 : ℝ) = List.ofFn (0 : Fin (2 + 3) → ℝ) := by
    show _ = List.ofFn fun _ : Fin 5 => (0 : ℝ)
    rw [List.ofFn_const]
  have l1 : List.replicate 5 (1 : ℝ) = List.ofFn (1 : Fin (2 + 3) → ℝ) := by
    show _ = List.ofFn fun _ : Fin 5 => (1 : ℝ)
    rw [List.ofFn_const]
  have l2 : (List.replicate 5 (1 : ℝ)).map (-1 * ·) = List.ofFn (-1 : Fin (2 + 3) → ℝ) := by
    show _ = List.ofFn fun _ : Fin 5 => (-1 : ℝ)
    rw [List.ofFn_const, List.map_replicate]
    norm_num
  have e1 := (normal_indep R R₀ T 2 3 (rowsOf (1 : Matrix (Fin (2 + 3)) (Fin (2 + 3)) ℝ)) (some (List.replicate 5 0))).trans
    ((congrArg (fun l => multivariateNormalDistribution R₀ T 2 3 _ (some l)) l0).trans a1)
  have e2 := (normal_indep R R₀ T 2 3 (rowsOf (1 : Matrix (Fin (2 + 3)) (Fin (2 + 3)) ℝ)) (some (List.replicate 5 1))).trans
    ((congrArg (fun l => multivariateNormalDistribution R₀ T 2 3 _ (some l)) l1).trans b1)
  have e3 := (normal_indep R R₀ T 2 3 (rowsOf ((2 : ℝ) • (1 : Matrix (Fin (2 + 3)) (Fin (2 + 3)) ℝ)))
    (some ((List.replicate 5 1).map (-1 * ·)))).trans
    ((congrArg (fun l => multivariateNormalDistribution R₀ T 2 3 _ (some l)) l2).trans c1)
  have m1 : List.ofFn ![J1, J2, J3] = [J1, J2, J3] := by simp
  have m2 : List.ofFn (![1 / 10, 2 / 5, 1 / 2] : Fin 3 → ℝ) = [0.1, 0.4, 0.5] := by
    simp
    norm_num
  rw [m1, m2] at hM
  unfold threeBalls
  erw [e1]
  simp only [bind, Except.bind]
  erw [e2]
  simp only
  erw [e3]
  exact hM

/-- The coordinates through the sigmoid function. -/
noncomputable def squash {d : ℕ} (v : Fin d → ℝ) : Fin d → ℝ := fun i => 1 / (1 + Real.exp (-v i))

theorem measurable_squash {d : ℕ} : Measurable (squash (d := d)) := sigmoid_diffeo.measurable

theorem squash_injective {d : ℕ} : Function.Injective (squash (d := d)) := fun v w h => by
  apply List.ofFn_injective
  rw [← sigmoid_diffeo.inverse v trivial, ← sigmoid_diffeo.inverse w trivial]
  exact congrArg (fun u => sigmoid.inverse (List.ofFn u)) h

/-- A profile of a law is a profile of every law made by bending the two variables separately. -/
theorem isProfile_map {dx dy n : ℕ} {P : Measure ((Fin dx → ℝ) × (Fin dy → ℝ))} [IsProbabilityMeasure P] {f : Key → List EReal}
    (h : IsProfile κ n P f) {s : (Fin dx → ℝ) → Fin dx → ℝ} {t : (Fin dy → ℝ) → Fin dy → ℝ} (hs : Measurable s) (ht : Measurable t)
    (is : Function.Injective s) (it : Function.Injective t) : IsProfile κ n (P.map (Prod.map s t)) f := by
  obtain ⟨r, hr, z, hz, hf⟩ := h
  have hF : MeasurableEmbedding (Prod.map s t) := (hs.prodMap ht).measurableEmbedding (is.prodMap it)
  haveI : IsProbabilityMeasure (P.map (Prod.map s t)) := Measure.isProbabilityMeasure_map hF.measurable.aemeasurable
  have hr' : ∀ w, (r ∘ Function.invFun (Prod.map s t)) (Prod.map s t w) = r w := fun w => by
    simp only [Function.comp]
    rw [Function.leftInverse_invFun hF.injective w]
  refine ⟨r ∘ Function.invFun (Prod.map s t), ?_, fun k i => Prod.map s t (z k i), ?_, fun k => ?_⟩
  · unfold IsLogRatio
    rw [map_fst_prodMap _ hs ht, map_snd_prodMap _ hs ht, Measure.map_prod_map _ _ hs ht]
    ext A hA
    rw [hF.map_apply, withDensity_apply _ hA, hF.restrict_map, hF.lintegral_map]
    simp only [hr']
    rw [← withDensity_apply _ (hF.measurable hA)]
    conv_lhs => rw [hr]
  · exact (measurePreserving_pi (fun _ => P) (fun _ => P.map (Prod.map s t)) fun _ => hF.measurable.measurePreserving P).comp hz
  · rw [hf k]
    simp only [hr']

example : IsProfile (Measure.dirac ()) 1 (Measure.dirac ((0 : Fin 1 → ℝ), (0 : Fin 1 → ℝ))) fun _ => [0] := by
  refine ⟨fun _ => 0, ?_, fun _ _ => (0, 0), ?_, fun _ => by simp⟩
  · unfold IsLogRatio
    have e1 : (Measure.dirac ((0 : Fin 1 → ℝ), (0 : Fin 1 → ℝ))).fst = Measure.dirac 0 := Measure.map_dirac' measurable_fst _
    have e2 : (Measure.dirac ((0 : Fin 1 → ℝ), (0 : Fin 1 → ℝ))).snd = Measure.dirac 0 := Measure.map_dirac' measurable_snd _
    rw [e1, e2, Measure.dirac_prod_dirac]
    simp
  · refine ⟨by fun_prop, ?_⟩
    rw [Measure.map_dirac' (by fun_prop)]
    refine (Measure.pi_eq fun A hA => ?_).symm
    rw [Measure.dirac_apply' _ (MeasurableSet.univ_pi hA), Fin.prod_univ_one, Measure.dirac_apply' _ (hA 0)]
    have hiff : (fun _ : Fin 1 => ((0 : Fin 1 → ℝ), (0 : Fin 1 → ℝ))) ∈ Set.univ.pi A ↔ ((0 : Fin 1 → ℝ), (0 : Fin 1 → ℝ)) ∈ A 0 :=
      ⟨fun h' => h' 0 trivial, fun h i _ => by rwa [Subsingleton.elim i 0]⟩
    by_cases h : ((0 : Fin 1 → ℝ), (0 : Fin 1 → ℝ)) ∈ A 0
    · rw [Set.indicator_of_mem h, Set.indicator_of_mem (hiff.2 h)]
      rfl
    · rw [Set.indicator_of_notMem h, Set.indicator_of_notMem fun h' => h (hiff.1 h')]

/-- The five names. -/
def names : List String := ["Normal-2-3", "Student-2-3", "Transformed-Normal-2-3", "Transformed-Student2-3", "Mixture"]

theorem profilePath_match {name : String} (h : name.toList ≠ []) (hn : '\n' ∉ name.toList) :
    matchPat profilePat (profilePath name) = some [name.toList] := by
  unfold profilePat profilePath
  rw [matchPat_lit]
  exact matchPat_wild _ _ _ _ h hn (matchPat_end _) (matchPat_end_none _)

theorem names_ok (name : String) (h : name ∈ names) : name.toList ≠ [] ∧ '\n' ∉ name.toList := by
  have : ∀ s ∈ names, s.toList ≠ [] ∧ '\n' ∉ s.toList := by decide
  exact this name h

theorem generate_eq {R : JaxRandom Key} {N : NpRandom State} {ds : Run.Dict (JointDistribution Key)} (hd : gallery R N T = .ok ds)
    {name : String} (h : name.toList ≠ []) (hn : '\n' ∉ name.toList) {J : JointDistribution Key} (hg : ds.get name = some J)
    {f : List EReal} (hf : pmiProfile (R.prngKey 0) J 10000 = .ok f) :
    generateProfile R N T (profilePath name) = .ok ⟨f, name, Bmm.mean f⟩ := by
  unfold generateProfile
  rw [profilePath_match h hn]
  simp only [hd, lift, String.ofList_toList, hg, orRaise, bind, Except.bind, hf]

theorem generate_unknown {R : JaxRandom Key} {N : NpRandom State} {ds : Run.Dict (JointDistribution Key)} (hd : gallery R N T = .ok ds)
    {name : String} (h : name.toList ≠ []) (hn : '\n' ∉ name.toList) (hg : ds.get name = none) :
    generateProfile R N T (profilePath name) = .error (.raised .keyError) := by
  unfold generateProfile
  rw [profilePath_match h hn]
  simp only [hd, lift, String.ofList_toList, hg, orRaise, bind, Except.bind]

/-- **C73**: the figures of the workflow.  Each histogram shows 10000 independent values of the logarithm of the density ratio of the
law named; those of the two transformed laws are the same numbers as those of the laws they are made from.  The mean in the title has
the mutual information as its expectation. -/
theorem gallery_spec (hT : IdealTfp T κ) (R₀ : JaxRandom Key) (N₀ : NpRandom State) :
    ∃ fN fS fM : Key → List EReal,
      (∀ (R : JaxRandom Key) (N : NpRandom State),
        wanted R N T = .ok (names.map profilePath) ∧
        (∀ name ∈ ["Normal-2-3", "Transformed-Normal-2-3"],
          generateProfile R N T (profilePath name) = .ok ⟨fN (R.prngKey 0), name, Bmm.mean (fN (R.prngKey 0))⟩) ∧
        (∀ name ∈ ["Student-2-3", "Transformed-Student2-3"],
          generateProfile R N T (profilePath name) = .ok ⟨fS (R.prngKey 0), name, Bmm.mean (fS (R.prngKey 0))⟩) ∧
        generateProfile R N T (profilePath "Mixture") = .ok ⟨fM (R.prngKey 0), "Mixture", Bmm.mean (fM (R.prngKey 0))⟩ ∧
        ∀ name : String, name ∉ names → name.toList ≠ [] → '\n' ∉ name.toList →
          generateProfile R N T (profilePath name) = .error (.raised .keyError)) ∧
      (IsProfile κ 10000 (component 2 3 0 pairMatrix) fN ∧ IsProfile κ 10000 ((component 2 3 0 pairMatrix).map (Prod.map squash squash)) fN) ∧
      (IsProfile κ 10000 (splitStudent 2 3 0 pairMatrix 5) fS ∧
        IsProfile κ 10000 ((splitStudent 2 3 0 pairMatrix 5).map (Prod.map squash id)) fS) ∧
      IsProfile κ 10000 ballsLaw fM ∧
      MeanIs κ fN (1 / 2 * Real.log (4 / 3)) ∧
      MeanIs κ fS (1 / 2 * Real.log (4 / 3) + (studentEntropy 2 5 + studentEntropy 3 5 - studentEntropy 5 5)) ∧
      ∃ m, MeanIs κ fM m ∧ 0 < m ∧ m ≤ Real.negMulLog (1 / 10) + Real.negMulLog (2 / 5) + Real.negMulLog (1 / 2) := by
  obtain ⟨n, hn10⟩ : ∃ n : ℕ, n = 10000 := ⟨_, rfl⟩
  have hnpos : 0 < n := by omega
  have hcast : (10000 : ℤ) = (n : ℤ) := by omega
  obtain ⟨JN, n1, n2, n3, -⟩ := normal_ok hT R₀
  obtain ⟨JS, s1, s2, rS, s3⟩ := student_ok hT R₀ N₀
  obtain ⟨JM, m1, m2, m3⟩ := balls_ok hT R₀
  obtain ⟨iN, iS, nS, iM0, iM1⟩ := informations
  have finN : mutualInfo (component 2 3 0 pairMatrix) ≠ ⊤ := by
    rw [iN]
    exact ENNReal.ofReal_ne_top
  have finS : mutualInfo (splitStudent 2 3 0 pairMatrix 5) ≠ ⊤ := by
    rw [iS]
    exact ENNReal.ofReal_ne_top
  have finM : mutualInfo ballsLaw ≠ ⊤ := ne_top_of_le_ne_top ENNReal.ofReal_ne_top iM1
  have nN : 0 ≤ 1 / 2 * Real.log (4 / 3) := by
    have := Real.log_nonneg (x := 4 / 3) (by norm_num)
    linarith
  obtain ⟨fN, fN1, fN2, fN3⟩ := profile_of n2 (r := fun w => pmiOf JN (List.ofFn w.1) (List.ofFn w.2)) (pmi_of_tame n2 n3).2 finN hnpos
  obtain ⟨fS, fS1, fS2, fS3⟩ := profile_of s2 s3 finS hnpos
  obtain ⟨fM, fM1, fM2, fM3⟩ := profile_of m2 (r := fun w => pmiOf JM (List.ofFn w.1) (List.ofFn w.2)) (pmi_of_tame m2 m3).2 finM hnpos
  rw [iN, ENNReal.toReal_ofReal nN] at fN3
  rw [iS, ENNReal.toReal_ofReal nS] at fS3
  haveI := n2.prob
  haveI := s2.prob
  have hd : ∀ (R : JaxRandom Key) (N : NpRandom State), gallery R N T = .ok [("Normal-2-3", JN), ("Student-2-3", JS),
      ("Transformed-Normal-2-3", transform JN (some sigmoid) (some sigmoid)),
      ("Transformed-Student2-3", transform JS (some sigmoid) (some .identity)), ("Mixture", JM)] := by
    intro R N
    unfold gallery
    simp only [n1 R, s1 R N, m1 R, bind, Except.bind]
  have hok := names_ok
  rw [← hn10]
  refine ⟨fN, fS, fM, fun R N => ⟨?_, ?_, ?_, ?_, ?_⟩, ⟨fN2, isProfile_map fN2 measurable_squash measurable_squash squash_injective squash_injective⟩,
    ⟨fS2, isProfile_map fS2 measurable_squash measurable_id squash_injective Function.injective_id⟩, fM2, fN3, fS3,
    _, fM3, ENNReal.toReal_pos iM0.ne' finM, ?_⟩
  · unfold wanted
    simp only [hd R N, bind, Except.bind]
    rfl
  · intro name hname
    simp only [List.mem_cons, List.not_mem_nil, or_false] at hname
    rcases hname with rfl | rfl
    · exact generate_eq (J := JN) (hd R N) (hok _ (by simp [names])).1 (hok _ (by simp [names])).2 (by simp [Run.Dict.get]) (by rw [hcast]; exact fN1 _)
    · exact generate_eq (J := transform JN (some sigmoid) (some sigmoid)) (hd R N) (hok _ (by simp [names])).1 (hok _ (by simp [names])).2 (by simp [Run.Dict.get])
        (by rw [hcast]; exact (bent_profile n2 n _).1.trans (fN1 _))
  · intro name hname
    simp only [List.mem_cons, List.not_mem_nil, or_false] at hname
    rcases hname with rfl | rfl
    · exact generate_eq (J := JS) (hd R N) (hok _ (by simp [names])).1 (hok _ (by simp [names])).2 (by simp [Run.Dict.get]) (by rw [hcast]; exact fS1 _)
    · exact generate_eq (J := transform JS (some sigmoid) (some .identity)) (hd R N) (hok _ (by simp [names])).1 (hok _ (by simp [names])).2 (by simp [Run.Dict.get])
        (by rw [hcast]; exact (bent_profile s2 n _).2.trans (fS1 _))
  · exact generate_eq (J := JM) (hd R N) (hok _ (by simp [names])).1 (hok _ (by simp [names])).2 (by simp [Run.Dict.get]) (by rw [hcast]; exact fM1 _)
  · intro name hname h1 h2
    simp only [names, List.mem_cons, List.not_mem_nil, or_false, not_or] at hname
    obtain ⟨a1, a2, a3, a4, a5⟩ := hname
    refine generate_unknown (hd R N) h1 h2 ?_
    simp [Run.Dict.get, Ne.symm a1, Ne.symm a2, Ne.symm a3, Ne.symm a4, Ne.symm a5]
  · refine (ENNReal.toReal_mono ENNReal.ofReal_ne_top iM1).trans_eq (ENNReal.toReal_ofReal ?_)
    have h1 : 0 ≤ Real.negMulLog (1 / 10) := Real.negMulLog_nonneg (by norm_num) (by norm_num)
    have h2 : 0 ≤ Real.negMulLog (2 / 5) := Real.negMulLog_nonneg (by norm_num) (by norm_num)
    have h3 : 0 ≤ Real.negMulLog (1 / 2) := Real.negMulLog_nonneg (by norm_num) (by norm_num)
    linarith

example {State : Type} (N : NpRandom State) : ∃ k numbers, generateProfile pathRandom N path (profilePath "Mixture")
    = .ok ⟨numbers, "Mixture", k⟩ := by
  obtain ⟨fN, fS, fM, h, -⟩ := gallery_spec path_ideal pathRandom N
  exact ⟨_, _, (h pathRandom N).2.2.2.1⟩

/-- **C73**: the numbers in the histogram of the normal law are distributed as the mutual information plus a quarter of the difference
of the squares of two independent standard normal numbers. -/
theorem normal_numbers (hT : IdealTfp T κ) (R₀ : JaxRandom Key) (n : ℕ) (hn : 0 < n) : ∃ profile : Key → Fin n → ℝ, Measurable profile ∧
    κ.map profile = Measure.pi (fun _ => chiCombination (1 / 2 * Real.log (4 / 3)) ![1 / 2, 0]) ∧
    ∀ (R : JaxRandom Key), ∃ J, normal R T = .ok J ∧ ∀ k, pmiProfile k J n = .ok (List.ofFn fun i => (profile k i : EReal)) := by
  obtain ⟨J, h1, h2, -, h4⟩ := normal_ok hT R₀
  have hq : √2 * √2 = (2 : ℝ) := Real.mul_self_sqrt (by norm_num)
  obtain ⟨J', hJ', hp⟩ := normal_profile hT R₀ (dx := 2) (dy := 3) (by norm_num) (by norm_num) 0 pairMatrix_posDef
    (Sx := √2 • 1) (Sy := √2 • 1) (C := cross 3 ![1 / 2, 0]) (by
      ext i j
      fin_cases i <;> fin_cases j <;> simp [blockX, pairMatrix, hq] <;> rfl) (by
      ext i j
      fin_cases i <;> fin_cases j <;> simp [blockY, pairMatrix, hq] <;> rfl) (by
      ext i j
      fin_cases i <;> fin_cases j <;> simp [blockXY, cross, pairMatrix, ← mul_assoc, hq] <;> rfl)
  cases hJ'.symm.trans h4
  obtain ⟨profile, p1, p2, p3⟩ := hp n hn
  have e : (mutualInfo (splitNormal 2 3 0 pairMatrix)).toReal = 1 / 2 * Real.log (4 / 3) := by
    have := informations.1
    rw [component_eq] at this
    rw [this, ENNReal.toReal_ofReal]
    have := Real.log_nonneg (x := 4 / 3) (by norm_num)
    linarith
  rw [e, bilinearLaw_diagonal _ _ (by norm_num)] at p3
  exact ⟨profile, p2, p3, fun R => ⟨J, h1 R, p1⟩⟩

end BMI.Gallery
