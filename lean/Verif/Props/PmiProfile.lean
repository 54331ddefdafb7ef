import Verif.Lemmas.PmiProfile
import Verif.Props.MatrixUtils

/-!
Property C65: the profile of the pointwise mutual information of a multivariate normal distribution
(/repo/src/bmi/samplers/_tfp/_core.py:154-166, /repo/src/bmi/samplers/_tfp/_normal.py:26-76,
/repo/scripts/Mixtures/validate_chi2_combination.py).
-/

namespace BMI.Bmm

open MeasureTheory ProbabilityTheory BMI.Samplers BMI.Student BMI.MatrixUtils Matrix

variable {dx dy : ℕ}

/-! ### The laws in the statements -/

/-- The law of `mi + x · C y` for independent vectors `x` and `y` of independent standard normal numbers. -/
noncomputable def bilinearLaw (mi : ℝ) (C : Matrix (Fin dx) (Fin dy) ℝ) : Measure ℝ :=
  ((stdNormal dx).prod (stdNormal dy)).map fun w => mi + w.1 ⬝ᵥ C *ᵥ w.2

/-- The law of `mi + ∑ ρᵢ/2 (Uᵢ² - Vᵢ²)` for independent standard normal `Uᵢ`, `Vᵢ`: a combination of `χ²` laws with one degree
of freedom. -/
noncomputable def chiCombination {k : ℕ} (mi : ℝ) (ρ : Fin k → ℝ) : Measure ℝ :=
  ((stdNormal k).prod (stdNormal k)).map fun w => mi + ∑ i, 1 / 2 * ρ i * (w.1 i ^ 2 - w.2 i ^ 2)

theorem measurable_bilinear (mi : ℝ) (C : Matrix (Fin dx) (Fin dy) ℝ) :
    Measurable fun w : (Fin dx → ℝ) × (Fin dy → ℝ) => mi + w.1 ⬝ᵥ C *ᵥ w.2 := by
  have : Continuous fun w : (Fin dx → ℝ) × (Fin dy → ℝ) => mi + w.1 ⬝ᵥ C *ᵥ w.2 := by
    unfold dotProduct mulVec dotProduct
    fun_prop
  exact this.measurable

instance (mi : ℝ) (C : Matrix (Fin dx) (Fin dy) ℝ) : IsProbabilityMeasure (bilinearLaw mi C) :=
  Measure.isProbabilityMeasure_map (measurable_bilinear mi C).aemeasurable

theorem measurable_chi {k : ℕ} (mi : ℝ) (ρ : Fin k → ℝ) :
    Measurable fun w : (Fin k → ℝ) × (Fin k → ℝ) => mi + ∑ i, 1 / 2 * ρ i * (w.1 i ^ 2 - w.2 i ^ 2) := by
  fun_prop

/-- C65: the profile is symmetric about the mutual information. -/
theorem bilinearLaw_symm (mi : ℝ) (C : Matrix (Fin dx) (Fin dy) ℝ) :
    (bilinearLaw mi C).map (fun t => 2 * mi - t) = bilinearLaw mi C := by
  have h1 : (stdNormal dx).map (fun w => (-1 : Matrix (Fin dx) (Fin dx) ℝ) *ᵥ w) = stdNormal dx := stdNormal_rotate (by simp)
  have h1' : (stdNormal dx).map (fun w => -w) = stdNormal dx := by simpa only [neg_mulVec, one_mulVec] using h1
  have h2 : ((stdNormal dx).prod (stdNormal dy)).map (Prod.map (fun w => -w) id) = (stdNormal dx).prod (stdNormal dy) := by
    rw [← Measure.map_prod_map _ _ (by fun_prop) measurable_id, h1', Measure.map_id]
  unfold bilinearLaw
  conv_rhs => rw [← h2]
  rw [Measure.map_map (by fun_prop) (measurable_bilinear mi C), Measure.map_map (measurable_bilinear mi C) (by fun_prop)]
  congr 1
  funext w
  simp only [Function.comp, Prod.map, neg_dotProduct, id]
  ring

theorem stdNormal_moments {d : ℕ} (i j : Fin d) : Integrable (fun z : Fin d → ℝ => z i) (stdNormal d) ∧
    Integrable (fun z : Fin d → ℝ => z i * z j) (stdNormal d) ∧ ∫ z, z i ∂stdNormal d = 0 ∧
    ∫ z, z i * z j ∂stdNormal d = if i = j then 1 else 0 := by
  have hm : ∀ i : Fin d, MemLp (fun z : Fin d → ℝ => z i) 2 (stdNormal d) := fun i => by
    rw [← stdNormal_eq]; exact normalLaw_memLp i
  refine ⟨(hm i).integrable one_le_two, (hm i).integrable_mul (hm j), ?_, ?_⟩
  · rw [← stdNormal_eq]; exact normalLaw_integral i
  · rw [← stdNormal_eq, normalLaw_integral_mul PosSemidef.one, one_apply]

/-- C65: its mean is the mutual information, and its variance is the sum of the squared entries of `C`. -/
theorem bilinearLaw_moments (mi : ℝ) (C : Matrix (Fin dx) (Fin dy) ℝ) :
    ∫ t, t ∂bilinearLaw mi C = mi ∧ Var[id; bilinearLaw mi C] = ∑ i, ∑ j, C i j ^ 2 := by
  set μ := (stdNormal dx).prod (stdNormal dy) with hμ
  have hexp : ∀ w : (Fin dx → ℝ) × (Fin dy → ℝ), w.1 ⬝ᵥ C *ᵥ w.2 = ∑ i, ∑ j, C i j * (w.1 i * w.2 j) := by
    intro w
    simp only [dotProduct, mulVec, Finset.mul_sum]
    refine Finset.sum_congr rfl fun i _ => Finset.sum_congr rfl fun j _ => by ring
  have i1 : ∀ i j, Integrable (fun w : (Fin dx → ℝ) × (Fin dy → ℝ) => C i j * (w.1 i * w.2 j)) μ := fun i j =>
    ((stdNormal_moments i i).1.mul_prod (stdNormal_moments j j).1).const_mul _
  have e1 : ∫ w, w.1 ⬝ᵥ C *ᵥ w.2 ∂μ = 0 := by
    simp only [hexp]
    rw [integral_finset_sum _ fun i _ => integrable_finset_sum _ fun j _ => i1 i j]
    refine Finset.sum_eq_zero fun i _ => ?_
    rw [integral_finset_sum _ fun j _ => i1 i j]
    refine Finset.sum_eq_zero fun j _ => ?_
    rw [integral_const_mul, hμ, integral_prod_mul (fun x : Fin dx → ℝ => x i) (fun y : Fin dy → ℝ => y j),
      (stdNormal_moments i i).2.2.1]
    simp
  have I1 : Integrable (fun w : (Fin dx → ℝ) × (Fin dy → ℝ) => w.1 ⬝ᵥ C *ᵥ w.2) μ := by
    simp only [hexp]
    exact integrable_finset_sum _ fun i _ => integrable_finset_sum _ fun j _ => i1 i j
  have hmean : ∫ t, t ∂bilinearLaw mi C = mi := by
    unfold bilinearLaw
    rw [integral_map (measurable_bilinear mi C).aemeasurable (by fun_prop), integral_add (integrable_const _) I1, e1]
    simp
  refine ⟨hmean, ?_⟩
  rw [variance_eq_integral (by fun_prop)]
  simp only [id, hmean]
  unfold bilinearLaw
  rw [integral_map (measurable_bilinear mi C).aemeasurable (by fun_prop)]
  simp only [add_sub_cancel_left]
  have hsq : ∀ w : (Fin dx → ℝ) × (Fin dy → ℝ), (w.1 ⬝ᵥ C *ᵥ w.2) ^ 2 =
      ∑ i, ∑ j, ∑ i', ∑ j', C i j * C i' j' * ((w.1 i * w.1 i') * (w.2 j * w.2 j')) := by
    intro w
    rw [hexp, sq, Finset.sum_mul]
    refine Finset.sum_congr rfl fun i _ => ?_
    rw [Finset.sum_mul]
    refine Finset.sum_congr rfl fun j _ => ?_
    rw [Finset.mul_sum]
    refine Finset.sum_congr rfl fun i' _ => ?_
    rw [Finset.mul_sum]
    refine Finset.sum_congr rfl fun j' _ => ?_
    ring
  have i2 : ∀ i j i' j', Integrable (fun w : (Fin dx → ℝ) × (Fin dy → ℝ) =>
      C i j * C i' j' * ((w.1 i * w.1 i') * (w.2 j * w.2 j'))) μ := fun i j i' j' =>
    ((stdNormal_moments i i').2.1.mul_prod (stdNormal_moments j j').2.1).const_mul _
  simp only [hsq]
  rw [← hμ, integral_finset_sum _ fun i _ => integrable_finset_sum _ fun j _ => integrable_finset_sum _ fun i' _ =>
    integrable_finset_sum _ fun j' _ => i2 i j i' j']
  refine Finset.sum_congr rfl fun i _ => ?_
  rw [integral_finset_sum _ fun j _ => integrable_finset_sum _ fun i' _ => integrable_finset_sum _ fun j' _ => i2 i j i' j']
  refine Finset.sum_congr rfl fun j _ => ?_
  rw [integral_finset_sum _ fun i' _ => integrable_finset_sum _ fun j' _ => i2 i j i' j', Finset.sum_eq_single i]
  · rw [integral_finset_sum _ fun j' _ => i2 i j i j', Finset.sum_eq_single j]
    · rw [integral_const_mul, hμ, integral_prod_mul (fun x : Fin dx → ℝ => x i * x i) (fun y : Fin dy → ℝ => y j * y j),
        (stdNormal_moments i i).2.2.2, (stdNormal_moments j j).2.2.2]
      simp [sq]
    · intro j' _ hj'
      rw [integral_const_mul, hμ, integral_prod_mul (fun x : Fin dx → ℝ => x i * x i) (fun y : Fin dy → ℝ => y j * y j'),
        (stdNormal_moments j j').2.2.2, if_neg hj'.symm]
      simp
    · simp
  · intro i' _ hi'
    rw [integral_finset_sum _ fun j' _ => i2 i j i' j']
    refine Finset.sum_eq_zero fun j' _ => ?_
    rw [integral_const_mul, hμ, integral_prod_mul (fun x : Fin dx → ℝ => x i * x i') (fun y : Fin dy → ℝ => y j * y j'),
      (stdNormal_moments i i').2.2.2, if_neg hi'.symm]
    simp
  · simp

/-- The first coordinates of a standard normal vector. -/
theorem stdNormal_first {k d : ℕ} (h : k ≤ d) :
    (stdNormal d).map (fun z (i : Fin k) => z (Fin.castLE h i)) = stdNormal k := by
  obtain ⟨e, rfl⟩ := Nat.exists_eq_add_of_le h
  have h1 := congrArg (fun μ => μ.map Prod.fst) (stdNormal_split k e)
  rw [Measure.map_map measurable_fst (measurable_parts k e), Measure.map_fst_prod, measure_univ, one_smul] at h1
  exact h1

/-- C65: with a diagonal matrix `C` the law is the combination of `χ²` laws; coordinates of Y that are not related to any
coordinate of X make no difference. -/
theorem bilinearLaw_diagonal (mi : ℝ) (ρ : Fin dx → ℝ) (hd : dx ≤ dy) : bilinearLaw mi (cross dy ρ) = chiCombination mi ρ := by
  have hf : ∀ w : (Fin dx → ℝ) × (Fin dy → ℝ), mi + w.1 ⬝ᵥ (cross dy ρ) *ᵥ w.2 = mi + ∑ i, ρ i * (w.1 i * w.2 (Fin.castLE hd i)) := by
    intro w
    congr 1
    refine Finset.sum_congr rfl fun i _ => ?_
    have : ((cross dy ρ) *ᵥ w.2) i = ρ i * w.2 (Fin.castLE hd i) := by
      unfold mulVec dotProduct cross
      rw [Finset.sum_eq_single (Fin.castLE hd i)]
      · simp
      · intro j _ hj
        have hij : ¬ (i : ℕ) = j := fun h => hj (Fin.ext h.symm)
        simp [hij]
      · simp
    rw [this]
    ring
  have hm : Measurable fun w : (Fin dx → ℝ) × (Fin dx → ℝ) => mi + ∑ i, ρ i * (w.1 i * w.2 i) := by fun_prop
  have h1 : bilinearLaw mi (cross dy ρ) = ((stdNormal dx).prod (stdNormal dx)).map fun w => mi + ∑ i, ρ i * (w.1 i * w.2 i) := by
    have h2 : ((stdNormal dx).prod (stdNormal dy)).map (Prod.map id (fun z (i : Fin dx) => z (Fin.castLE hd i))) =
        (stdNormal dx).prod (stdNormal dx) := by
      rw [← Measure.map_prod_map _ _ measurable_id (by fun_prop), stdNormal_first, Measure.map_id]
    rw [← h2, Measure.map_map hm (by fun_prop)]
    unfold bilinearLaw
    congr 1
    funext w
    exact hf w
  rw [h1]
  unfold chiCombination
  set c : ℝ := 1 / √2 with hc
  have hcc : c * c = 1 / 2 := by
    rw [hc, div_mul_div_comm, Real.mul_self_sqrt (by norm_num)]; norm_num
  set L : Matrix (Fin (dx + dx)) (Fin (dx + dx)) ℝ := ofBlocks (c • 1) (c • 1) (c • 1) (-(c • 1)) with hL
  have hLL : L * Lᵀ = 1 := by
    rw [hL, ofBlocks_transpose, ofBlocks_mul, ← ofBlocks_one]
    congr 1 <;> ext i j <;> simp [one_apply, smul_smul, hcc] <;> split_ifs <;> norm_num
  rw [← stdNormal_split]
  conv_rhs => rw [← stdNormal_rotate hLL]
  rw [Measure.map_map hm (measurable_parts dx dx), Measure.map_map (measurable_parts dx dx) (by fun_prop),
    Measure.map_map (measurable_chi mi ρ) ((measurable_parts dx dx).comp (by fun_prop))]
  congr 1
  funext w
  simp only [Function.comp]
  rw [hL, parts_mulVec]
  congr 1
  refine Finset.sum_congr rfl fun i _ => ?_
  simp only [smul_mulVec, one_mulVec, neg_mulVec, Pi.add_apply, Pi.smul_apply, Pi.neg_apply, smul_eq_mul]
  have : (c * (parts w).1 i + c * (parts w).2 i) ^ 2 - (c * (parts w).1 i + -(c * (parts w).2 i)) ^ 2 =
      4 * (c * c) * ((parts w).1 i * (parts w).2 i) := by ring
  rw [this, hcc]
  ring

/-! ### The profile -/

variable {Key : Type} [MeasurableSpace Key] {T : Tfp Key} {κ : Measure Key}

/-- The pointwise mutual information of a normal distribution is a number, given by quadratic forms. -/
theorem normal_pmiAt (hT : IdealTfp T κ) (R : JaxRandom Key) {mean : Fin (dx + dy) → ℝ}
    {cov : Matrix (Fin (dx + dy)) (Fin (dx + dy)) ℝ} (hpos : cov.PosDef) {J : JointDistribution Key}
    (hJ : multivariateNormalDistribution R T dx dy (rowsOf cov) (some (List.ofFn mean)) = .ok J) (z : Fin (dx + dy) → ℝ) :
    J.pmiAt (List.ofFn (parts z).1) (List.ofFn (parts z).2) =
      (((mutualInfo (splitNormal dx dy mean cov)).toReal + (quad (parts mean).1 (blockX cov) (parts z).1 +
        quad (parts mean).2 (blockY cov) (parts z).2 - quad mean cov z) / 2 : ℝ) : EReal) := by
  have e : J.distJoint = constructNormal T (dx + dy) (List.ofFn mean) (rowsOf cov) ∧
      J.distX = constructNormal T dx ((List.ofFn mean).take dx) (((rowsOf cov).take dx).map (·.take dx)) ∧
      J.distY = constructNormal T dy ((List.ofFn mean).drop dx) (((rowsOf cov).drop dx).map (·.drop dx)) := by
    unfold multivariateNormalDistribution at hJ
    rw [if_neg (by simp)] at hJ
    simp only [Option.getD_some] at hJ
    cases hs : splitMultinormal R dx dy (rowsOf cov) (some (List.ofFn mean)) with
    | error e =>
      simp only [hs] at hJ
      cases hJ
    | ok s =>
      simp only [hs] at hJ
      obtain rfl := Except.ok.inj hJ
      exact ⟨rfl, rfl, rfl⟩
  obtain ⟨e1, e2, e3⟩ := e
  have hj := normal_logProb hT (d := dx + dy) (List.ofFn mean) (rowsOf cov) (by rwa [toMatrix_rowsOf]) z
  rw [toVec_ofFn, toMatrix_rowsOf] at hj
  have hX := normal_logProb hT (d := dx) ((List.ofFn mean).take dx) (((rowsOf cov).take dx).map (·.take dx))
    (by rw [take_blocks]; exact blockX_posDef hpos) (parts z).1
  rw [take_blocks, take_ofFn, toVec_ofFn] at hX
  have hY := normal_logProb hT (d := dy) ((List.ofFn mean).drop dx) (((rowsOf cov).drop dx).map (·.drop dx))
    (by rw [drop_blocks]; exact blockY_posDef hpos) (parts z).2
  rw [drop_blocks, drop_ofFn, toVec_ofFn] at hY
  have hp : List.ofFn (parts z).1 ++ List.ofFn (parts z).2 = List.ofFn z := pairList_parts z
  obtain ⟨m1, m2⟩ := splitNormal_mi mean hpos
  unfold JointDistribution.pmiAt
  simp only [e1, e2, e3, hp, take_ofFn, drop_ofFn]
  rw [hj, hX, hY, ← EReal.coe_add, ← EReal.coe_sub, m1, ENNReal.toReal_ofReal m2]
  congr 1
  unfold logDensity
  have p1 : (fun i => mean (Fin.castAdd dy i)) = (parts mean).1 := rfl
  have p2 : (fun i => mean (Fin.natAdd dx i)) = (parts mean).2 := rfl
  push_cast
  ring

/-- C65: let the covariance blocks be `Σx = Sx Sxᵀ`, `Σy = Sy Syᵀ` (with any square roots) and `Σxy = Sx C Syᵀ`.  Then the
pointwise mutual information of the multivariate normal distribution is, for every key, a list of `n` numbers, which are
independent, each distributed as `I(X; Y) + x · C y` for independent standard normal vectors `x`, `y`. -/
theorem normal_profile (hT : IdealTfp T κ) (R : JaxRandom Key) (hx : 0 < dx) (hy : 0 < dy) (mean : Fin (dx + dy) → ℝ)
    {cov : Matrix (Fin (dx + dy)) (Fin (dx + dy)) ℝ} (hpos : cov.PosDef) {Sx : Matrix (Fin dx) (Fin dx) ℝ}
    {Sy : Matrix (Fin dy) (Fin dy) ℝ} {C : Matrix (Fin dx) (Fin dy) ℝ} (hSx : Sx * Sxᵀ = blockX cov)
    (hSy : Sy * Syᵀ = blockY cov) (hC : Sx * C * Syᵀ = blockXY cov) :
    ∃ J, multivariateNormalDistribution R T dx dy (rowsOf cov) (some (List.ofFn mean)) = .ok J ∧ ∀ n : ℕ, 0 < n →
      ∃ profile : Key → Fin n → ℝ, (∀ k, pmiProfile k J n = .ok (List.ofFn fun i => (profile k i : EReal))) ∧
        Measurable profile ∧
        κ.map profile = Measure.pi fun _ => bilinearLaw (mutualInfo (splitNormal dx dy mean cov)).toReal C := by
  obtain ⟨J, hJ, -, hc⟩ := multivariateNormal_consistent hT R dx dy hx hy mean cov hpos
  refine ⟨J, hJ, fun n hn => ?_⟩
  set mi := (mutualInfo (splitNormal dx dy mean cov)).toReal with hmi
  obtain ⟨draw, hm, hs, hl⟩ := hc.joint.law n
  set f : (Fin dx → ℝ) × (Fin dy → ℝ) → ℝ := fun p => mi + (quad (parts mean).1 (blockX cov) p.1 +
        quad (parts mean).2 (blockY cov) p.2 - quad mean cov ((partsEquiv dx dy).symm p)) / 2 with hf
  have hfm : Measurable f := by
    have h1 : Measurable fun p : (Fin dx → ℝ) × (Fin dy → ℝ) => quad (parts mean).1 (blockX cov) p.1 :=
      (continuous_quad (parts mean).1 (blockX cov)).measurable.comp measurable_fst
    have h2 : Measurable fun p : (Fin dx → ℝ) × (Fin dy → ℝ) => quad (parts mean).2 (blockY cov) p.2 :=
      (continuous_quad (parts mean).2 (blockY cov)).measurable.comp measurable_snd
    have h3 := (continuous_quad mean cov).measurable.comp (partsEquiv dx dy).symm.measurable
    exact (((h1.add h2).sub h3).div_const 2).const_add mi
  have hpmi : ∀ p : (Fin dx → ℝ) × (Fin dy → ℝ), J.pmiAt (List.ofFn p.1) (List.ofFn p.2) = ((f p : ℝ) : EReal) := by
    intro p
    have := normal_pmiAt hT R hpos hJ ((partsEquiv dx dy).symm p)
    rw [← partsEquiv_apply, MeasurableEquiv.apply_symm_apply] at this
    exact this
  have hlaw : (splitNormal dx dy mean cov).map f = bilinearLaw mi C := by
    obtain ⟨L, hL, hq⟩ := quad_difference hpos hSx hSy hC mean
    have hLm : Measurable fun w : Fin (dx + dy) → ℝ => mean + L *ᵥ w := by
      have : Continuous fun w : Fin (dx + dy) → ℝ => mean + L *ᵥ w := by fun_prop
      exact this.measurable
    unfold splitNormal bilinearLaw
    rw [← normalLaw_cholesky hL, ← stdNormal_split, Measure.map_map (measurable_parts dx dy) hLm,
      Measure.map_map hfm ((measurable_parts dx dy).comp hLm),
      Measure.map_map (measurable_bilinear mi C) (measurable_parts dx dy)]
    congr 1
    funext w
    simp only [Function.comp, hf]
    rw [← partsEquiv_apply dx dy (mean + L *ᵥ w), MeasurableEquiv.symm_apply_apply, partsEquiv_apply, hq]
    ring
  refine ⟨fun k i => f (draw k i), fun k => ?_, ?_, ?_⟩
  · unfold pmiProfile JointDistribution.sample
    rw [if_neg (by omega)]
    show JointDistribution.pmi _ _ _ = _
    unfold JointDistribution.pmi
    rw [if_pos (by simp), Int.toNat_natCast, hs, hc.dimX, List.map_ofFn, List.map_ofFn, zipWith_ofFn]
    congr 2
    funext i
    simp only [Function.comp, take_pairList, drop_pairList]
    exact hpmi _
  · exact measurable_pi_lambda _ fun i => hfm.comp ((measurable_pi_apply i).comp hm)
  · haveI := hc.prob
    have h1 : κ.map (fun k i => f (draw k i)) = (κ.map draw).map fun w i => f (w i) := by
      have hg : Measurable fun (w : Fin n → (Fin dx → ℝ) × (Fin dy → ℝ)) i => f (w i) :=
        measurable_pi_lambda _ fun i => hfm.comp (measurable_pi_apply i)
      rw [Measure.map_map hg hm]
      rfl
    rw [h1, hl]
    refine (Measure.pi_map_pi fun _ => hfm.aemeasurable).trans ?_
    congr 1
    funext _
    exact hlaw

/-- C65: for the matrix with canonical correlations `ρᵢ` (and further coordinates of Y) the profile is the combination of
`χ²` laws about `-½ ∑ log (1 - ρᵢ²)`, whatever the mean. -/
theorem canonical_profile (hT : IdealTfp T κ) (R : JaxRandom Key) (hx : 0 < dx) (hd : dx ≤ dy) {ρ : Fin dx → ℝ}
    {m : Matrix (Fin (dx + dy)) (Fin (dx + dy)) ℝ} (h : IsCanonical ρ m) (hρ : ∀ i, |ρ i| < 1) (mean : Fin (dx + dy) → ℝ) :
    ∃ J, multivariateNormalDistribution R T dx dy (rowsOf m) (some (List.ofFn mean)) = .ok J ∧
      J.analyticMi = some (-(1 / 2) * ∑ i, Real.log (1 - ρ i ^ 2)) ∧ ∀ n : ℕ, 0 < n →
      ∃ profile : Key → Fin n → ℝ, (∀ k, pmiProfile k J n = .ok (List.ofFn fun i => (profile k i : EReal))) ∧
        Measurable profile ∧
        κ.map profile = Measure.pi fun _ => chiCombination (-(1 / 2) * ∑ i, Real.log (1 - ρ i ^ 2)) ρ := by
  have hpos := (canonical_posDef_iff h hd).2 hρ
  have ex : blockX m = 1 := by
    ext i j
    simp [blockX, h.xx, Matrix.one_apply]
  have ey : blockY m = 1 := by
    ext i j
    simp [blockY, h.yy, Matrix.one_apply]
  have exy : blockXY m = cross dy ρ := by
    ext i j
    simp [blockXY, h.xy, cross]
  obtain ⟨s, hs1, hs2⟩ := canonical_number R hx hd h hρ mean
  obtain ⟨s', hs1', hs2'⟩ := splitMultinormal_number R dx dy hx (by omega) mean m hpos
  obtain rfl : s = s' := Except.ok.inj (hs1.symm.trans hs1')
  obtain ⟨J, hJ, hprof⟩ := normal_profile hT R hx (by omega) mean hpos (Sx := 1) (Sy := 1) (C := cross dy ρ)
    (by rw [ex]; simp) (by rw [ey]; simp) (by rw [exy]; simp)
  have hmi : (mutualInfo (splitNormal dx dy mean m)).toReal = -(1 / 2) * ∑ i, Real.log (1 - ρ i ^ 2) := by
    obtain ⟨m1, m2⟩ := splitNormal_mi mean hpos
    rw [m1, ENNReal.toReal_ofReal m2, ← hs2', hs2]
  rw [hmi, bilinearLaw_diagonal _ _ hd] at hprof
  refine ⟨J, hJ, ?_, hprof⟩
  unfold multivariateNormalDistribution at hJ
  rw [if_neg (by simp)] at hJ
  simp only [Option.getD_some, hs1] at hJ
  obtain rfl := Except.ok.inj hJ
  exact congrArg some hs2

/-- C65, as the script checks it by simulation: `canonical_correlation(rho, additional_y)` gives a distribution whose profile
is the combination of `χ²` laws with the weights `±ρ/2`; its mean is the mutual information, its variance `∑ ρ²`, and it is the
same for every `additional_y`. -/
theorem script_profile (hT : IdealTfp T κ) (R : JaxRandom Key) (rho : List ℝ) (hne : rho ≠ []) (hρ : ∀ r ∈ rho, |r| < 1)
    (a : ℕ) : ∃ m J, canonicalCorrelation rho a = .ok m ∧
      multivariateNormalDistribution R T rho.length ((rho.length : ℤ) + a) (rowsOf m) none = .ok J ∧
      ∃ (mi : ℝ) (law : Measure ℝ), mi = -(1 / 2) * (rho.map fun r => Real.log (1 - r ^ 2)).sum ∧ J.analyticMi = some mi ∧
        law = chiCombination mi rho.get ∧ ∫ t, t ∂law = mi ∧ Var[id; law] = (rho.map (· ^ 2)).sum ∧
        law.map (fun t => 2 * mi - t) = law ∧
        ∀ n : ℕ, 0 < n → ∃ profile : Key → Fin n → ℝ,
          (∀ k, pmiProfile k J n = .ok (List.ofFn fun i => (profile k i : EReal))) ∧ Measurable profile ∧
          κ.map profile = Measure.pi fun _ => law := by
  obtain ⟨m, h1, h2⟩ := canonicalCorrelation_spec rho a (by positivity)
  have hd : rho.length ≤ ((rho.length : ℤ) + a).toNat := by omega
  have hsum : ∀ f : ℝ → ℝ, ∑ i, f (rho.get i) = (rho.map f).sum := fun f => by
    have : rho.map f = List.ofFn fun i => f (rho.get i) := by
      conv_lhs => rw [← List.ofFn_get rho, List.map_ofFn]
      rfl
    rw [this, List.sum_ofFn]
  obtain ⟨J, h3, h4, h5⟩ := canonical_profile hT R (List.length_pos_iff.2 hne) hd h2 (fun i => hρ _ (List.get_mem rho i)) 0
  rw [hsum fun r => Real.log (1 - r ^ 2)] at h4 h5
  set mi := -(1 / 2) * (rho.map fun r => Real.log (1 - r ^ 2)).sum with hmi
  have hlaw := bilinearLaw_diagonal mi rho.get hd
  obtain ⟨g1, g2⟩ := bilinearLaw_moments mi (cross ((rho.length : ℤ) + a).toNat rho.get)
  have g3 := bilinearLaw_symm mi (cross ((rho.length : ℤ) + a).toNat rho.get)
  rw [hlaw] at g1 g2 g3
  refine ⟨m, J, h1, ?_, mi, _, rfl, h4, rfl, g1, g2.trans ?_, g3, h5⟩
  · unfold multivariateNormalDistribution at h3 ⊢
    rw [if_neg (by simp; omega)]
    rw [if_neg (by simp)] at h3
    have e : ((((rho.length : ℤ) + a).toNat : ℕ) : ℤ) = (rho.length : ℤ) + a := by omega
    have e0 : (List.replicate ((rho.length : ℤ) + ((rho.length : ℤ) + a)).toNat (0 : ℝ)) =
        List.ofFn (0 : Fin (rho.length + ((rho.length : ℤ) + a).toNat) → ℝ) := by
      rw [show ((rho.length : ℤ) + ((rho.length : ℤ) + a)).toNat = rho.length + ((rho.length : ℤ) + a).toNat by omega]
      exact (List.ofFn_const _ _).symm
    rw [e] at h3
    simp only [Option.getD_none, Option.getD_some, e0] at h3 ⊢
    exact h3
  · rw [← hsum fun r => r ^ 2]
    refine Finset.sum_congr rfl fun i _ => ?_
    rw [Finset.sum_eq_single (Fin.castLE hd i)]
    · simp [cross]
    · intro j _ hj
      have hij : ¬ (i : ℕ) = j := fun h => hj (Fin.ext h.symm)
      simp [cross, hij]
    · simp

/-- The second panel of the script, and the two that are to look alike. -/
example (R : JaxRandom PathKey) : (∃ m, canonicalCorrelation [0.7, 0.7, 0.7] 0 = .ok m) ∧
    ∃ m₁ m₃ J₁ J₃ law, canonicalCorrelation [0.5, 0.0, 0.0] 1 = .ok m₁ ∧ canonicalCorrelation [0.5, 0.0, 0.0] 3 = .ok m₃ ∧
      multivariateNormalDistribution R path 3 4 (rowsOf m₁) none = .ok J₁ ∧
      multivariateNormalDistribution R path 3 6 (rowsOf m₃) none = .ok J₃ ∧ ∀ J ∈ [J₁, J₃], ∃ profile : PathKey → Fin 20000 → ℝ,
        (∀ k, pmiProfile k J (20000 : ℕ) = .ok (List.ofFn fun i => (profile k i : EReal))) ∧
        pathLaw.map profile = Measure.pi fun _ => law := by
  have hρ : ∀ r ∈ [(0.5 : ℝ), 0.0, 0.0], |r| < 1 := by
    intro r hr
    simp only [List.mem_cons, List.not_mem_nil, or_false] at hr
    rcases hr with rfl | rfl | rfl <;> norm_num [abs_lt]
  obtain ⟨m₁, J₁, a1, a2, mi, law, a3, -, a4, -, -, -, a5⟩ := script_profile path_ideal R [0.5, 0.0, 0.0] (by simp) hρ 1
  obtain ⟨m₃, J₃, b1, b2, mi', law', b3, -, b4, -, -, -, b5⟩ := script_profile path_ideal R [0.5, 0.0, 0.0] (by simp) hρ 3
  obtain ⟨m, hm, -⟩ := canonicalCorrelation_spec [0.7, 0.7, 0.7] 0 le_rfl
  refine ⟨⟨m, hm⟩, m₁, m₃, J₁, J₃, law, a1, b1, a2, b2, ?_⟩
  have hl : law' = law := by rw [a4, b4, a3, b3]
  intro J hJ
  simp only [List.mem_cons, List.not_mem_nil, or_false] at hJ
  rcases hJ with rfl | rfl
  · obtain ⟨p, p1, -, p2⟩ := a5 20000 (by norm_num)
    exact ⟨p, p1, p2⟩
  · obtain ⟨p, p1, -, p2⟩ := b5 20000 (by norm_num)
    exact ⟨p, p1, hl ▸ p2⟩

/-- The hypotheses of `normal_profile` with correlated coordinates: the square roots of the covariance blocks always serve. -/
example (R : JaxRandom PathKey) {cov : Matrix (Fin (2 + 3)) (Fin (2 + 3)) ℝ} (hpos : cov.PosDef) :
    ∃ (Sx : Matrix (Fin 2) (Fin 2) ℝ) (Sy : Matrix (Fin 3) (Fin 3) ℝ) (C : Matrix (Fin 2) (Fin 3) ℝ),
      Sx * Sxᵀ = blockX cov ∧ Sy * Syᵀ = blockY cov ∧ Sx * C * Syᵀ = blockXY cov := by
  obtain ⟨A, -, h1, h2, h3, -⟩ := sqrt_facts (blockX_posDef (dx := 2) (dy := 3) hpos)
  obtain ⟨B, -, g1, g2, g3, -⟩ := sqrt_facts (blockY_posDef (dx := 2) (dy := 3) hpos)
  refine ⟨A, B, A⁻¹ * blockXY cov * B⁻¹, by rw [h2, h1], by rw [g2, g1], ?_⟩
  rw [g2, ← Matrix.mul_assoc, ← Matrix.mul_assoc, mul_nonsing_inv _ (isUnit_iff_ne_zero.2 h3), Matrix.one_mul, Matrix.mul_assoc,
    nonsing_inv_mul _ (isUnit_iff_ne_zero.2 g3), Matrix.mul_one]

end BMI.Bmm
