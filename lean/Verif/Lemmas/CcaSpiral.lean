import Verif.Lemmas.Maxcor
import Verif.Lemmas.BmmWitness

/-! CCA on functions of several pairs of normal variables. -/

namespace BMI.Cca

open MeasureTheory ProbabilityTheory Filter Topology BMI.Cca.Spec BMI.Kde BMI.Kde.Spec BMI.Gebelein BMI.Consistency BMI.Samplers BMI.Student BMI.Bmm
  BMI.Registry BMI.TaskIds Matrix

variable {p q k d dx dy : ℕ}

/-! ## Matrices of low rank -/

theorem prod_low {N : Matrix (Fin p) (Fin p) ℝ} (hN : N.PosSemidef) {s : ℝ} (h0 : 0 ≤ s) (h1 : s < 1) (hs : ∀ x : Fin p → ℝ, x ⬝ᵥ N *ᵥ x ≤ s * x ⬝ᵥ x)
    (hk : N.rank ≤ k) : (1 - s) ^ k ≤ (1 - N).det := by
  have hH := hN.isHermitian
  have hdet : (1 - N).det = ∏ i, (1 - hH.eigenvalues i) := by
    have h := Matrix.eval_charpoly N 1
    rw [hH.charpoly_eq, Polynomial.eval_prod] at h
    simp only [Polynomial.eval_sub, Polynomial.eval_X, Polynomial.eval_C] at h
    rw [map_one] at h
    exact h.symm
  have hle : ∀ i, hH.eigenvalues i ≤ s := fun i => by
    have h := hH.mulVec_eigenvectorBasis i
    set v : Fin p → ℝ := ⇑(hH.eigenvectorBasis i) with hv
    have hv0 : v ≠ 0 := fun e => (hH.eigenvectorBasis.orthonormal.ne_zero i) (by
      ext j
      exact congrFun e j)
    have hp : 0 < v ⬝ᵥ v := by
      refine lt_of_le_of_ne (Finset.sum_nonneg fun j _ => mul_self_nonneg _) fun e => hv0 (dotProduct_self_eq_zero.1 e.symm)
    have h2 := hs v
    rw [h, dotProduct_smul, smul_eq_mul] at h2
    exact le_of_mul_le_mul_right h2 hp
  have hcard : (Finset.univ.filter fun i => hH.eigenvalues i ≠ 0).card ≤ k := by
    rw [hH.rank_eq_card_non_zero_eigs, Fintype.card_subtype] at hk
    exact hk
  rw [hdet]
  calc (1 - s) ^ k ≤ (1 - s) ^ (Finset.univ.filter fun i => hH.eigenvalues i ≠ 0).card :=
        pow_le_pow_of_le_one (by linarith) (by linarith) hcard
    _ = ∏ i, if hH.eigenvalues i ≠ 0 then 1 - s else 1 := by
        rw [Finset.prod_ite, Finset.prod_const, Finset.prod_const_one, mul_one]
    _ ≤ ∏ i, (1 - hH.eigenvalues i) := by
        refine Finset.prod_le_prod (fun i _ => ?_) fun i _ => ?_
        · split_ifs <;> linarith
        · split_ifs with h
          · linarith [hle i]
          · rw [not_not] at h
            rw [h, sub_zero]

/-- If no combinations of X and Y have a correlation larger than `ρ` and all but `k` components of X are uncorrelated with Y, the number
is at most that of `k` correlations `ρ`. -/
theorem gauss_low {S : Matrix (Fin (p + q)) (Fin (p + q)) ℝ} (hs : Sᵀ = S) (hA : (blockX S).PosDef) (hD : (blockY S).PosDef) {ρ : ℝ} (hρ : ρ ^ 2 < 1)
    (h : ∀ (a : Fin p → ℝ) (b : Fin q → ℝ), (a ⬝ᵥ blockXY S *ᵥ b) ^ 2 ≤ ρ ^ 2 * (a ⬝ᵥ blockX S *ᵥ a) * (b ⬝ᵥ blockY S *ᵥ b))
    (hz : ∀ (i : Fin p) (j : Fin q), k ≤ (i : ℕ) → blockXY S i j = 0) :
    S.PosDef ∧ gauss S ≤ -(k / 2 * Real.log (1 - ρ ^ 2)) := by
  set A := blockX S with hAd
  set D := blockY S with hDd
  set C := blockXY S with hCd
  haveI : Invertible D := hD.isUnit.invertible
  have hdA := hA.det_pos
  have hdD := hD.det_pos
  set Q := C * D⁻¹ * Cᵀ with hQ
  have hQp : Q.PosSemidef := by
    have := hD.inv.posSemidef.mul_mul_conjTranspose_same C
    rwa [Matrix.conjTranspose_eq_transpose_of_trivial] at this
  have hDs : D⁻¹ᵀ = D⁻¹ := by
    have := hD.inv.isHermitian
    rwa [Matrix.IsHermitian, Matrix.conjTranspose_eq_transpose_of_trivial] at this
  have hq : ∀ a : Fin p → ℝ, 0 ≤ a ⬝ᵥ Q *ᵥ a := fun a => by
    have := hQp.dotProduct_mulVec_nonneg a
    simpa using this
  have hqa : ∀ a : Fin p → ℝ, 0 ≤ a ⬝ᵥ A *ᵥ a := fun a => by
    have := hA.posSemidef.dotProduct_mulVec_nonneg a
    simpa using this
  have hle : ∀ a : Fin p → ℝ, a ⬝ᵥ Q *ᵥ a ≤ ρ ^ 2 * a ⬝ᵥ A *ᵥ a := fun a => by
    have h1 := h a (D⁻¹ *ᵥ (Cᵀ *ᵥ a))
    have e1 : C *ᵥ (D⁻¹ *ᵥ (Cᵀ *ᵥ a)) = Q *ᵥ a := by rw [hQ, Matrix.mulVec_mulVec, Matrix.mulVec_mulVec, Matrix.mul_assoc]
    have e2 : D *ᵥ (D⁻¹ *ᵥ (Cᵀ *ᵥ a)) = Cᵀ *ᵥ a := by
      rw [Matrix.mulVec_mulVec, Matrix.mul_nonsing_inv _ (isUnit_iff_ne_zero.2 hdD.ne'), Matrix.one_mulVec]
    have e3 : (D⁻¹ *ᵥ (Cᵀ *ᵥ a)) ⬝ᵥ (Cᵀ *ᵥ a) = a ⬝ᵥ Q *ᵥ a := by
      rw [dotProduct_comm, ← e1, Matrix.mulVec_transpose, Matrix.dotProduct_mulVec a]
    rw [e1, e2, e3] at h1
    rcases (hq a).eq_or_lt with h0 | h0
    · rw [← h0]
      exact mul_nonneg (sq_nonneg _) (hqa a)
    · exact le_of_mul_le_mul_right (by nlinarith) h0
  obtain ⟨L, -, hL⟩ := exists_cholesky hA
  have hLd : L.det ≠ 0 := fun e => hdA.ne' (by rw [← hL, Matrix.det_mul, e, zero_mul])
  have hLu : IsUnit L.det := isUnit_iff_ne_zero.2 hLd
  set T := L⁻¹ with hT
  have hTA : T * A * Tᵀ = 1 := by
    rw [← hL, hT, ← Matrix.mul_assoc, Matrix.nonsing_inv_mul _ hLu, Matrix.one_mul, ← Matrix.transpose_mul, Matrix.nonsing_inv_mul _ hLu,
      Matrix.transpose_one]
  have hTd : T.det * A.det * T.det = 1 := by
    have := congrArg Matrix.det hTA
    rwa [Matrix.det_mul, Matrix.det_mul, Matrix.det_transpose, Matrix.det_one] at this
  have hN : (T * Q * Tᵀ).PosSemidef := by
    have := hQp.mul_mul_conjTranspose_same T
    rwa [Matrix.conjTranspose_eq_transpose_of_trivial] at this
  have hform : ∀ (M : Matrix (Fin p) (Fin p) ℝ) (x : Fin p → ℝ), x ⬝ᵥ (T * M * Tᵀ) *ᵥ x = (Tᵀ *ᵥ x) ⬝ᵥ M *ᵥ (Tᵀ *ᵥ x) := fun M x => by
    rw [← Matrix.mulVec_mulVec, ← Matrix.mulVec_mulVec, Matrix.dotProduct_mulVec x, ← Matrix.mulVec_transpose]
  have hrank : (T * Q * Tᵀ).rank ≤ k := by
    have r1 : (T * Q * Tᵀ).rank ≤ C.rank :=
      ((Matrix.rank_mul_le_left _ _).trans (Matrix.rank_mul_le_right _ _)).trans ((Matrix.rank_mul_le_left _ _).trans (Matrix.rank_mul_le_left _ _))
    have r2 : C = diagonal (fun i : Fin p => if (i : ℕ) < k then (1 : ℝ) else 0) * C := by
      ext i j
      rw [Matrix.diagonal_mul]
      split_ifs with hi
      · rw [one_mul]
      · rw [zero_mul, hz i j (not_lt.1 hi)]
    have r3 : C.rank ≤ k := by
      rw [r2]
      refine (Matrix.rank_mul_le_left _ _).trans ?_
      rw [Matrix.rank_diagonal, Fintype.card_subtype]
      have : (Finset.univ.filter fun i : Fin p => (if (i : ℕ) < k then (1 : ℝ) else 0) ≠ 0).card ≤ (Finset.range k).card := by
        refine Finset.card_le_card_of_injOn (fun i : Fin p => (i : ℕ)) (fun i hi => ?_) fun i _ j _ e => Fin.ext e
        have : (if (i : ℕ) < k then (1 : ℝ) else 0) ≠ 0 := (Finset.mem_filter.1 hi).2
        rw [Finset.coe_range, Set.mem_Iio]
        by_contra hn
        rw [if_neg hn] at this
        exact this rfl
      rwa [Finset.card_range] at this
    exact r1.trans r3
  have hlow := prod_low hN (sq_nonneg ρ) hρ (fun x => by
    have e : x ⬝ᵥ x = (Tᵀ *ᵥ x) ⬝ᵥ A *ᵥ (Tᵀ *ᵥ x) := by rw [← hform, hTA, Matrix.one_mulVec]
    rw [hform, e]
    exact hle _) hrank
  have hdetT : (1 - T * Q * Tᵀ).det = T.det * (A - Q).det * T.det := by
    rw [← hTA, ← Matrix.sub_mul, ← Matrix.mul_sub, Matrix.det_mul, Matrix.det_mul, Matrix.det_transpose]
  have hre : S.submatrix finSumFinEquiv finSumFinEquiv = fromBlocks A C Cᵀ D := by
    have := ofBlocks_eta hs
    conv_lhs => rw [this]
    unfold ofBlocks
    simp
    exact ⟨rfl, rfl, rfl⟩
  have hdet : S.det = D.det * (A - Q).det := by
    rw [← Matrix.det_submatrix_equiv_self finSumFinEquiv S, hre, Matrix.det_fromBlocks₂₂, Matrix.invOf_eq_nonsing_inv]
  have hkey : (1 - ρ ^ 2) ^ k * A.det ≤ (A - Q).det := by
    rw [hdetT] at hlow
    have hT2 : 0 < T.det * T.det := by
      have : T.det ≠ 0 := fun e => by rw [e] at hTd; simp at hTd
      exact mul_self_pos.2 this
    have : (1 - ρ ^ 2) ^ k * A.det * (T.det * T.det) ≤ (A - Q).det * (T.det * T.det) := by
      calc (1 - ρ ^ 2) ^ k * A.det * (T.det * T.det) = (1 - ρ ^ 2) ^ k * (T.det * A.det * T.det) := by ring
        _ = (1 - ρ ^ 2) ^ k := by rw [hTd, mul_one]
        _ ≤ _ := by linarith
    exact le_of_mul_le_mul_right this hT2
  have hr0 : 0 < 1 - ρ ^ 2 := by linarith
  have hpk : 0 < (1 - ρ ^ 2) ^ k := pow_pos hr0 k
  have hAQ : 0 < (A - Q).det := lt_of_lt_of_le (mul_pos hpk hdA) hkey
  have hpos : S.PosDef := by
    have h2 : (fromBlocks A C Cᴴ D).PosSemidef := by
      refine (Matrix.PosDef.fromBlocks₂₂ A C hD).2 ?_
      rw [Matrix.conjTranspose_eq_transpose_of_trivial, ← hQ]
      refine Matrix.PosSemidef.of_dotProduct_mulVec_nonneg (hA.isHermitian.sub hQp.isHermitian) fun a => ?_
      rw [star_trivial, Matrix.sub_mulVec, dotProduct_sub]
      nlinarith [hle a, hqa a]
    rw [Matrix.conjTranspose_eq_transpose_of_trivial, ← hre] at h2
    have h3 : S.PosSemidef := by
      have := h2.submatrix finSumFinEquiv.symm
      simpa using this
    rw [h3.posDef_iff_det_ne_zero, hdet]
    exact mul_ne_zero hdD.ne' hAQ.ne'
  refine ⟨hpos, ?_⟩
  unfold gauss
  rw [← hAd, ← hDd, hdet, Real.log_mul hdD.ne' hAQ.ne']
  have h4 := Real.log_le_log (mul_pos hpk hdA) hkey
  rw [Real.log_mul hpk.ne' hdA.ne', Real.log_pow] at h4
  linarith

/-! ## Combinations of the components of a regular law -/

theorem regular_comb {Q : Measure (Fin d → ℝ)} [IsProbabilityMeasure Q] (h : Regular Q) (hL : ∀ c, MemLp (fun u : Fin d → ℝ => u c) 2 Q) {a : Fin d → ℝ}
    (ha : a ≠ 0) : 0 < Var[fun u : Fin d → ℝ => ∑ i, a i * u i; Q] := by
  have hs : MemLp (fun u : Fin d → ℝ => ∑ i, a i * u i) 2 Q := memLp_finsetSum _ fun i _ => (hL i).const_mul (a i)
  refine lt_of_le_of_ne (variance_nonneg _ _) fun h0 => ?_
  have h1 := ae_eq_integral_of_variance_eq_zero hs h0.symm
  obtain ⟨f, -, -, h3, -⟩ := h.density
  have hac : Q ≪ volume := by rw [h3]; exact withDensity_absolutelyContinuous _ _
  set c := Q[fun u : Fin d → ℝ => ∑ i, a i * u i]
  obtain ⟨j, hj'⟩ := Function.ne_iff.1 ha
  have hj : a j ≠ 0 := hj'
  have hvol : volume {u : Fin d → ℝ | ∑ i, a i * u i = c} = 0 := by
    let φ : (Fin d → ℝ) →ₗ[ℝ] ℝ := Fintype.linearCombination ℝ a
    have hφ : ∀ u, φ u = ∑ i, a i * u i := fun u => by
      simp [φ, Fintype.linearCombination_apply, mul_comm]
    let E : AffineSubspace ℝ (Fin d → ℝ) := AffineSubspace.mk' (Pi.single j (c / a j)) (LinearMap.ker φ)
    have hset : {u : Fin d → ℝ | ∑ i, a i * u i = c} = (E : Set (Fin d → ℝ)) := by
      ext u
      have hs : φ (Pi.single j (c / a j)) = c := by
        rw [hφ, Finset.sum_eq_single j]
        · rw [Pi.single_eq_same]
          field_simp
        · intro b _ hb
          rw [Pi.single_eq_of_ne hb, mul_zero]
        · intro h
          exact absurd (Finset.mem_univ j) h
      rw [SetLike.mem_coe, AffineSubspace.mem_mk', LinearMap.mem_ker, vsub_eq_sub, map_sub, hs, sub_eq_zero, hφ]
      rfl
    rw [hset]
    refine Measure.addHaar_affineSubspace volume E fun htop => ?_
    have h2 : ∀ u : Fin d → ℝ, ∑ i, a i * u i = c := fun u => by
      have : u ∈ (E : Set (Fin d → ℝ)) := by rw [htop]; trivial
      rwa [← hset] at this
    have e0 := h2 0
    have e1 := h2 (Pi.single j 1)
    rw [Finset.sum_eq_single j (fun b _ hb => by rw [Pi.single_eq_of_ne hb, mul_zero]) (fun h => absurd (Finset.mem_univ j) h), Pi.single_eq_same,
      mul_one] at e1
    simp only [Pi.zero_apply, mul_zero, Finset.sum_const_zero] at e0
    exact hj (e1.trans e0.symm)
  have h4 : Q {u : Fin d → ℝ | ∑ i, a i * u i = c} = 0 := hac hvol
  have h5 : Q Set.univ ≤ Q {u : Fin d → ℝ | ∑ i, a i * u i = c} := by
    refine measure_mono_ae ?_
    filter_upwards [h1] with u hu _
    exact hu
  rw [h4] at h5
  simp at h5

/-! ## Pairs of normal variables as functions of independent pairs -/

/-- Independent pairs. -/
noncomputable def source (d : ℕ) : Measure (Fin d → ℝ × ℝ) := Measure.pi fun _ => γ.prod γ

instance : IsProbabilityMeasure (source d) := by unfold source; infer_instance

/-- The correlation of the pair with a number. -/
noncomputable def strengthAt (k : ℕ) (ρ : ℝ) (j : ℕ) : ℝ := if j < k then ρ else 0

/-- X. -/
def sourceX (dx dy : ℕ) (ω : Fin (dx + dy) → ℝ × ℝ) (i : Fin dx) : ℝ := (ω (Fin.castAdd dy i)).1

/-- Y. -/
noncomputable def sourceY (dx dy k : ℕ) (ρ : ℝ) (ω : Fin (dx + dy) → ℝ × ℝ) (j : Fin dy) : ℝ :=
  mate (strengthAt k ρ j) (ω (Fin.castLE (Nat.le_add_left dy dx) j))

theorem measurable_sourceX : Measurable (sourceX dx dy) := measurable_pi_lambda _ fun _ => measurable_fst.comp (measurable_pi_apply _)

theorem measurable_sourceY (ρ : ℝ) : Measurable (sourceY dx dy k ρ) :=
  measurable_pi_lambda _ fun _ => (measurable_mate _).comp (measurable_pi_apply _)

/-- The coefficients. -/
noncomputable def sourceRows (dx dy k : ℕ) (ρ : ℝ) : Fin (dx + dy) → Fin ((dx + dy) + (dx + dy)) → ℝ :=
  Fin.append (fun i : Fin dx => Pi.single (Fin.castAdd (dx + dy) (Fin.castAdd dy i)) 1)
    fun j : Fin dy => strengthAt k ρ j • Pi.single (Fin.castAdd (dx + dy) (Fin.castLE (Nat.le_add_left dy dx) j)) 1 +
      √(1 - strengthAt k ρ j ^ 2) • Pi.single (Fin.natAdd (dx + dy) (Fin.castLE (Nat.le_add_left dy dx) j)) 1

/-- The matrix of coefficients. -/
noncomputable def sourceMat (dx dy k : ℕ) (ρ : ℝ) : Matrix (Fin (dx + dy)) (Fin ((dx + dy) + (dx + dy))) ℝ := Matrix.of (sourceRows dx dy k ρ)

theorem sourceMat_left (ρ : ℝ) (i : Fin dx) : sourceMat dx dy k ρ (Fin.castAdd dy i) = Pi.single (Fin.castAdd (dx + dy) (Fin.castAdd dy i)) 1 := by
  show sourceRows dx dy k ρ _ = _
  exact Fin.append_left _ _ _

theorem sourceMat_right (ρ : ℝ) (j : Fin dy) : sourceMat dx dy k ρ (Fin.natAdd dx j) =
    strengthAt k ρ j • Pi.single (Fin.castAdd (dx + dy) (Fin.castLE (Nat.le_add_left dy dx) j)) 1 +
      √(1 - strengthAt k ρ j ^ 2) • Pi.single (Fin.natAdd (dx + dy) (Fin.castLE (Nat.le_add_left dy dx) j)) 1 := by
  show sourceRows dx dy k ρ _ = _
  exact Fin.append_right _ _ _

theorem strengthAt_sq {ρ : ℝ} (hρ : ρ ^ 2 ≤ 1) (j : ℕ) : strengthAt k ρ j ^ 2 ≤ 1 := by
  unfold strengthAt
  split_ifs <;> norm_num [hρ]

theorem natAdd_ne_castAdd {n m : ℕ} (i : Fin n) (j : Fin m) : Fin.castAdd m i ≠ Fin.natAdd n j := fun h => by
  have := congrArg Fin.val h
  simp at this
  omega

theorem sourceMat_gram (hkx : k ≤ dx) {ρ : ℝ} (hρ : ρ ^ 2 ≤ 1) : sourceMat dx dy k ρ * (sourceMat dx dy k ρ)ᵀ = pairs dx dy k ρ := by
  have c := pairs_isCanonical dx dy k hkx ρ
  have hdot : ∀ s t, (sourceMat dx dy k ρ * (sourceMat dx dy k ρ)ᵀ) s t = sourceMat dx dy k ρ s ⬝ᵥ sourceMat dx dy k ρ t := fun s t => rfl
  have hs : ∀ a b : Fin ((dx + dy) + (dx + dy)), (Pi.single a (1 : ℝ) : Fin ((dx + dy) + (dx + dy)) → ℝ) ⬝ᵥ Pi.single b 1 = if a = b then 1 else 0 :=
    fun a b => by rw [single_dotProduct, one_mul, Pi.single_apply]
  ext s t
  rw [hdot]
  induction s using Fin.addCases with
  | left i =>
    induction t using Fin.addCases with
    | left j => rw [sourceMat_left, sourceMat_left, hs, c.xx]; simp [Fin.ext_iff]
    | right j =>
      rw [sourceMat_left, sourceMat_right, dotProduct_add, dotProduct_smul, dotProduct_smul, hs, hs, c.xy, if_neg (natAdd_ne_castAdd _ _)]
      simp [Fin.ext_iff, strengthAt]
      aesop
  | right i =>
    induction t using Fin.addCases with
    | left j =>
      rw [dotProduct_comm, sourceMat_left, sourceMat_right, dotProduct_add, dotProduct_smul, dotProduct_smul, hs, hs, c.yx,
        if_neg (natAdd_ne_castAdd _ _)]
      simp [Fin.ext_iff, strengthAt]
      aesop
    | right j =>
      rw [sourceMat_right, sourceMat_right, c.yy, add_dotProduct, dotProduct_add, dotProduct_add]
      simp only [smul_dotProduct, dotProduct_smul, hs, if_neg (natAdd_ne_castAdd _ _), if_neg (natAdd_ne_castAdd _ _).symm, smul_eq_mul, mul_zero,
        add_zero, zero_add]
      by_cases hij : i = j
      · subst hij
        rw [if_pos rfl, if_pos rfl, if_pos rfl, mul_one, mul_one, Real.mul_self_sqrt (by linarith [strengthAt_sq (k := k) hρ i])]
        ring
      · have h1 : (Fin.castLE (Nat.le_add_left dy dx) i) ≠ Fin.castLE (Nat.le_add_left dy dx) j := fun e => hij (by simpa [Fin.ext_iff] using e)
        have h2 : Fin.castAdd (dx + dy) (Fin.castLE (Nat.le_add_left dy dx) i) ≠ Fin.castAdd (dx + dy) (Fin.castLE (Nat.le_add_left dy dx) j) :=
          fun e => h1 (by simpa using e)
        have h3 : Fin.natAdd (dx + dy) (Fin.castLE (Nat.le_add_left dy dx) i) ≠ Fin.natAdd (dx + dy) (Fin.castLE (Nat.le_add_left dy dx) j) :=
          fun e => h1 (by simpa using e)
        rw [if_neg h2, if_neg h3, if_neg hij]
        simp

theorem source_law (hkx : k ≤ dx) {ρ : ℝ} (hρ : ρ ^ 2 ≤ 1) :
    (normalLaw 0 (pairs dx dy k ρ)).map (halves dx dy) = (source (dx + dy)).map fun ω => (sourceX dx dy ω, sourceY dx dy k ρ ω) := by
  have h1 := normalLaw_map (0 : Fin ((dx + dy) + (dx + dy)) → ℝ) Matrix.PosSemidef.one 0 (sourceMat dx dy k ρ)
  rw [stdNormal_eq, Matrix.mulVec_zero, add_zero, Matrix.mul_one, sourceMat_gram hkx hρ] at h1
  have h2 := measurePreserving_arrowProdEquivProdArrow ℝ ℝ (Fin (dx + dy)) (fun _ => γ) fun _ => γ
  have h3 := stdNormal_split (dx + dy) (dx + dy)
  have m1 : Measurable fun x : Fin ((dx + dy) + (dx + dy)) → ℝ => 0 + sourceMat dx dy k ρ *ᵥ x := by
    have : Continuous fun x : Fin ((dx + dy) + (dx + dy)) → ℝ => 0 + sourceMat dx dy k ρ *ᵥ x := by fun_prop
    exact this.measurable
  rw [← h1, Measure.map_map measurable_halves m1]
  let out : (Fin (dx + dy) → ℝ) × (Fin (dx + dy) → ℝ) → (Fin dx → ℝ) × (Fin dy → ℝ) := fun w =>
    (fun i => w.1 (Fin.castAdd dy i), fun j => mate (strengthAt k ρ j) (w.1 (Fin.castLE (Nat.le_add_left dy dx) j), w.2 (Fin.castLE (Nat.le_add_left dy dx) j)))
  have mo : Measurable out := by
    refine (measurable_pi_lambda _ fun i => ?_).prodMk (measurable_pi_lambda _ fun j => ?_)
    · exact (measurable_pi_apply _).comp measurable_fst
    · exact (measurable_mate _).comp (((measurable_pi_apply _).comp measurable_fst).prodMk ((measurable_pi_apply _).comp measurable_snd))
  have e1 : (halves dx dy ∘ fun x : Fin ((dx + dy) + (dx + dy)) → ℝ => 0 + sourceMat dx dy k ρ *ᵥ x) = out ∘ Samplers.parts := by
    funext x
    refine Prod.ext ?_ ?_
    · funext i
      show 0 + sourceMat dx dy k ρ (Fin.castAdd dy i) ⬝ᵥ x = _
      rw [sourceMat_left, single_dotProduct]
      simp [out, Samplers.parts]
    · funext j
      show 0 + sourceMat dx dy k ρ (Fin.natAdd dx j) ⬝ᵥ x = _
      rw [sourceMat_right, add_dotProduct, smul_dotProduct, smul_dotProduct, single_dotProduct, single_dotProduct]
      simp [out, Samplers.parts, mate]
  have mp : Measurable (Samplers.parts : (Fin ((dx + dy) + (dx + dy)) → ℝ) → (Fin (dx + dy) → ℝ) × (Fin (dx + dy) → ℝ)) := measurable_halves
  rw [e1, ← Measure.map_map mo mp, h3]
  have e2 : (stdNormal (dx + dy)).prod (stdNormal (dx + dy)) = (source (dx + dy)).map (MeasurableEquiv.arrowProdEquivProdArrow ℝ ℝ (Fin (dx + dy))) :=
    h2.map_eq.symm
  rw [e2, Measure.map_map mo (MeasurableEquiv.measurable _)]
  rfl

theorem strengthAt_abs (ρ : ℝ) (j : ℕ) : |strengthAt k ρ j| ≤ |ρ| := by
  unfold strengthAt
  split_ifs <;> simp

theorem maxcor_source {ρ : ℝ} (hρ : ρ ^ 2 ≤ 1) : Maxcor (source (dx + dy)) (sourceX dx dy) (sourceY dx dy k ρ) |ρ| := by
  have h := maxcor_pi (abs_nonneg ρ) (μ := fun _ : Fin (dx + dy) => γ.prod γ) (X := fun _ => Prod.fst) (Y := fun i : Fin (dx + dy) => mate (strengthAt k ρ i))
    (fun _ => measurable_fst) (fun _ => measurable_mate _) fun i => maxcor_pair (strengthAt_sq hρ _) (strengthAt_abs _ _)
  exact h.comp (F := fun x (i : Fin dx) => x (Fin.castAdd dy i)) (G := fun y (j : Fin dy) => y (Fin.castLE (Nat.le_add_left dy dx) j))
    (measurable_pi_lambda _ fun _ => measurable_pi_apply _) (measurable_pi_lambda _ fun _ => measurable_pi_apply _)

theorem maxcor_rest {ρ : ℝ} (hρ : ρ ^ 2 ≤ 1) {i : Fin dx} (hi : k ≤ (i : ℕ)) :
    Maxcor (source (dx + dy)) (fun ω => sourceX dx dy ω i) (sourceY dx dy k ρ) 0 := by
  have h := maxcor_pi (r := 0) le_rfl (μ := fun _ : Fin (dx + dy) => γ.prod γ)
    (X := fun j => if j = Fin.castAdd dy i then Prod.fst else fun _ => (0 : ℝ)) (Y := fun j : Fin (dx + dy) => mate (strengthAt k ρ j))
    (fun j => by split_ifs; exacts [measurable_fst, measurable_const]) (fun _ => measurable_mate _) fun j => by
      by_cases hj : j = Fin.castAdd dy i
      · subst hj
        simp only [if_true]
        have : strengthAt k ρ (Fin.castAdd dy i : Fin (dx + dy)) = 0 := if_neg (by simpa using hi)
        rw [this]
        exact maxcor_pair (by norm_num) (by norm_num)
      · simp only [if_neg hj]
        exact maxcor_const (c := 0) (fun _ => rfl) le_rfl
  have h2 := h.comp (F := fun x : Fin (dx + dy) → ℝ => x (Fin.castAdd dy i)) (G := fun y (j : Fin dy) => y (Fin.castLE (Nat.le_add_left dy dx) j))
    (measurable_pi_apply _) (measurable_pi_lambda _ fun _ => measurable_pi_apply _)
  simp only [if_true] at h2
  exact h2

/-! ## Functions of pairs -/

/-- Any functions of X and Y, as long as the components of X without partners are only mapped one by one. -/
theorem under_mixed (hkx : k ≤ dx) {ρ : ℝ} (hρ : ρ ^ 2 < 1) {U : (Fin dx → ℝ) → Fin dx → ℝ} {V : (Fin dy → ℝ) → Fin dy → ℝ} (hU : Measurable U) (hV : Measurable V)
    (hz : ∀ i : Fin dx, k ≤ (i : ℕ) → ∃ f : ℝ → ℝ, Measurable f ∧ ∀ x, U x i = f (x i)) {r : ENNReal} (hr : 2 < r)
    (h : Sides r ⟨dx, dy, ((normalLaw 0 (pairs dx dy k ρ)).map (halves dx dy)).map (Prod.map U V)⟩) :
    Under ⟨dx, dy, ((normalLaw 0 (pairs dx dy k ρ)).map (halves dx dy)).map (Prod.map U V)⟩ (-(k / 2 * Real.log (1 - ρ ^ 2))) := by
  have mX := measurable_sourceX (dx := dx) (dy := dy)
  have mY := measurable_sourceY (dx := dx) (dy := dy) (k := k) ρ
  have mUX := hU.comp mX
  have mVY := hV.comp mY
  have mUV : Measurable fun ω : Fin (dx + dy) → ℝ × ℝ => (U (sourceX dx dy ω), V (sourceY dx dy k ρ ω)) := mUX.prodMk mVY
  have e : ((normalLaw 0 (pairs dx dy k ρ)).map (halves dx dy)).map (Prod.map U V) =
      (source (dx + dy)).map fun ω => (U (sourceX dx dy ω), V (sourceY dx dy k ρ ω)) := by
    rw [source_law hkx hρ.le, Measure.map_map (hU.prodMap hV) (mX.prodMk mY)]
    rfl
  rw [e] at h ⊢
  set P := (source (dx + dy)).map fun ω => (U (sourceX dx dy ω), V (sourceY dx dy k ρ ω)) with hP
  haveI : IsProbabilityMeasure P := Measure.isProbabilityMeasure_map mUV.aemeasurable
  obtain ⟨hl, hrr⟩ := h
  haveI := hl.prob
  haveI := hrr.prob
  have L1 : ∀ i, MemLp (fun z : (Fin dx → ℝ) × (Fin dy → ℝ) => z.1 i) 2 P := fun i =>
    (memLp_map_measure_iff (measurable_pi_apply i).aestronglyMeasurable measurable_fst.aemeasurable).1 (hl.second hr i)
  have L2 : ∀ i, MemLp (fun z : (Fin dx → ℝ) × (Fin dy → ℝ) => z.2 i) 2 P := fun i =>
    (memLp_map_measure_iff (measurable_pi_apply i).aestronglyMeasurable measurable_snd.aemeasurable).1 (hrr.second hr i)
  let S : Matrix (Fin (dx + dy)) (Fin (dx + dy)) ℝ := Matrix.of fun p q =>
    cov[fun z : (Fin dx → ℝ) × (Fin dy → ℝ) => Fin.append z.1 z.2 p, fun z => Fin.append z.1 z.2 q; P]
  have hcov : HasCov P S := by
    refine ⟨fun i => ?_, fun i j => rfl⟩
    refine Fin.addCases (fun j => ?_) (fun j => ?_) i
    · simpa using L1 j
    · simpa using L2 j
  have hsymm : Sᵀ = S := by
    ext i j
    exact covariance_comm _ _
  have hX : blockX S = Matrix.of fun i j => cov[fun z : (Fin dx → ℝ) × (Fin dy → ℝ) => z.1 i, fun z => z.1 j; P] := by
    ext i j
    simp [blockX, S]
  have hY : blockY S = Matrix.of fun i j => cov[fun z : (Fin dx → ℝ) × (Fin dy → ℝ) => z.2 i, fun z => z.2 j; P] := by
    ext i j
    simp [blockY, S]
  have hXY : ∀ i j, blockXY S i j = cov[fun z : (Fin dx → ℝ) × (Fin dy → ℝ) => z.1 i, fun z => z.2 j; P] := fun i j => by
    simp [blockXY, S]
  have qX : ∀ a : Fin dx → ℝ, a ⬝ᵥ blockX S *ᵥ a = Var[fun z : (Fin dx → ℝ) × (Fin dy → ℝ) => ∑ i, a i * z.1 i; P] := fun a => by
    rw [hX, var_comb L1]
  have qY : ∀ b : Fin dy → ℝ, b ⬝ᵥ blockY S *ᵥ b = Var[fun z : (Fin dx → ℝ) × (Fin dy → ℝ) => ∑ i, b i * z.2 i; P] := fun b => by
    rw [hY, var_comb L2]
  have hA : (blockX S).PosDef := by
    refine Matrix.PosDef.of_dotProduct_mulVec_pos ?_ fun a ha => ?_
    · rw [hX]
      ext i j
      exact covariance_comm _ _
    · rw [star_trivial, qX]
      have := regular_comb hl.regular (hl.second hr) ha
      have m : Measurable fun u : Fin dx → ℝ => ∑ i, a i * u i := by fun_prop
      rwa [Measure.fst, variance_map m.aemeasurable measurable_fst.aemeasurable] at this
  have hD : (blockY S).PosDef := by
    refine Matrix.PosDef.of_dotProduct_mulVec_pos ?_ fun a ha => ?_
    · rw [hY]
      ext i j
      exact covariance_comm _ _
    · rw [star_trivial, qY]
      have := regular_comb hrr.regular (hrr.second hr) ha
      have m : Measurable fun u : Fin dy → ℝ => ∑ i, a i * u i := by fun_prop
      rwa [Measure.snd, variance_map m.aemeasurable measurable_snd.aemeasurable] at this
  have pull : ∀ {u v : (Fin dx → ℝ) × (Fin dy → ℝ) → ℝ}, Measurable u → Measurable v → cov[u, v; P] =
      cov[fun ω => u (U (sourceX dx dy ω), V (sourceY dx dy k ρ ω)), fun ω => v (U (sourceX dx dy ω), V (sourceY dx dy k ρ ω)); source (dx + dy)] :=
    fun {u v} hu hv => covariance_map hu.aestronglyMeasurable hv.aestronglyMeasurable mUV.aemeasurable
  have pullVar : ∀ {u : (Fin dx → ℝ) × (Fin dy → ℝ) → ℝ}, Measurable u → Var[u; P] =
      Var[fun ω => u (U (sourceX dx dy ω), V (sourceY dx dy k ρ ω)); source (dx + dy)] :=
    fun {u} hu => variance_map hu.aemeasurable mUV.aemeasurable
  have pullLp : ∀ {u : (Fin dx → ℝ) × (Fin dy → ℝ) → ℝ}, Measurable u → MemLp u 2 P →
      MemLp (fun ω => u (U (sourceX dx dy ω), V (sourceY dx dy k ρ ω))) 2 (source (dx + dy)) :=
    fun {u} hu h => (memLp_map_measure_iff hu.aestronglyMeasurable mUV.aemeasurable).1 h
  obtain ⟨g1, g2⟩ := gauss_low (k := k) hsymm hA hD hρ (fun a b => by
    rw [qX, qY]
    have la : MemLp (fun z : (Fin dx → ℝ) × (Fin dy → ℝ) => ∑ i, a i * z.1 i) 2 P := memLp_finsetSum _ fun i _ => (L1 i).const_mul (a i)
    have lb : MemLp (fun z : (Fin dx → ℝ) × (Fin dy → ℝ) => ∑ i, b i * z.2 i) 2 P := memLp_finsetSum _ fun i _ => (L2 i).const_mul (b i)
    have e1 : a ⬝ᵥ blockXY S *ᵥ b = cov[fun z : (Fin dx → ℝ) × (Fin dy → ℝ) => ∑ i, a i * z.1 i, fun z => ∑ j, b j * z.2 j; P] := by
      rw [cov_comb L1 lb]
      simp only [dotProduct, Matrix.mulVec]
      refine Finset.sum_congr rfl fun i _ => ?_
      rw [covariance_comm, cov_comb L2 (L1 i)]
      congr 1
      refine Finset.sum_congr rfl fun j _ => ?_
      rw [covariance_comm, hXY, mul_comm]
    have ma : Measurable fun z : (Fin dx → ℝ) × (Fin dy → ℝ) => ∑ i, a i * z.1 i := by fun_prop
    have mb : Measurable fun z : (Fin dx → ℝ) × (Fin dy → ℝ) => ∑ i, b i * z.2 i := by fun_prop
    have mfa : Measurable fun x : Fin dx → ℝ => ∑ i, a i * U x i := by fun_prop
    have mgb : Measurable fun y : Fin dy → ℝ => ∑ i, b i * V y i := by fun_prop
    have key := (maxcor_source (dx := dx) (dy := dy) (k := k) hρ.le).cov_le mX mY mfa mgb (pullLp ma la) (pullLp mb lb)
    have c1 := pull ma mb
    have c2 := pullVar ma
    have c3 := pullVar mb
    simp only at c1 c2 c3
    rw [← c1, ← c2, ← c3, ← e1] at key
    have h2 := pow_le_pow_left₀ (abs_nonneg _) key 2
    rw [sq_abs, mul_pow, mul_pow, sq_abs, Real.sq_sqrt (variance_nonneg _ _), Real.sq_sqrt (variance_nonneg _ _)] at h2
    linarith) fun i j hi => by
    obtain ⟨f, hf, hfU⟩ := hz i hi
    have mi : Measurable fun z : (Fin dx → ℝ) × (Fin dy → ℝ) => z.1 i := (measurable_pi_apply i).comp measurable_fst
    have mj : Measurable fun z : (Fin dx → ℝ) × (Fin dy → ℝ) => z.2 j := (measurable_pi_apply j).comp measurable_snd
    have mgj : Measurable fun y : Fin dy → ℝ => V y j := (measurable_pi_apply j).comp hV
    have li := pullLp mi (L1 i)
    have lj := pullLp mj (L2 j)
    have c1 := pull mi mj
    simp only [hfU] at c1 li lj
    have key := (maxcor_rest (dx := dx) (dy := dy) hρ.le hi).cov_le ((measurable_pi_apply i).comp mX) mY hf mgj li lj
    rw [zero_mul] at key
    rw [hXY, c1]
    exact abs_eq_zero.1 (le_antisymm key (abs_nonneg _))
  exact ⟨S, hcov, g1, g2⟩

/-! ## Towers with spirals -/

/-- Components with numbers from `k` on are mapped one by one. -/
def Keeps {n : ℕ} (k : ℕ) (U : (Fin n → ℝ) → Fin n → ℝ) : Prop := ∀ i : Fin n, k ≤ (i : ℕ) → ∃ f : ℝ → ℝ, Measurable f ∧ ∀ x, U x i = f (x i)

theorem Keeps.comp {n : ℕ} {U U' : (Fin n → ℝ) → Fin n → ℝ} (h' : Keeps k U') (h : Keeps k U) : Keeps k (U' ∘ U) := fun i hi => by
  obtain ⟨f, hf, e⟩ := h i hi
  obtain ⟨f', hf', e'⟩ := h' i hi
  exact ⟨fun x => f' (f x), hf'.comp hf, fun x => by rw [Function.comp_apply, e', e]⟩

theorem keeps_each {n : ℕ} {f : ℝ → ℝ} (hf : Measurable f) : Keeps k fun (x : Fin n → ℝ) i => f (x i) := fun _ _ => ⟨f, hf, fun _ => rfl⟩

theorem keeps_whirl {n : ℕ} (h2 : 2 ≤ k) (c : ℝ) : Keeps k (whirl 0 1 c : (Fin n → ℝ) → Fin n → ℝ) := fun i hi => by
  refine ⟨fun x => x, measurable_id, fun x => ?_⟩
  unfold whirl
  split_ifs with h
  · unfold turn
    rw [if_neg, if_neg]
    · intro e
      have := congrArg Fin.val e
      simp at this
      omega
    · intro e
      have := congrArg Fin.val e
      simp at this
      omega
  · rfl

theorem measurable_whirl {n : ℕ} (i j : ℕ) (hij : i < j) (c : ℝ) : Measurable (whirl i j c : (Fin n → ℝ) → Fin n → ℝ) := by
  by_cases h : i < n ∧ j < n
  · have : (whirl i j c : (Fin n → ℝ) → Fin n → ℝ) = fun x => turn ⟨i, h.1⟩ ⟨j, h.2⟩ (c * sumSq x) x := whirl_eq ⟨i, h.1⟩ ⟨j, h.2⟩ c
    rw [this]
    exact measurable_turn hij c
  · have : (whirl i j c : (Fin n → ℝ) → Fin n → ℝ) = fun x => x := by
      funext x
      rw [whirl, dif_neg h]
    rw [this]
    exact measurable_id

theorem exp_hasSum {n : ℕ} (A : Matrix (Fin n) (Fin n) ℝ) : HasSum (fun m : ℕ => (m.factorial : ℝ)⁻¹ • A ^ m) (NormedSpace.exp A) :=
  open scoped Matrix.Norms.Operator in NormedSpace.exp_series_hasSum_exp' (𝕂 := ℝ) A

/-- A column of zeros turns into a column of the unit matrix. -/
theorem exp_col {n : ℕ} {A : Matrix (Fin n) (Fin n) ℝ} {i : Fin n} (h : ∀ j, A j i = 0) (j : Fin n) :
    NormedSpace.exp A j i = if j = i then 1 else 0 := by
  have hA : A * Matrix.single i i (1 : ℝ) = 0 := by
    ext a b
    by_cases hb : b = i
    · subst hb
      simp [h]
    · rw [Matrix.mul_single_apply_of_ne _ _ _ _ _ hb]
      rfl
  have h1 := (exp_hasSum A).mul_right (Matrix.single i i (1 : ℝ))
  have h2 := hasSum_single (f := fun n : ℕ => ((n.factorial : ℝ)⁻¹ • A ^ n) * Matrix.single i i (1 : ℝ)) 0 fun m hm => by
    obtain ⟨l, rfl⟩ := Nat.exists_eq_succ_of_ne_zero hm
    rw [Matrix.smul_mul, pow_succ, Matrix.mul_assoc, hA, Matrix.mul_zero, smul_zero]
  have h3 := congrFun (congrFun (h1.unique h2) j) i
  simpa [Matrix.one_apply, Matrix.single_apply, eq_comm] using h3

theorem keeps_rotation {n : ℕ} {A : Matrix (Fin n) (Fin n) ℝ} (h : ∀ i j : Fin n, k ≤ (i : ℕ) → A j i = 0) :
    Keeps k fun x : Fin n → ℝ => x ᵥ* NormedSpace.exp A := fun i hi => by
  refine ⟨fun x => x, measurable_id, fun x => ?_⟩
  simp only [Matrix.vecMul, dotProduct, exp_col fun j => h i j hi]
  simp

theorem measurable_rotation {n : ℕ} (M : Matrix (Fin n) (Fin n) ℝ) : Measurable fun x : Fin n → ℝ => x ᵥ* M :=
  measurable_pi_lambda _ fun i => by
    simp only [Matrix.vecMul, dotProduct]
    exact Finset.measurable_sum _ fun j _ => (measurable_pi_apply j).mul_const _

theorem gen_col {n : ℕ} (a b : ℕ) (i j : Fin n) (ha : a < (i : ℕ)) (hb : b < (i : ℕ)) : gen n a b j i = 0 := by
  have e : gen n a b j i = if (j : ℕ) = b ∧ (i : ℕ) = a then (1 : ℝ) else if (j : ℕ) = a ∧ (i : ℕ) = b then -1 else 0 := rfl
  rw [e, if_neg (by omega), if_neg (by omega)]

theorem mixed_law {F : Type} (val : F → ℝ) (c : TaskIds.Call F) (m : ℕ) (ht : PairTower m c) (hc : Valid val c) :
    ∃ (dx dy k : ℕ) (ρ : ℝ) (U : (Fin dx → ℝ) → Fin dx → ℝ) (V : (Fin dy → ℝ) → Fin dy → ℝ), m ≤ k ∧ k ≤ dx ∧ ρ ^ 2 < 1 ∧ Measurable U ∧ Measurable V ∧
      Keeps k U ∧ lawOf val c = ⟨dx, dy, ((normalLaw 0 (pairs dx dy k ρ)).map (halves dx dy)).map (Prod.map U V)⟩ ∧
      numberOf val c = -(k / 2 * Real.log (1 - ρ ^ 2)) ∧ Smooth val c ∧ momentsBelow val c = ⊤ := by
  have step : ∀ {t t' : TaskIds.Call F} (m l : ℕ), m ≤ l → (∃ (dx dy k : ℕ) (ρ : ℝ) (U : (Fin dx → ℝ) → Fin dx → ℝ) (V : (Fin dy → ℝ) → Fin dy → ℝ), l ≤ k ∧ k ≤ dx ∧ ρ ^ 2 < 1 ∧
      Measurable U ∧ Measurable V ∧ Keeps k U ∧ lawOf val t = ⟨dx, dy, ((normalLaw 0 (pairs dx dy k ρ)).map (halves dx dy)).map (Prod.map U V)⟩ ∧
      numberOf val t = -(k / 2 * Real.log (1 - ρ ^ 2)) ∧ Smooth val t ∧ momentsBelow val t = ⊤) →
      ∀ (u : (p : Part) → (Fin p.dx → ℝ) → Fin p.dx → ℝ) (v : (p : Part) → (Fin p.dy → ℝ) → Fin p.dy → ℝ), (∀ p, Measurable (u p)) → (∀ p, Measurable (v p)) →
      (∀ p k, l ≤ k → Keeps k (u p)) → lawOf val t' = ⟨(lawOf val t).dx, (lawOf val t).dy, (lawOf val t).law.map (Prod.map (u (lawOf val t)) (v (lawOf val t)))⟩ →
      numberOf val t' = numberOf val t → (momentsBelow val t = ⊤ → Smooth val t → Smooth val t' ∧ momentsBelow val t' = ⊤) →
      ∃ (dx dy k : ℕ) (ρ : ℝ) (U : (Fin dx → ℝ) → Fin dx → ℝ) (V : (Fin dy → ℝ) → Fin dy → ℝ), m ≤ k ∧ k ≤ dx ∧ ρ ^ 2 < 1 ∧ Measurable U ∧ Measurable V ∧
      Keeps k U ∧ lawOf val t' = ⟨dx, dy, ((normalLaw 0 (pairs dx dy k ρ)).map (halves dx dy)).map (Prod.map U V)⟩ ∧
      numberOf val t' = -(k / 2 * Real.log (1 - ρ ^ 2)) ∧ Smooth val t' ∧ momentsBelow val t' = ⊤ := by
    rintro t t' m l hml ⟨dx, dy, k, ρ, U, V, h1, h2, h3, h4, h5, h6, h7, h8, h9, h10⟩ u v hu hv hk hl hn hm
    obtain ⟨m1, m2⟩ := hm h10 h9
    rw [h7] at hl
    set p : Part := ⟨dx, dy, ((normalLaw 0 (pairs dx dy k ρ)).map (halves dx dy)).map (Prod.map U V)⟩ with hp
    have hk' : Keeps (n := dx) k (u p) := hk p k h1
    refine ⟨dx, dy, k, ρ, u p ∘ U, v p ∘ V, hml.trans h1, h2, h3, (hu p).comp h4, (hv p).comp h5, hk'.comp h6, ?_, by rw [hn, h8], m1, m2⟩
    rw [hl]
    refine congrArg (fun P => (⟨dx, dy, P⟩ : Part)) ?_
    rw [← Prod.map_comp_map, ← Measure.map_map ((hu p).prodMap (hv p)) (h4.prodMap h5)]
  have top : ∀ x : ℝ, (⊤ : ENNReal) / ENNReal.ofReal x = ⊤ := fun x => ENNReal.top_div_of_ne_top ENNReal.ofReal_ne_top
  have single : ∀ {f : ℝ → ℝ}, Measurable f → ∀ n : ℕ, Measurable fun (x : Fin n → ℝ) i => f (x i) := fun {f} hf n =>
    measurable_pi_lambda _ fun i => hf.comp (measurable_pi_apply i)
  have ma := Real.continuous_arsinh.measurable
  induction c generalizing m with
  | sparse dx dy n s =>
    obtain ⟨h1, h2, h3, h4⟩ := hc
    refine ⟨dx, dy, n, _, fun x => x, fun y => y, ht, h3, strength_lt (val s), measurable_id, measurable_id,
      fun i _ => ⟨fun x => x, measurable_id, fun _ => rfl⟩, ?_, rfl, trivial, rfl⟩
    have : (Prod.map (fun x : Fin dx → ℝ => x) fun y : Fin dy → ℝ => y) = id := rfl
    rw [this, Measure.map_id]
    rfl
  | asinh t ih =>
    exact step m m le_rfl (ih m ht hc) (fun p x i => Real.arsinh (x i)) (fun p y i => Real.arsinh (y i)) (fun _ => single ma _) (fun _ => single ma _)
      (fun _ _ _ => keeps_each ma) rfl rfl fun _ h => ⟨h, rfl⟩
  | halfCube t ih =>
    exact step m m le_rfl (ih m ht hc) (fun p x i => x i * √|x i|) (fun p y i => y i * √|y i|) (fun _ => single measurable_halfCube _)
      (fun _ => single measurable_halfCube _) (fun _ _ _ => keeps_each measurable_halfCube) rfl rfl fun h1 h => ⟨h, by rw [momentsBelow, h1, top]⟩
  | normalCdf t ih =>
    exact step m m le_rfl (ih m ht hc) (fun p x i => cdf (gaussianReal 0 1) (x i)) (fun p y i => cdf (gaussianReal 0 1) (y i)) (fun _ => single measurable_cdf _)
      (fun _ => single measurable_cdf _) (fun _ _ _ => keeps_each measurable_cdf) rfl rfl
      fun h1 h => ⟨⟨h, by rw [h1]; exact ENNReal.ofNat_lt_top⟩, rfl⟩
  | wiggly t ih =>
    exact step m m le_rfl (ih m ht hc) _ _ (fun _ => single measurable_wiggly.1 _) (fun _ => single measurable_wiggly.2 _)
      (fun _ _ _ => keeps_each measurable_wiggly.1) rfl rfl fun h1 h => ⟨h, h1⟩
  | power t α ih =>
    exact step m m le_rfl (ih m ht hc.1) _ _ (fun _ => single (measurable_power (val α)) _) (fun _ => single (measurable_power (val α)) _)
      (fun _ _ _ => keeps_each (measurable_power (val α))) rfl rfl fun h1 h => ⟨h, by rw [momentsBelow, h1, top]⟩
  | spiral t speed normalize ih =>
    exact step m (max m 2) (le_max_left _ _) (ih _ ht hc.1) (fun p => whirl 0 1 (if normalize then val speed / p.dx else val speed))
      (fun p => whirl 1 2 (if normalize then val speed / p.dy else val speed)) (fun _ => measurable_whirl 0 1 (by norm_num) _)
      (fun _ => measurable_whirl 1 2 (by norm_num) _) (fun _ _ h2 => keeps_whirl ((le_max_right _ _).trans h2) _) rfl rfl fun h1 h => ⟨h, h1⟩
  | rotate t ih =>
    exact step m (max m 3) (le_max_left _ _) (ih _ ht hc.1)
      (fun p x => x ᵥ* NormedSpace.exp ((2 : ℝ) • gen p.dx 0 1 - gen p.dx 1 2 - gen p.dx 0 2))
      (fun p y => y ᵥ* NormedSpace.exp (gen p.dy 0 1 + (2 : ℝ) • gen p.dy 1 2)) (fun _ => measurable_rotation _) (fun _ => measurable_rotation _)
      (fun p k h3 => keeps_rotation fun i j hi => by
        have h4 : 3 ≤ (i : ℕ) := ((le_max_right _ _).trans h3).trans hi
        rw [Matrix.sub_apply, Matrix.sub_apply, Matrix.smul_apply, gen_col _ _ i j (by omega) (by omega), gen_col _ _ i j (by omega) (by omega),
          gen_col _ _ i j (by omega) (by omega)]
        simp) rfl rfl fun h1 h => ⟨h, h1⟩
  | _ => exact ht.elim

theorem under_pairTower {F : Type} (val : F → ℝ) (c : TaskIds.Call F) (m : ℕ) (ht : PairTower m c) (hc : Valid val c) : Under (lawOf val c) (numberOf val c) := by
  obtain ⟨dx, dy, k, ρ, U, V, h1, h2, h3, h4, h5, h6, h7, h8, h9, h10⟩ := mixed_law val c m ht hc
  have hs := task_sides val c hc h9
  rw [h10, h7] at hs
  rw [h7, h8]
  exact under_mixed h2 h3 h4 h5 h6 ENNReal.ofNat_lt_top hs

end BMI.Cca
