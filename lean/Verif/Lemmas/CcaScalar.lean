import Verif.Lemmas.CcaOther
import Verif.Lemmas.PmiProfile

/-! CCA on several functions of one normal variable and a single function of another one. -/

namespace BMI.Cca

open MeasureTheory ProbabilityTheory Filter Topology BMI.Cca.Spec BMI.Gebelein BMI.Consistency BMI.Samplers BMI.Student BMI.Bmm
  BMI.Registry BMI.TaskIds Matrix

variable {m : ℕ}

/-! ## Matrices with a single row and column for Y -/

/-- If no combination of X has a correlation larger than `ρ` with Y, the number is at most that of a correlation `ρ`. -/
theorem gauss_scalar {S : Matrix (Fin (m + 1)) (Fin (m + 1)) ℝ} (hs : Sᵀ = S) (hA : (blockX S).PosDef) {v : ℝ}
    (hv : S (Fin.natAdd m 0) (Fin.natAdd m 0) = v) (hv0 : 0 < v) {ρ : ℝ} (hρ : ρ ^ 2 < 1)
    (h : ∀ a : Fin m → ℝ, (∑ i, a i * S (Fin.castAdd 1 i) (Fin.natAdd m 0)) ^ 2 ≤ ρ ^ 2 * (a ⬝ᵥ blockX S *ᵥ a) * v) :
    S.PosDef ∧ gauss S ≤ -(1 / 2 * Real.log (1 - ρ ^ 2)) := by
  set A := blockX S with hAd
  set c : Fin m → ℝ := fun i => S (Fin.castAdd 1 i) (Fin.natAdd m 0) with hc
  haveI : Invertible A := hA.isUnit.invertible
  set B : Matrix (Fin m) (Fin 1) ℝ := blockXY S with hB
  set q : ℝ := c ⬝ᵥ (A⁻¹ *ᵥ c) with hq
  have hdet0 : A.det ≠ 0 := hA.det_pos.ne'
  have hAa : A *ᵥ (A⁻¹ *ᵥ c) = c := by
    rw [Matrix.mulVec_mulVec, Matrix.mul_nonsing_inv _ (isUnit_iff_ne_zero.2 hdet0), Matrix.one_mulVec]
  have h1 := h (A⁻¹ *ᵥ c)
  have e1 : ∑ i, (A⁻¹ *ᵥ c) i * c i = q := by rw [hq, dotProduct_comm]; rfl
  have e2 : (A⁻¹ *ᵥ c) ⬝ᵥ A *ᵥ (A⁻¹ *ᵥ c) = q := by rw [hAa, hq, dotProduct_comm]
  rw [e1, e2] at h1
  have hq0 : 0 ≤ q := by
    have := hA.inv.posSemidef.dotProduct_mulVec_nonneg c
    simpa using this
  have hq1 : q ≤ ρ ^ 2 * v := by
    rcases hq0.eq_or_lt with h0 | h0
    · rw [← h0]; positivity
    · have : q * q ≤ (ρ ^ 2 * v) * q := by nlinarith
      exact le_of_mul_le_mul_right this h0
  have hY : blockY S = Matrix.of fun _ _ => v := by
    ext i j
    rw [Subsingleton.elim i 0, Subsingleton.elim j 0]
    exact hv
  have hre : S.submatrix finSumFinEquiv finSumFinEquiv = fromBlocks A B Bᵀ (blockY S) := by
    have := ofBlocks_eta hs
    conv_lhs => rw [this]
    unfold ofBlocks
    simp
    exact ⟨rfl, rfl⟩
  have hsch : blockY S - Bᵀ * A⁻¹ * B = Matrix.of fun _ _ => v - q := by
    ext i j
    rw [Subsingleton.elim i 0, Subsingleton.elim j 0, hY, Matrix.sub_apply]
    simp only [of_apply]
    congr 1
    rw [Matrix.mul_assoc, Matrix.mul_apply, hq]
    refine Finset.sum_congr rfl fun k _ => ?_
    rfl
  have hdet : S.det = A.det * (v - q) := by
    rw [← Matrix.det_submatrix_equiv_self finSumFinEquiv S, hre, Matrix.det_fromBlocks₁₁, Matrix.invOf_eq_nonsing_inv, hsch, Matrix.det_fin_one]
    rfl
  have hvq : (1 - ρ ^ 2) * v ≤ v - q := by linarith
  have hvq0 : 0 < v - q := lt_of_lt_of_le (mul_pos (by linarith) hv0) hvq
  have hpos : S.PosDef := by
    have h2 : (fromBlocks A B Bᴴ (blockY S)).PosSemidef := by
      refine (Matrix.PosDef.fromBlocks₁₁ B (blockY S) hA).2 ?_
      rw [Matrix.conjTranspose_eq_transpose_of_trivial, hsch]
      have : (Matrix.of fun _ _ => v - q : Matrix (Fin 1) (Fin 1) ℝ) = diagonal fun _ => v - q := by
        ext i j
        rw [Subsingleton.elim i 0, Subsingleton.elim j 0]
        simp
      rw [this, Matrix.posSemidef_diagonal_iff]
      exact fun _ => hvq0.le
    rw [Matrix.conjTranspose_eq_transpose_of_trivial, ← hre] at h2
    have h3 : S.PosSemidef := by
      have := h2.submatrix finSumFinEquiv.symm
      simpa using this
    rw [h3.posDef_iff_det_ne_zero, hdet]
    exact mul_ne_zero hdet0 hvq0.ne'
  refine ⟨hpos, ?_⟩
  unfold gauss
  rw [← hAd, hdet, hY, Matrix.det_fin_one, of_apply, Real.log_mul hdet0 hvq0.ne']
  have h4 := Real.log_le_log (mul_pos (by linarith) hv0) hvq
  rw [Real.log_mul (by linarith) hv0.ne'] at h4
  linarith

/-! ## Covariances of combinations -/

theorem cov_comb {Ω : Type} [MeasurableSpace Ω] {μ : Measure Ω} [IsProbabilityMeasure μ] {U : Fin m → Ω → ℝ} {V : Ω → ℝ}
    (hU : ∀ i, MemLp (U i) 2 μ) (hV : MemLp V 2 μ) (a : Fin m → ℝ) :
    cov[fun ω => ∑ i, a i * U i ω, V; μ] = ∑ i, a i * cov[U i, V; μ] := by
  rw [covariance_fun_sum_left (fun i => (hU i).const_mul (a i)) hV]
  exact Finset.sum_congr rfl fun i _ => covariance_const_mul_left _

theorem var_comb {Ω : Type} [MeasurableSpace Ω] {μ : Measure Ω} [IsProbabilityMeasure μ] {U : Fin m → Ω → ℝ}
    (hU : ∀ i, MemLp (U i) 2 μ) (a : Fin m → ℝ) :
    Var[fun ω => ∑ i, a i * U i ω; μ] = a ⬝ᵥ (Matrix.of fun i j => cov[U i, U j; μ]) *ᵥ a := by
  have hs : MemLp (fun ω => ∑ i, a i * U i ω) 2 μ := memLp_finsetSum _ fun i _ => (hU i).const_mul (a i)
  rw [← covariance_self hs.aemeasurable, cov_comb hU hs]
  simp only [dotProduct, Matrix.mulVec, of_apply]
  refine Finset.sum_congr rfl fun i _ => ?_
  rw [covariance_comm, cov_comb hU (hU i)]
  congr 1
  refine Finset.sum_congr rfl fun j _ => ?_
  rw [covariance_comm, mul_comm]

/-! ## Functions of two normal variables -/

/-- The law of several functions of one normal variable and one function of another. -/
noncomputable def curveLaw (ρ : ℝ) (F : Fin m → ℝ → ℝ) (g : ℝ → ℝ) : Measure ((Fin m → ℝ) × (Fin 1 → ℝ)) :=
  (normalLaw 0 (pairs 1 1 1 ρ)).map fun z => (fun i => F i (z 0), fun _ => g (z 1))

/-- The functions, and the variables they belong to. -/
def parts (F : Fin m → ℝ → ℝ) (g : ℝ → ℝ) : Fin (m + 1) → ℝ → ℝ := Fin.append F fun _ : Fin 1 => g

/-- The variables. -/
def owner (m : ℕ) : Fin (m + 1) → Fin (1 + 1) := Fin.append (fun _ : Fin m => 0) fun _ : Fin 1 => 1

theorem under_curve_of {ρ : ℝ} (hρ : ρ ^ 2 < 1) {F : Fin m → ℝ → ℝ} {g : ℝ → ℝ} (hF : ∀ i, Measurable (F i)) (hF2 : ∀ i, MemLp (F i) 2 γ)
    (hg : Measurable g) (hg2 : MemLp g 2 γ) (vF : ∀ a : Fin m → ℝ, a ≠ 0 → 0 < Var[fun x => ∑ i, a i * F i x; γ]) (vg : 0 < Var[g; γ])
    {r : ℝ} (hr : r ^ 2 < 1) (hb : ∀ f : ℝ → ℝ, Measurable f → MemLp f 2 γ → cross f g ρ ^ 2 ≤ r ^ 2 * Var[f; γ] * Var[g; γ]) :
    Under ⟨m, 1, curveLaw ρ F g⟩ (-(1 / 2 * Real.log (1 - r ^ 2))) := by
  have hS := (pairs_posDef (dx := 1) (dy := 1) (k := 1) le_rfl hρ).posSemidef
  haveI := normalLaw_prob (0 : Fin (1 + 1) → ℝ) (pairs 1 1 1 ρ)
  have hm : ∀ i, Measurable (Cca.parts F g i) := fun i => by
    refine Fin.addCases (fun j => ?_) (fun j => ?_) i
    · simpa [Cca.parts] using hF j
    · simpa [Cca.parts] using hg
  have hL : ∀ i, MemLp (Cca.parts F g i) 2 γ := fun i => by
    refine Fin.addCases (fun j => ?_) (fun j => ?_) i
    · simpa [Cca.parts] using hF2 j
    · simpa [Cca.parts] using hg2
  have mz : Measurable fun z : Fin (1 + 1) → ℝ => ((fun i => F i (z 0), fun _ => g (z 1)) : (Fin m → ℝ) × (Fin 1 → ℝ)) :=
    (measurable_pi_lambda _ fun i => (hF i).comp (measurable_pi_apply 0)).prodMk
      (measurable_pi_lambda _ fun _ => hg.comp (measurable_pi_apply 1))
  have e : ∀ p : Fin (m + 1), ((fun z : (Fin m → ℝ) × (Fin 1 → ℝ) => Fin.append z.1 z.2 p) ∘ fun z : Fin (1 + 1) → ℝ =>
      ((fun i => F i (z 0), fun _ => g (z 1)) : (Fin m → ℝ) × (Fin 1 → ℝ))) = fun z => Cca.parts F g p (z (owner m p)) := fun p => by
    funext z
    refine Fin.addCases (fun j => ?_) (fun j => ?_) p <;> simp [Cca.parts, owner]
  have hρ' : pairs 1 1 1 ρ 0 1 = ρ := by simp [pairs]
  let S : Matrix (Fin (m + 1)) (Fin (m + 1)) ℝ := Matrix.of fun p q => cross (Cca.parts F g p) (Cca.parts F g q) (pairs 1 1 1 ρ (owner m p) (owner m q))
  have hcov : HasCov (curveLaw ρ F g) S := by
    refine ⟨fun i => ?_, fun i j => ?_⟩
    · rw [curveLaw, memLp_map_measure_iff (measurable_append i).aestronglyMeasurable mz.aemeasurable, e]
      exact (memLp_coord hS (pairs_diag ρ _) (hm i)).2 (hL i)
    · rw [curveLaw, covariance_map (measurable_append i).aestronglyMeasurable (measurable_append j).aestronglyMeasurable mz.aemeasurable, e, e,
        cov_coords hS (pairs_diag ρ _) (pairs_diag ρ _) (pairs_sq_le hρ.le _ _) (hm i) (hm j)]
      rfl
  have hsymm : Sᵀ = S := by
    ext i j
    rw [Matrix.transpose_apply, ← hcov.2, ← hcov.2, covariance_comm]
  have one : ∀ {u w : ℝ → ℝ}, Measurable u → Measurable w → cross u w 1 = cov[u, w; γ] := fun {u w} hu hw => by
    have h := covariance_map (μ := γ.prod γ) (Z := Prod.fst) (X := u) (Y := w) hu.aestronglyMeasurable hw.aestronglyMeasurable measurable_fst.aemeasurable
    have e : (γ.prod γ).map Prod.fst = γ := by rw [← Measure.fst, Measure.fst_prod]
    rw [e] at h
    rw [h]
    unfold cross
    congr 1
    funext p
    simp
  have hX : blockX (dy := 1) S = Matrix.of fun i j => cov[F i, F j; γ] := by
    ext i j
    have : pairs 1 1 1 ρ (owner m (Fin.castAdd 1 i)) (owner m (Fin.castAdd 1 j)) = 1 := by simp [owner, pairs]
    simp only [blockX, S, of_apply, submatrix_apply, this, Cca.parts, Fin.append_left]
    exact one (hF i) (hF j)
  have hquad : ∀ a : Fin m → ℝ, a ⬝ᵥ blockX (dy := 1) S *ᵥ a = Var[fun x => ∑ i, a i * F i x; γ] := fun a => by
    rw [hX, var_comb hF2]
  have hA : (blockX (dy := 1) S).PosDef := by
    refine Matrix.PosDef.of_dotProduct_mulVec_pos ?_ fun a ha => ?_
    · rw [hX]
      ext i j
      simp [covariance_comm (F i)]
    · have := vF a ha
      rw [← hquad] at this
      simpa using this
  have hY : S (Fin.natAdd m 0) (Fin.natAdd m 0) = Var[g; γ] := by
    have : pairs 1 1 1 ρ (owner m (Fin.natAdd m 0)) (owner m (Fin.natAdd m 0)) = 1 := by simp [owner, pairs]
    simp only [S, of_apply, this, Cca.parts, Fin.append_right]
    rw [one hg hg, covariance_self hg.aemeasurable]
  have hXY : ∀ i, S (Fin.castAdd 1 i) (Fin.natAdd m 0) = cross (F i) g ρ := fun i => by
    have : pairs 1 1 1 ρ (owner m (Fin.castAdd 1 i)) (owner m (Fin.natAdd m 0)) = ρ := by
      simp only [owner, Fin.append_left, Fin.append_right]
      exact hρ'
    simp only [S, of_apply, this, Cca.parts, Fin.append_left, Fin.append_right]
  obtain ⟨g1, g2⟩ := gauss_scalar hsymm hA hY vg hr fun a => by
    simp_rw [hXY]
    rw [hquad]
    have hab : ρ ^ 2 + √(1 - ρ ^ 2) ^ 2 = 1 := by rw [Real.sq_sqrt (by linarith)]; ring
    have hc : cross (fun x => ∑ i, a i * F i x) g ρ = ∑ i, a i * cross (F i) g ρ :=
      cov_comb (U := fun i (p : ℝ × ℝ) => F i p.1) (fun i => memLp_first (hF2 i)) (memLp_second hab hg2) a
    have hmF : Measurable fun x => ∑ i, a i * F i x := Finset.measurable_sum _ fun i _ => (hF i).const_mul _
    have hmL : MemLp (fun x => ∑ i, a i * F i x) 2 γ := memLp_finsetSum _ fun i _ => (hF2 i).const_mul (a i)
    rw [← hc]
    exact hb _ hmF hmL
  exact ⟨S, hcov, g1, g2⟩

theorem under_curve {ρ : ℝ} (hρ : ρ ^ 2 < 1) {F : Fin m → ℝ → ℝ} {g : ℝ → ℝ} (hF : ∀ i, Measurable (F i)) (hF2 : ∀ i, MemLp (F i) 2 γ)
    (hg : Measurable g) (hg2 : MemLp g 2 γ) (vF : ∀ a : Fin m → ℝ, a ≠ 0 → 0 < Var[fun x => ∑ i, a i * F i x; γ]) (vg : 0 < Var[g; γ]) :
    Under ⟨m, 1, curveLaw ρ F g⟩ (-(1 / 2 * Real.log (1 - ρ ^ 2))) := by
  refine under_curve_of hρ hF hF2 hg hg2 vF vg hρ fun f hf hf2 => ?_
  have h := pow_le_pow_left₀ (abs_nonneg _) (abs_cross_le hρ.le hf hf2 hg hg2) 2
  rw [sq_abs, mul_pow, mul_pow, sq_abs, Real.sq_sqrt (variance_nonneg _ _), Real.sq_sqrt (variance_nonneg _ _)] at h
  linarith

/-! ## The Swiss roll -/

theorem γ_open : γ.IsOpenPosMeasure := (gaussianReal_absolutelyContinuous' 0 one_ne_zero).isOpenPosMeasure

/-- A continuous function which is not constant has positive variance. -/
theorem var_pos_of_continuous {h : ℝ → ℝ} (hc : Continuous h) (h2 : MemLp h 2 γ) {x y : ℝ} (hxy : h x ≠ h y) : 0 < Var[h; γ] := by
  refine lt_of_le_of_ne (variance_nonneg _ _) fun h0 => hxy ?_
  haveI := γ_open
  have := ae_eq_integral_of_variance_eq_zero h2 h0.symm
  have h3 := Continuous.ae_eq_iff_eq γ hc (continuous_const (y := ∫ x, h x ∂γ)) |>.1 this
  rw [h3]

theorem exists_cdf {u : ℝ} (h0 : 0 < u) (h1 : u < 1) : ∃ x, Samplers.normalCdf x = u := by
  have e : Samplers.normalCdf = cdf γ := funext normalCdf_eq_cdf
  obtain ⟨a, ha⟩ := ((e ▸ tendsto_cdf_atBot γ : Tendsto Samplers.normalCdf atBot (𝓝 0)).eventually (gt_mem_nhds h0)).exists
  obtain ⟨b, hb⟩ := ((e ▸ tendsto_cdf_atTop γ : Tendsto Samplers.normalCdf atTop (𝓝 1)).eventually (lt_mem_nhds h1)).exists
  exact mem_range_of_exists_le_of_exists_ge continuous_normalCdf ⟨a, ha.le⟩ ⟨b, hb.le⟩

/-- The coordinates of the point of the roll over a normal variable. -/
noncomputable def rollOver (i : Fin 2) (x : ℝ) : ℝ :=
  if i = 0 then (rollPoint (Samplers.normalCdf x)).1 else (rollPoint (Samplers.normalCdf x)).2

theorem continuous_rollOver (i : Fin 2) : Continuous (rollOver i) := by
  have := continuous_normalCdf
  unfold rollOver rollPoint
  split_ifs <;> fun_prop

theorem memLp_rollOver (i : Fin 2) : MemLp (rollOver i) 2 γ := by
  refine .of_bound (continuous_rollOver i).measurable.aestronglyMeasurable (3 / 2 * Real.pi * 3 * 1 / 21) (.of_forall fun x => ?_)
  obtain ⟨h0, h1⟩ := normalCdf_mem x
  have hp := Real.pi_pos
  set u := Samplers.normalCdf x with hu
  have hb : ∀ c : ℝ, |c| ≤ 1 → |3 / 2 * Real.pi * (1 + 2 * u) * c / 21| ≤ 3 / 2 * Real.pi * 3 * 1 / 21 := fun c hc => by
    rw [abs_div, abs_mul, abs_of_pos (by positivity : 0 < 3 / 2 * Real.pi * (1 + 2 * u)), abs_of_pos (by norm_num : (0 : ℝ) < 21)]
    gcongr
    linarith
  rw [Real.norm_eq_abs]
  unfold rollOver rollPoint
  split_ifs
  · exact hb _ (Real.abs_cos_le_one _)
  · exact hb _ (Real.abs_sin_le_one _)

theorem var_rollOver (a : Fin 2 → ℝ) (ha : a ≠ 0) : 0 < Var[fun x => ∑ i, a i * rollOver i x; γ] := by
  have hc : Continuous fun x => ∑ i, a i * rollOver i x := continuous_finset_sum _ fun i _ => (continuous_rollOver i).const_mul _
  have hL : MemLp (fun x => ∑ i, a i * rollOver i x) 2 γ := memLp_finsetSum _ fun i _ => (memLp_rollOver i).const_mul (a i)
  by_contra hn
  have hconst : ∀ x y, (∑ i, a i * rollOver i x) = ∑ i, a i * rollOver i y := fun x y => by
    by_contra hxy
    exact hn (var_pos_of_continuous hc hL hxy)
  have hp := Real.pi_pos
  obtain ⟨x1, e1⟩ := exists_cdf (u := 1 / 6) (by norm_num) (by norm_num)
  obtain ⟨x2, e2⟩ := exists_cdf (u := 1 / 2) (by norm_num) (by norm_num)
  obtain ⟨x3, e3⟩ := exists_cdf (u := 1 / 3) (by norm_num) (by norm_num)
  obtain ⟨x4, e4⟩ := exists_cdf (u := 2 / 3) (by norm_num) (by norm_num)
  have t1 : 3 / 2 * Real.pi * (1 + 2 * (1 / 6)) = 2 * Real.pi := by ring
  have t2 : 3 / 2 * Real.pi * (1 + 2 * (1 / 2)) = Real.pi + 2 * Real.pi := by ring
  have t3 : 3 / 2 * Real.pi * (1 + 2 * (1 / 3)) = Real.pi / 2 + 2 * Real.pi := by ring
  have t4 : 3 / 2 * Real.pi * (1 + 2 * (2 / 3)) = -(Real.pi / 2) + 2 * Real.pi + 2 * Real.pi := by ring
  have h1 := hconst x1 x2
  have h2 := hconst x3 x4
  simp only [Fin.sum_univ_two, rollOver, rollPoint, if_true, one_ne_zero, if_false, e1, e2, t1, t2, Real.cos_add_two_pi, Real.sin_add_two_pi,
    Real.cos_two_pi, Real.sin_two_pi, Real.cos_pi, Real.sin_pi] at h1
  simp only [Fin.sum_univ_two, rollOver, rollPoint, if_true, one_ne_zero, if_false, e3, e4, t3, t4, Real.cos_add_two_pi, Real.sin_add_two_pi,
    Real.cos_neg, Real.sin_neg, Real.cos_pi_div_two, Real.sin_pi_div_two] at h2
  have z0 : a 0 = 0 := by
    have : a 0 * Real.pi = 0 := by linarith
    exact (mul_eq_zero.1 this).resolve_right hp.ne'
  have z1 : a 1 = 0 := by
    have : a 1 * Real.pi = 0 := by linarith
    exact (mul_eq_zero.1 this).resolve_right hp.ne'
  exact ha (funext fun i => by fin_cases i <;> assumption)

theorem swissroll_law {F : Type} (val : F → ℝ) (ρ : F) :
    lawOf val (.swissroll (.normalCdf (.binormal ρ))) = ⟨2, 1, curveLaw (val ρ) rollOver Samplers.normalCdf⟩ := by
  have mc := continuous_normalCdf.measurable
  have ec : (cdf (gaussianReal 0 1) : ℝ → ℝ) = Samplers.normalCdf := funext fun x => (normalCdf_eq_cdf x).symm
  have ep : !![1, val ρ; val ρ, 1] = pairs 1 1 1 (val ρ) := by
    ext i j
    fin_cases i <;> fin_cases j <;> simp [pairs]
  have m0 : Measurable fun z : Fin (1 + 1) → ℝ => ((fun _ => z 0, fun _ => z 1) : (Fin 1 → ℝ) × (Fin 1 → ℝ)) :=
    (measurable_pi_lambda _ fun _ => measurable_pi_apply _).prodMk (measurable_pi_lambda _ fun _ => measurable_pi_apply _)
  have m1 := measurable_both (dx := 1) (dy := 1) mc mc
  have mr : Measurable rollPoint := by
    have : Continuous rollPoint := by unfold rollPoint; fun_prop
    exact this.measurable
  have m2 : Measurable fun (x : Fin 1 → ℝ) (i : Fin (1 + 1)) => if i = 0 then (rollPoint (∑ j, x j)).1 else (rollPoint (∑ j, x j)).2 := by
    refine measurable_pi_lambda _ fun i => ?_
    have ms : Measurable fun x : Fin 1 → ℝ => ∑ j, x j := by fun_prop
    split_ifs
    · exact (mr.comp ms).fst
    · exact (mr.comp ms).snd
  have key : (((normalLaw 0 !![1, val ρ; val ρ, 1]).map fun z : Fin (1 + 1) → ℝ => ((fun _ => z 0, fun _ => z 1) : (Fin 1 → ℝ) × (Fin 1 → ℝ))).map
      (Prod.map (fun (x : Fin 1 → ℝ) i => cdf (gaussianReal 0 1) (x i)) fun (y : Fin 1 → ℝ) i => cdf (gaussianReal 0 1) (y i))).map
      (Prod.map (fun (x : Fin 1 → ℝ) (i : Fin (1 + 1)) => if i = 0 then (rollPoint (∑ j, x j)).1 else (rollPoint (∑ j, x j)).2) id)
      = curveLaw (val ρ) rollOver Samplers.normalCdf := by
    rw [ec, ep, Measure.map_map m1 m0, Measure.map_map (m2.prodMap measurable_id) (m1.comp m0)]
    unfold curveLaw
    congr 1
    funext z
    refine Prod.ext ?_ rfl
    funext i
    simp [rollOver]
  exact congrArg (fun P => (⟨2, 1, P⟩ : Part)) key

theorem under_swissroll {F : Type} (val : F → ℝ) (ρ : F) (h : val ρ ^ 2 < 1) :
    Under (lawOf val (.swissroll (.normalCdf (.binormal ρ)))) (numberOf val (.swissroll (.normalCdf (.binormal ρ)))) := by
  have mc := continuous_normalCdf.measurable
  have hb : ∀ x, |Samplers.normalCdf x| ≤ 1 := fun x => by
    obtain ⟨h0, h1⟩ := normalCdf_mem x
    rw [abs_of_pos h0]; exact h1.le
  have hu := under_curve h (F := rollOver) (g := Samplers.normalCdf) (fun i => (continuous_rollOver i).measurable) memLp_rollOver mc
    (memLp_bounded mc hb) var_rollOver (var_pos_of_continuous continuous_normalCdf (memLp_bounded mc hb) (normalCdf_strictMono zero_lt_one).ne)
  have e := swissroll_law val ρ
  rw [e]
  have en : numberOf val (.swissroll (.normalCdf (.binormal ρ))) = -(1 / 2 * Real.log (1 - val ρ ^ 2)) := by
    simp [numberOf]
  rw [en]
  exact hu

end BMI.Cca
