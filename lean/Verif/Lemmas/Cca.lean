import Verif.Model.Cca
import Verif.Props.Multinormal
import Mathlib.LinearAlgebra.Matrix.SchurComplement
import Mathlib.Algebra.Order.Chebyshev

/-! Sample covariances and canonical correlations, for C51. -/

namespace BMI.Cca

open BMI.Samplers

variable {n p q : ℕ}

/-! ### Sample covariances -/

theorem cov_comm (v w : Fin n → ℝ) : cov v w = cov w v := by
  unfold cov
  congr 1
  exact Finset.sum_congr rfl fun s _ => mul_comm _ _

theorem average_affine (hn : n ≠ 0) (a b : ℝ) (v : Fin n → ℝ) :
    average (fun s => a * v s + b) = a * average v + b := by
  have : (n : ℝ) ≠ 0 := by exact_mod_cast hn
  unfold average
  rw [Finset.sum_add_distrib, ← Finset.mul_sum, Finset.sum_const, Finset.card_univ, Fintype.card_fin, nsmul_eq_mul]
  field_simp

theorem cov_affine (hn : n ≠ 0) (a b c d : ℝ) (v w : Fin n → ℝ) :
    cov (fun s => a * v s + b) (fun s => c * w s + d) = a * c * cov v w := by
  unfold cov
  rw [average_affine hn, average_affine hn, ← mul_div_assoc, Finset.mul_sum]
  congr 1
  exact Finset.sum_congr rfl fun s _ => by ring

theorem cov_self_nonneg (v : Fin n → ℝ) : 0 ≤ cov v v ∨ n = 0 := by
  rcases Nat.eq_zero_or_pos n with h | h
  · exact Or.inr h
  · left
    unfold cov
    refine div_nonneg (Finset.sum_nonneg fun s _ => mul_self_nonneg _) ?_
    have : (1 : ℝ) ≤ n := by exact_mod_cast h
    linarith

theorem cov_sq_le (v w : Fin n → ℝ) (hn : 2 ≤ n) : cov v w ^ 2 ≤ cov v v * cov w w := by
  unfold cov
  have h : (0 : ℝ) < (n - 1 : ℝ) := by
    have : (2 : ℝ) ≤ n := by exact_mod_cast hn
    linarith
  rw [div_pow, div_mul_div_comm, sq (n - 1 : ℝ)]
  refine div_le_div_of_nonneg_right ?_ (by positivity)
  have := Finset.sum_mul_sq_le_sq_mul_sq Finset.univ (fun s => v s - average v) (fun s => w s - average w)
  simpa only [sq] using this

/-- The correlation is the covariance over the standard deviations; it lies in `[-1, 1]`. -/
theorem corr_eq (v w : Fin n → ℝ) (hn : 2 ≤ n) (hv : cov v v ≠ 0) (hw : cov w w ≠ 0) :
    ∃ r, corr v w = some r ∧ r = cov v w / (√(cov v v) * √(cov w w)) ∧
      r ^ 2 = cov v w ^ 2 / (cov v v * cov w w) ∧ r ^ 2 ≤ 1 := by
  have hv' : 0 < cov v v := lt_of_le_of_ne ((cov_self_nonneg v).resolve_right (by omega)) (Ne.symm hv)
  have hw' : 0 < cov w w := lt_of_le_of_ne ((cov_self_nonneg w).resolve_right (by omega)) (Ne.symm hw)
  have hsq : (cov v w / (√(cov v v) * √(cov w w))) ^ 2 = cov v w ^ 2 / (cov v v * cov w w) := by
    rw [div_pow, mul_pow, Real.sq_sqrt hv'.le, Real.sq_sqrt hw'.le]
  have hle : (cov v w / (√(cov v v) * √(cov w w))) ^ 2 ≤ 1 := by
    rw [hsq]
    exact div_le_one_of_le₀ (cov_sq_le v w hn) (by positivity)
  have habs := abs_le.1 (sq_le_one_iff_abs_le_one _ |>.1 hle)
  refine ⟨_, ?_, rfl, hsq, hle⟩
  unfold corr
  rw [if_neg (by push_neg; exact ⟨hn, hv, hw⟩), div_div, min_eq_right habs.2, max_eq_right habs.1]

theorem corr_some {v w : Fin n → ℝ} {r : ℝ} (h : corr v w = some r) :
    2 ≤ n ∧ cov v v ≠ 0 ∧ cov w w ≠ 0 ∧ r ^ 2 ≤ 1 := by
  by_cases hc : n < 2 ∨ cov v v = 0 ∨ cov w w = 0
  · unfold corr at h
    rw [if_pos hc] at h
    cases h
  · push_neg at hc
    obtain ⟨r', h1, -, -, h4⟩ := corr_eq v w hc.1 hc.2.1 hc.2.2
    rw [h, Option.some.injEq] at h1
    subst h1
    exact ⟨hc.1, hc.2.1, hc.2.2, h4⟩

/-! ### The number for one component -/

theorem miGauss_of_lt {r : ℝ} (h : r ^ 2 < 1) : miGauss r = ((-(Real.log (1 - r ^ 2)) / 2 : ℝ) : EReal) := by
  unfold miGauss
  rw [ENNReal.log_ofReal_of_pos (by linarith), ← EReal.coe_mul]
  congr 1
  ring

theorem miGauss_of_eq {r : ℝ} (h : r ^ 2 = 1) : miGauss r = ⊤ := by
  unfold miGauss
  rw [h, sub_self, ENNReal.ofReal_zero, ENNReal.log_zero]
  exact EReal.coe_mul_bot_of_neg (by norm_num)

theorem miGauss_nonneg {r : ℝ} (h : r ^ 2 ≤ 1) : 0 ≤ miGauss r := by
  rcases h.lt_or_eq with h | h
  · rw [miGauss_of_lt h, ← EReal.coe_zero, EReal.coe_le_coe_iff]
    have : Real.log (1 - r ^ 2) ≤ 0 := Real.log_nonpos (by linarith) (by nlinarith [sq_nonneg r])
    linarith
  · rw [miGauss_of_eq h]; exact le_top

theorem add_eq_top_iff {a b : EReal} (ha : 0 ≤ a) (hb : 0 ≤ b) : a + b = ⊤ ↔ a = ⊤ ∨ b = ⊤ := by
  have ha' : a ≠ ⊥ := fun h => by rw [h] at ha; exact absurd ha (by simp)
  have hb' : b ≠ ⊥ := fun h => by rw [h] at hb; exact absurd hb (by simp)
  constructor
  · intro h
    by_contra hne
    push_neg at hne
    lift a to ℝ using ⟨hne.1, ha'⟩
    lift b to ℝ using ⟨hne.2, hb'⟩
    rw [← EReal.coe_add] at h
    exact EReal.coe_ne_top _ h
  · rintro (h | h)
    · rw [h, EReal.top_add_of_ne_bot hb']
    · rw [h, EReal.add_top_of_ne_bot ha']

/-! ### The estimate -/

theorem total_spec (l : List (Option EReal)) :
    (none ∈ l → total l = none) ∧ ∀ vs : List EReal, l = vs.map some → total l = some vs.sum := by
  have hnone : ∀ l : List (Option EReal),
      l.foldl (fun a b => a.bind fun a => b.map fun b => a + b) (none : Option EReal) = none := by
    intro l
    induction l with
    | nil => rfl
    | cons a l ih => exact ih
  constructor
  · unfold total
    intro h
    generalize (some 0 : Option EReal) = acc
    induction l generalizing acc with
    | nil => simp at h
    | cons a l ih =>
      rw [List.foldl_cons]
      rcases List.mem_cons.1 h with h | h
      · subst h
        simp only [Option.map_none, Option.bind_fun_none]
        exact hnone l
      · exact ih h _
  · rintro vs rfl
    unfold total
    suffices h : ∀ (vs : List EReal) (a : EReal),
        (vs.map some).foldl (fun a b => a.bind fun a => b.map fun b => a + b) (some a) = some (a + vs.sum) by
      rw [h, zero_add]
    intro vs
    induction vs with
    | nil => intro a; simp
    | cons v vs ih => intro a; simp only [List.map_cons, List.foldl_cons, Option.bind_some, Option.map_some, ih,
        List.sum_cons, add_assoc]

/-! ### Canonical directions -/

/-- The sample covariance matrix. -/
noncomputable def sampleCov {d : ℕ} (z : Fin n → Fin d → ℝ) : Matrix (Fin d) (Fin d) ℝ :=
  Matrix.of fun i j => cov (fun s => z s i) (fun s => z s j)

theorem average_sum {d : ℕ} (a : Fin d → ℝ) (z : Fin n → Fin d → ℝ) :
    average (fun s => ∑ i, a i * z s i) = ∑ i, a i * average fun s => z s i := by
  unfold average
  rw [Finset.sum_comm, Finset.sum_div]
  refine Finset.sum_congr rfl fun i _ => ?_
  rw [← Finset.mul_sum, mul_div_assoc]

theorem sampleCov_linear {d e : ℕ} (T : Matrix (Fin e) (Fin d) ℝ) (z : Fin n → Fin d → ℝ) :
    sampleCov (fun s => T.mulVec (z s)) = T * sampleCov z * T.transpose := by
  ext i j
  have hc : ∀ (i : Fin e) (s : Fin n), T.mulVec (z s) i - average (fun s => T.mulVec (z s) i) =
      ∑ a, T i a * (z s a - average fun s => z s a) := by
    intro i s
    simp only [Matrix.mulVec, dotProduct]
    rw [average_sum, ← Finset.sum_sub_distrib]
    exact Finset.sum_congr rfl fun a _ => by ring
  simp only [sampleCov, Matrix.of_apply, cov, Matrix.mul_apply, Matrix.transpose_apply]
  simp only [hc]
  simp only [Finset.sum_mul_sum, Finset.sum_mul, Finset.mul_sum, Finset.sum_div, mul_div_assoc]
  rw [Finset.sum_comm]
  conv_lhs => enter [2, a]; rw [Finset.sum_comm]
  refine Finset.sum_congr rfl fun a _ => ?_
  refine Finset.sum_congr rfl fun b _ => ?_
  refine Finset.sum_congr rfl fun s _ => ?_
  ring

/-- Logarithms of the determinants of a covariance whose only correlations are between the `i`-th coordinate of the
first and the `i`-th coordinate of the second part. -/
theorem canonical_number (C : Matrix (Fin (p + q)) (Fin (p + q)) ℝ) (hC : C.PosDef)
    (hx : ∀ i j, i ≠ j → C (Fin.castAdd q i) (Fin.castAdd q j) = 0)
    (hy : ∀ i j, i ≠ j → C (Fin.natAdd p i) (Fin.natAdd p j) = 0)
    (hxy : ∀ (i : Fin p) (j : Fin q), i.val ≠ j.val → C (Fin.castAdd q i) (Fin.natAdd p j) = 0) (ρ : Fin (min p q) → ℝ)
    (hρ : ∀ i : Fin (min p q), ρ i ^ 2 = C (Fin.castAdd q ⟨i, by omega⟩) (Fin.natAdd p ⟨i, by omega⟩) ^ 2 /
      (C (Fin.castAdd q ⟨i, by omega⟩) (Fin.castAdd q ⟨i, by omega⟩) *
        C (Fin.natAdd p ⟨i, by omega⟩) (Fin.natAdd p ⟨i, by omega⟩))) :
    (∀ i, ρ i ^ 2 < 1) ∧ (Real.log (blockX C).det + Real.log (blockY C).det - Real.log C.det) / 2 =
      ∑ i, -(Real.log (1 - ρ i ^ 2)) / 2 := by
  set a : Fin p → ℝ := fun i => C (Fin.castAdd q i) (Fin.castAdd q i) with ha_def
  set b : Fin q → ℝ := fun j => C (Fin.natAdd p j) (Fin.natAdd p j) with hb_def
  set D : Matrix (Fin p) (Fin q) ℝ := Matrix.of fun i j => C (Fin.castAdd q i) (Fin.natAdd p j) with hD_def
  have ha : ∀ i, 0 < a i := fun i => hC.diag_pos
  have hb : ∀ j, 0 < b j := fun j => hC.diag_pos
  have hX : blockX C = Matrix.diagonal a := by
    ext i j
    by_cases h : i = j
    · subst h
      simp [blockX, a]
    · simp [blockX, h, hx i j h]
  have hY : blockY C = Matrix.diagonal b := by
    ext i j
    by_cases h : i = j
    · subst h
      simp [blockY, b]
    · simp [blockY, h, hy i j h]
  have hsym : ∀ i j, C i j = C j i := fun i j => by simpa using (hC.isHermitian.apply i j).symm
  have hre : C.submatrix finSumFinEquiv finSumFinEquiv =
      Matrix.fromBlocks (Matrix.diagonal a) D D.conjTranspose (Matrix.diagonal b) := by
    rw [← hX, ← hY]
    ext i j
    rcases i with i | i <;> rcases j with j | j
    · simp [blockX]
    · simp [D]
    · simp [D, hsym (Fin.natAdd p i)]
    · simp [blockY]
  have hAinv : (Matrix.diagonal a)⁻¹ = Matrix.diagonal fun i => (a i)⁻¹ := by
    refine Matrix.inv_eq_right_inv ?_
    rw [Matrix.diagonal_mul_diagonal, ← Matrix.diagonal_one]
    congr 1
    funext i
    exact mul_inv_cancel₀ (ha i).ne'
  set s : Fin q → ℝ := fun j => ∑ i, D i j ^ 2 / a i with hs_def
  have hschur : Matrix.diagonal b - D.conjTranspose * (Matrix.diagonal a)⁻¹ * D = Matrix.diagonal fun j => b j - s j := by
    rw [hAinv]
    ext j k
    rw [Matrix.sub_apply, Matrix.mul_apply]
    simp only [Matrix.mul_diagonal, Matrix.conjTranspose_apply, star_trivial]
    by_cases h : j = k
    · subst h
      simp only [Matrix.diagonal_apply_eq, s]
      congr 1
      exact Finset.sum_congr rfl fun i _ => by ring
    · rw [Matrix.diagonal_apply_ne _ h, Matrix.diagonal_apply_ne _ h, Finset.sum_eq_zero, sub_zero]
      intro i _
      by_cases hi : i.val = j.val
      · have : D i k = 0 := hxy i k fun hk => h (Fin.ext (hi.symm.trans hk))
        rw [this, mul_zero]
      · have : D i j = 0 := hxy i j hi
        rw [this, zero_mul, zero_mul]
  have hpos : (Matrix.fromBlocks (Matrix.diagonal a) D D.conjTranspose (Matrix.diagonal b)).PosDef := by
    rw [← hre]
    exact hC.submatrix finSumFinEquiv.injective
  have hAp : (Matrix.diagonal a).PosDef := Matrix.PosDef.diagonal ha
  haveI : Invertible (Matrix.diagonal a) := hAp.isUnit.invertible
  have hdet : C.det = (∏ i, a i) * ∏ j, (b j - s j) := by
    rw [← Matrix.det_submatrix_equiv_self finSumFinEquiv C, hre, Matrix.det_fromBlocks₁₁,
      Matrix.invOf_eq_nonsing_inv, hschur, Matrix.det_diagonal, Matrix.det_diagonal]
  have hnn : ∀ j, 0 ≤ b j - s j := by
    have h1 := (Matrix.PosDef.fromBlocks₁₁ D (Matrix.diagonal b) hAp).1 hpos.posSemidef
    rw [hschur, Matrix.posSemidef_diagonal_iff] at h1
    exact h1
  have hpp : ∀ j, 0 < b j - s j := by
    have h0 : (∏ j, (b j - s j)) ≠ 0 := by
      intro h0
      have := hC.det_pos
      rw [hdet, h0, mul_zero] at this
      exact lt_irrefl _ this
    exact fun j => lt_of_le_of_ne (hnn j) (Ne.symm (Finset.prod_ne_zero_iff.1 h0 j (Finset.mem_univ j)))
  have hsval : ∀ j : Fin q, ∀ h : j.val < p, s j = D ⟨j, h⟩ j ^ 2 / a ⟨j, h⟩ := by
    intro j h
    refine Finset.sum_eq_single (⟨j, h⟩ : Fin p) (fun i _ hi => ?_) fun hi => absurd (Finset.mem_univ _) hi
    have : D i j = 0 := hxy i j fun hv => hi (Fin.ext hv)
    rw [this]
    simp
  have hszero : ∀ j : Fin q, ¬ j.val < p → s j = 0 := by
    intro j h
    refine Finset.sum_eq_zero fun i _ => ?_
    have : D i j = 0 := hxy i j fun hv => h (hv ▸ i.isLt)
    rw [this]
    simp
  have hρs : ∀ i : Fin (min p q), ρ i ^ 2 = s ⟨i, by omega⟩ / b ⟨i, by omega⟩ := by
    intro i
    rw [hρ i, hsval ⟨i, by omega⟩ (show i.val < p by omega), div_div]
    rfl
  refine ⟨fun i => ?_, ?_⟩
  · rw [hρs i, div_lt_one (hb _)]
    linarith [hpp ⟨i, by omega⟩]
  · have hlog : Real.log C.det = (∑ i, Real.log (a i)) + ∑ j, Real.log (b j - s j) := by
      rw [hdet, Real.log_mul (Finset.prod_ne_zero_iff.2 fun i _ => (ha i).ne')
        (Finset.prod_ne_zero_iff.2 fun j _ => (hpp j).ne'), Real.log_prod fun i _ => (ha i).ne',
        Real.log_prod fun j _ => (hpp j).ne']
    rw [hX, hY, Matrix.det_diagonal, Matrix.det_diagonal, hlog, Real.log_prod fun i _ => (ha i).ne',
      Real.log_prod fun j _ => (hb j).ne']
    have h1 : ((∑ i, Real.log (a i)) + (∑ j, Real.log (b j)) - ((∑ i, Real.log (a i)) + ∑ j, Real.log (b j - s j))) / 2 =
        ∑ j, (Real.log (b j) - Real.log (b j - s j)) / 2 := by
      rw [← Finset.sum_div, Finset.sum_sub_distrib]
      ring
    rw [h1]
    let g : ℕ → ℝ := fun j => if h : j < min p q then -(Real.log (1 - ρ ⟨j, h⟩ ^ 2)) / 2 else 0
    have e1 : ∀ j : Fin q, (Real.log (b j) - Real.log (b j - s j)) / 2 = g j := by
      intro j
      by_cases h : j.val < p
      · have hm : j.val < min p q := by omega
        simp only [g, dif_pos hm]
        rw [hρs ⟨j, hm⟩, show (1 : ℝ) - s j / b j = (b j - s j) / b j by rw [sub_div, div_self (hb j).ne'],
          Real.log_div (hpp j).ne' (hb j).ne']
        ring
      · have hm : ¬ j.val < min p q := by omega
        simp only [g, dif_neg hm, hszero j h, sub_zero, sub_self, zero_div]
    have e2 : ∀ j : Fin (min p q), -(Real.log (1 - ρ j ^ 2)) / 2 = g j := fun j => by simp only [g, dif_pos j.isLt]
    simp only [e1, e2]
    rw [Fin.sum_univ_eq_sum_range, Fin.sum_univ_eq_sum_range]
    refine (Finset.sum_subset (Finset.range_subset_range.2 (by omega)) fun j _ hj => ?_).symm
    simp only [g, dif_neg (fun h => hj (Finset.mem_range.2 h))]

end BMI.Cca
