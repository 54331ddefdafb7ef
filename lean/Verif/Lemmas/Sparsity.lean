import Verif.Lemmas.GaussianMI
import Mathlib.LinearAlgebra.Matrix.SchurComplement
import Mathlib.Analysis.SpecialFunctions.Log.Basic

/-! Determinants of the covariances between dense and sparse, and the information of one pair. -/

namespace BMI.Sparsity

open Matrix BMI.Samplers

/-- Determinant of a multiple of the identity plus a constant. -/
theorem det_shift (n : ℕ) {a : ℝ} (ha : 0 < a) (c : ℝ) :
    (Matrix.of fun i j : Fin n => (if i = j then a else 0) + c).det = a ^ n * (1 + n * c / a) := by
  have e : (Matrix.of fun i j : Fin n => (if i = j then a else 0) + c)
      = a • (1 + replicateCol Unit (fun _ : Fin n => c / a) * replicateRow Unit fun _ : Fin n => (1 : ℝ)) := by
    ext i j
    simp only [of_apply, Matrix.smul_apply, Matrix.add_apply, mul_apply, replicateCol_apply, replicateRow_apply, one_apply,
      Finset.univ_unique, Finset.sum_singleton, smul_eq_mul, mul_one]
    rw [mul_add, mul_div_cancel₀ _ ha.ne']
    split_ifs <;> simp
  rw [e, det_smul, det_one_add_replicateCol_mul_replicateRow]
  simp [dotProduct, mul_div_assoc]

/-- Determinant of two exchangeable blocks. -/
theorem det_exchangeable {n : ℕ} (A B : Matrix (Fin n) (Fin n) ℝ) :
    (fromBlocks A B B A).det = (A + B).det * (A - B).det := by
  have e : fromBlocks 1 0 1 1 * fromBlocks A B B A * fromBlocks 1 0 (-1) 1
      = fromBlocks (A - B) B 0 (A + B) := by
    rw [fromBlocks_multiply, fromBlocks_multiply]
    congr 1
    all_goals simp only [Matrix.one_mul, Matrix.zero_mul, Matrix.mul_one, Matrix.mul_zero, Matrix.mul_neg, add_zero, zero_add]
    all_goals first | abel | skip
  have := congrArg det e
  rw [det_mul, det_mul, det_fromBlocks_zero₁₂, det_fromBlocks_zero₁₂, det_fromBlocks_zero₂₁] at this
  simp only [det_one, one_mul, mul_one] at this
  rw [this, mul_comm]

/-- Covariance of `d` equal pairs with a common part. -/
structure IsPaired {d : ℕ} (a b c : ℝ) (M : Matrix (Fin (d + d)) (Fin (d + d)) ℝ) : Prop where
  xx : ∀ i j : Fin d, M (Fin.castAdd d i) (Fin.castAdd d j) = (if i = j then a else 0) + c
  yy : ∀ i j : Fin d, M (Fin.natAdd d i) (Fin.natAdd d j) = (if i = j then a else 0) + c
  xy : ∀ i j : Fin d, M (Fin.castAdd d i) (Fin.natAdd d j) = (if i = j then b else 0) + c
  yx : ∀ i j : Fin d, M (Fin.natAdd d i) (Fin.castAdd d j) = (if i = j then b else 0) + c

theorem IsPaired.det_eq {d : ℕ} {a b c : ℝ} {M : Matrix (Fin (d + d)) (Fin (d + d)) ℝ} (h : IsPaired a b c M)
    (h1 : 0 < a + b) (h2 : 0 < a - b) : M.det = (a + b) ^ d * (1 + d * (2 * c) / (a + b)) * (a - b) ^ d := by
  have e : M.submatrix finSumFinEquiv finSumFinEquiv = fromBlocks (Matrix.of fun i j : Fin d => (if i = j then a else 0) + c)
      (Matrix.of fun i j : Fin d => (if i = j then b else 0) + c) (Matrix.of fun i j : Fin d => (if i = j then b else 0) + c)
      (Matrix.of fun i j : Fin d => (if i = j then a else 0) + c) := by
    ext p q
    rcases p with i | i <;> rcases q with j | j
    · simpa using h.xx i j
    · simpa using h.xy i j
    · simpa using h.yx i j
    · simpa using h.yy i j
  rw [← det_submatrix_equiv_self finSumFinEquiv M, e, det_exchangeable]
  have e1 : (Matrix.of fun i j : Fin d => (if i = j then a else 0) + c) + (Matrix.of fun i j : Fin d => (if i = j then b else 0) + c)
      = Matrix.of fun i j : Fin d => (if i = j then a + b else 0) + 2 * c := by
    ext i j
    simp only [Matrix.add_apply, of_apply]
    split_ifs <;> ring
  have e2 : (Matrix.of fun i j : Fin d => (if i = j then a else 0) + c) - (Matrix.of fun i j : Fin d => (if i = j then b else 0) + c)
      = Matrix.of fun i j : Fin d => (if i = j then a - b else 0) + 0 := by
    ext i j
    simp only [Matrix.sub_apply, of_apply]
    split_ifs <;> ring
  rw [e1, e2, det_shift d h1, det_shift d h2]
  simp

theorem IsPaired.blocks {d : ℕ} {a b c : ℝ} {M : Matrix (Fin (d + d)) (Fin (d + d)) ℝ} (h : IsPaired a b c M)
    (h1 : 0 < a) : (blockX M).det = a ^ d * (1 + d * c / a) ∧ (blockY M).det = a ^ d * (1 + d * c / a) := by
  rw [← det_shift d h1]
  constructor <;> congr 1 <;> ext i j
  · exact h.xx i j
  · exact h.yy i j

/-- The information of one pair of variables with common part of variance `s` and noise of variance one. -/
noncomputable def gain (s : ℝ) : ℝ := Real.log (1 + s) - Real.log (1 + 2 * s) / 2

theorem gain_zero : gain 0 = 0 := by simp [gain]

theorem two_gain {s : ℝ} (hs : 0 ≤ s) : 2 * gain s = Real.log ((1 + s) ^ 2 / (1 + 2 * s)) := by
  rw [Real.log_div (by positivity) (by positivity), Real.log_pow, gain]
  push_cast
  ring

theorem gain_lt {s t : ℝ} (hs : 0 ≤ s) (h : s < t) : gain s < gain t := by
  have ht : 0 < t := hs.trans_lt h
  have : 2 * gain s < 2 * gain t := by
    rw [two_gain hs, two_gain ht.le]
    refine Real.log_lt_log (by positivity) ?_
    rw [div_lt_div_iff₀ (by positivity) (by positivity)]
    have h1 : 0 < (t - s) * (t + s + 2 * s * t) := mul_pos (by linarith) (by positivity)
    nlinarith
  linarith

theorem gain_le {s t : ℝ} (hs : 0 ≤ s) (h : s ≤ t) : gain s ≤ gain t := by
  rcases h.eq_or_lt with rfl | h
  · exact le_rfl
  · exact (gain_lt hs h).le

theorem gain_lipschitz {s t : ℝ} (hs : 0 ≤ s) (h : s ≤ t) : gain t - gain s ≤ t - s := by
  have ht : 0 ≤ t := hs.trans h
  have h1 : Real.log (1 + t) - Real.log (1 + s) ≤ t - s := by
    rw [← Real.log_div (by positivity) (by positivity)]
    refine (Real.log_le_sub_one_of_pos (by positivity)).trans ?_
    rw [div_sub_one (by positivity)]
    rw [div_le_iff₀ (by positivity)]
    nlinarith [mul_nonneg (sub_nonneg.2 h) hs]
  have h2 : Real.log (1 + 2 * s) ≤ Real.log (1 + 2 * t) := Real.log_le_log (by positivity) (by linarith)
  simp only [gain]
  linarith

theorem IsPaired.number {d : ℕ} (hd : 0 < d) {s c : ℝ} (hs : 0 ≤ s) (hc : 0 ≤ c)
    {M : Matrix (Fin (d + d)) (Fin (d + d)) ℝ} (h : IsPaired (1 + s) s c M) :
    (Real.log (blockX M).det + Real.log (blockY M).det - Real.log M.det) / 2 = (d - 1) * gain s + gain (s + d * c) := by
  obtain ⟨hx, hy⟩ := h.blocks (by linarith)
  rw [hx, hy, h.det_eq (by linarith) (by linarith)]
  have e1 : 1 + d * c / (1 + s) = (1 + (s + d * c)) / (1 + s) := by field_simp; ring
  have e2 : 1 + d * (2 * c) / (1 + s + s) = (1 + 2 * (s + d * c)) / (1 + 2 * s) := by
    rw [show 1 + s + s = 1 + 2 * s by ring]
    field_simp
    ring
  have h3 : 0 < 1 + (s + d * c) := by positivity
  have h4 : 0 < 1 + 2 * (s + d * c) := by positivity
  have h5 : 0 < 1 + s := by positivity
  have h6 : 0 < 1 + 2 * s := by positivity
  rw [e1, e2, show 1 + s - s = 1 by ring, one_pow, mul_one, show 1 + s + s = 1 + 2 * s by ring,
    Real.log_mul (by positivity) (by positivity), Real.log_mul (by positivity) (by positivity), Real.log_pow, Real.log_pow,
    Real.log_div h3.ne' h5.ne', Real.log_div h4.ne' h6.ne']
  simp only [gain]
  ring

end BMI.Sparsity
