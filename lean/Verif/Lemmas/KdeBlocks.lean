import Verif.Lemmas.GaussianDensity
import Verif.Lemmas.Covariance
import Mathlib.Analysis.Matrix.Spectrum
import Mathlib.Analysis.SpecialFunctions.Log.Deriv
import Mathlib.Analysis.Calculus.Deriv.MeanValue

/-! Inverses of blocks of positive definite matrices, and how entropies of normal vectors grow with added noise. -/

namespace BMI.Samplers

open Matrix Filter Topology

variable {n p dx dy d : ℕ}

theorem posDef_transpose {A : Matrix (Fin n) (Fin n) ℝ} (h : A.PosDef) : A.transpose = A := by
  have := h.isHermitian.eq
  rwa [conjTranspose_eq_transpose_of_trivial] at this

/-- The trace of the product of a positive semidefinite and a positive definite matrix. -/
theorem trace_product_nonneg {D W : Matrix (Fin n) (Fin n) ℝ} (hD : D.PosSemidef) (hW : W.PosDef) : 0 ≤ (D * W).trace := by
  obtain ⟨C, -, h1, h2, -⟩ := sqrt_facts hW
  have := hD.mul_mul_conjTranspose_same C
  rw [conjTranspose_eq_transpose_of_trivial, h2] at this
  have h3 := this.trace_nonneg
  rwa [trace_mul_comm, ← Matrix.mul_assoc, h1, trace_mul_comm] at h3

/-- The inverse of a block is at most the block of the inverse. -/
theorem inv_block {A : Matrix (Fin n) (Fin n) ℝ} (hA : A.PosDef) {f : Fin p → Fin n} (hf : Function.Injective f) :
    (A⁻¹.submatrix f f - (A.submatrix f f)⁻¹).PosSemidef := by
  set E : Matrix (Fin n) (Fin p) ℝ := (1 : Matrix (Fin n) (Fin n) ℝ).submatrix id f with hE
  have e1 : ∀ M : Matrix (Fin n) (Fin n) ℝ, E.transpose * M * E = M.submatrix f f := by
    intro M
    rw [hE, transpose_submatrix, transpose_one, ← submatrix_id_id M]
    ext i j
    simp [mul_apply, one_apply]
  have e2 : E.transpose * E = 1 := by
    have := e1 1
    rw [Matrix.mul_one] at this
    rw [this]
    exact submatrix_one f hf
  have uA : IsUnit A.det := isUnit_iff_ne_zero.2 hA.det_pos.ne'
  have hX := hA.submatrix hf
  set X := A.submatrix f f with hXdef
  have uX : IsUnit X.det := isUnit_iff_ne_zero.2 hX.det_pos.ne'
  have tA : A⁻¹.transpose = A⁻¹ := posDef_transpose hA.inv
  have tX : X⁻¹.transpose = X⁻¹ := posDef_transpose hX.inv
  have h := hA.posSemidef.conjTranspose_mul_mul_same (A⁻¹ * E - E * X⁻¹)
  rw [conjTranspose_eq_transpose_of_trivial, transpose_sub, transpose_mul, transpose_mul, tA, tX] at h
  have e3 : (E.transpose * A⁻¹ - X⁻¹ * E.transpose) * A * (A⁻¹ * E - E * X⁻¹) = A⁻¹.submatrix f f - X⁻¹ := by
    have a1 : (E.transpose * A⁻¹ - X⁻¹ * E.transpose) * A = E.transpose - X⁻¹ * E.transpose * A := by
      rw [Matrix.sub_mul, Matrix.mul_assoc, nonsing_inv_mul _ uA, Matrix.mul_one]
    rw [a1, Matrix.sub_mul, Matrix.mul_sub, Matrix.mul_sub]
    have b1 : E.transpose * (A⁻¹ * E) = A⁻¹.submatrix f f := by rw [← Matrix.mul_assoc, e1]
    have b2 : E.transpose * (E * X⁻¹) = X⁻¹ := by rw [← Matrix.mul_assoc, e2, Matrix.one_mul]
    have b3 : X⁻¹ * E.transpose * A * (A⁻¹ * E) = X⁻¹ := by
      rw [← Matrix.mul_assoc, Matrix.mul_assoc _ A, mul_nonsing_inv _ uA, Matrix.mul_one, Matrix.mul_assoc, e2, Matrix.mul_one]
    have b4 : X⁻¹ * E.transpose * A * (E * X⁻¹) = X⁻¹ := by
      rw [← Matrix.mul_assoc, Matrix.mul_assoc X⁻¹, Matrix.mul_assoc X⁻¹, e1, nonsing_inv_mul _ uX, Matrix.one_mul]
    rw [b1, b2, b3, b4]
    simp
  rwa [e3] at h

theorem trace_inv_block {A : Matrix (Fin n) (Fin n) ℝ} (hA : A.PosDef) {f : Fin p → Fin n} (hf : Function.Injective f) :
    ((A.submatrix f f)⁻¹ * (A.submatrix f f)⁻¹).trace ≤ (A⁻¹.submatrix f f * A⁻¹.submatrix f f).trace := by
  have h1 := inv_block hA hf
  have h2 : (A⁻¹.submatrix f f + (A.submatrix f f)⁻¹).PosDef := (hA.inv.submatrix hf).add (hA.submatrix hf).inv
  have h3 := trace_product_nonneg h1 h2
  rw [Matrix.sub_mul, Matrix.mul_add, Matrix.mul_add, trace_sub, trace_add, trace_add,
    trace_mul_comm (A.submatrix f f)⁻¹ (A⁻¹.submatrix f f)] at h3
  linarith

/-- The squares of the entries of the inverse add up to more than those of the inverses of the blocks. -/
theorem trace_blocks {A : Matrix (Fin (dx + dy)) (Fin (dx + dy)) ℝ} (hA : A.PosDef) :
    ((blockX A)⁻¹ * (blockX A)⁻¹).trace + ((blockY A)⁻¹ * (blockY A)⁻¹).trace
      + 2 * ∑ i : Fin dx, ∑ j : Fin dy, (A⁻¹ (Fin.castAdd dy i) (Fin.natAdd dx j)) ^ 2 ≤ (A⁻¹ * A⁻¹).trace := by
  have hx := trace_inv_block hA (Fin.castAdd_injective dx dy)
  have hy := trace_inv_block hA (Fin.natAdd_injective dy dx)
  have hs : ∀ k l, A⁻¹ k l = A⁻¹ l k := fun k l => congrFun (congrFun (posDef_transpose hA.inv) l) k
  have e : (A⁻¹ * A⁻¹).trace = (A⁻¹.submatrix (Fin.castAdd dy) (Fin.castAdd dy) * A⁻¹.submatrix (Fin.castAdd dy) (Fin.castAdd dy)).trace
      + (A⁻¹.submatrix (Fin.natAdd dx) (Fin.natAdd dx) * A⁻¹.submatrix (Fin.natAdd dx) (Fin.natAdd dx)).trace
      + 2 * ∑ i : Fin dx, ∑ j : Fin dy, (A⁻¹ (Fin.castAdd dy i) (Fin.natAdd dx j)) ^ 2 := by
    simp only [trace, diag, mul_apply, submatrix_apply, Fin.sum_univ_add, Finset.sum_add_distrib]
    have c : ∑ j : Fin dy, ∑ i : Fin dx, A⁻¹ (Fin.natAdd dx j) (Fin.castAdd dy i) * A⁻¹ (Fin.castAdd dy i) (Fin.natAdd dx j)
        = ∑ i : Fin dx, ∑ j : Fin dy, (A⁻¹ (Fin.castAdd dy i) (Fin.natAdd dx j)) ^ 2 := by
      rw [Finset.sum_comm]
      refine Finset.sum_congr rfl fun i _ => Finset.sum_congr rfl fun j _ => ?_
      rw [hs (Fin.natAdd dx j)]
      ring
    have c' : ∑ i : Fin dx, ∑ j : Fin dy, A⁻¹ (Fin.castAdd dy i) (Fin.natAdd dx j) * A⁻¹ (Fin.natAdd dx j) (Fin.castAdd dy i)
        = ∑ i : Fin dx, ∑ j : Fin dy, (A⁻¹ (Fin.castAdd dy i) (Fin.natAdd dx j)) ^ 2 := by
      refine Finset.sum_congr rfl fun i _ => Finset.sum_congr rfl fun j _ => ?_
      rw [hs (Fin.natAdd dx j)]
      ring
    rw [c, c']
    ring
  have hx' : ((blockX A)⁻¹ * (blockX A)⁻¹).trace ≤ _ := hx
  have hy' : ((blockY A)⁻¹ * (blockY A)⁻¹).trace ≤ _ := hy
  linarith

/-- If the inverse has no entries between the blocks, neither has the matrix. -/
theorem off_diagonal_zero {A : Matrix (Fin (dx + dy)) (Fin (dx + dy)) ℝ} (hA : A.PosDef)
    (h : ∀ i j, A⁻¹ (Fin.castAdd dy i) (Fin.natAdd dx j) = 0) (i : Fin dx) (j : Fin dy) : A (Fin.castAdd dy i) (Fin.natAdd dx j) = 0 := by
  have uA : IsUnit A.det := isUnit_iff_ne_zero.2 hA.det_pos.ne'
  have hs : ∀ k l, A⁻¹ k l = A⁻¹ l k := fun k l => congrFun (congrFun (posDef_transpose hA.inv) l) k
  have h1 : ∀ a : Fin dx, ∑ c : Fin dx, A⁻¹ (Fin.castAdd dy a) (Fin.castAdd dy c) * A (Fin.castAdd dy c) (Fin.natAdd dx j) = 0 := by
    intro a
    have := congrFun (congrFun (nonsing_inv_mul A uA) (Fin.castAdd dy a)) (Fin.natAdd dx j)
    rw [mul_apply, Fin.sum_univ_add] at this
    simp only [h, zero_mul, Finset.sum_const_zero, add_zero] at this
    rw [this, one_apply_ne]
    intro hc
    have := congrArg Fin.val hc
    simp at this
    omega
  have hB := hA.inv.submatrix (Fin.castAdd_injective dx dy)
  set B := A⁻¹.submatrix (Fin.castAdd dy) (Fin.castAdd dy)
  have h2 : B.mulVec (fun c => A (Fin.castAdd dy c) (Fin.natAdd dx j)) = 0 := funext fun a => h1 a
  have h3 := congrArg (B⁻¹.mulVec) h2
  rw [mulVec_mulVec, nonsing_inv_mul _ (isUnit_iff_ne_zero.2 hB.det_pos.ne'), one_mulVec, mulVec_zero] at h3
  exact congrFun h3 i

/-- Determinant and traces in terms of eigenvalues. -/
theorem shifted {S : Matrix (Fin d) (Fin d) ℝ} (hS : S.PosDef) {t : ℝ} (ht : 0 ≤ t) :
    (S + t • (1 : Matrix (Fin d) (Fin d) ℝ)).PosDef ∧ (S + t • (1 : Matrix (Fin d) (Fin d) ℝ)).det = ∏ i, (hS.isHermitian.eigenvalues i + t)
      ∧ ((S + t • (1 : Matrix (Fin d) (Fin d) ℝ))⁻¹ * S).trace = ∑ i, hS.isHermitian.eigenvalues i / (hS.isHermitian.eigenvalues i + t)
      ∧ ((S + t • (1 : Matrix (Fin d) (Fin d) ℝ))⁻¹ * (S + t • (1 : Matrix (Fin d) (Fin d) ℝ))⁻¹).trace
        = ∑ i, (1 / (hS.isHermitian.eigenvalues i + t)) ^ 2 := by
  set l := hS.isHermitian.eigenvalues with hl
  have hp : ∀ i, 0 < l i + t := fun i => add_pos_of_pos_of_nonneg (hS.eigenvalues_pos i) ht
  obtain ⟨U, hU⟩ : ∃ U : Matrix (Fin d) (Fin d) ℝ, U = (hS.isHermitian.eigenvectorUnitary : Matrix (Fin d) (Fin d) ℝ) := ⟨_, rfl⟩
  have u1 : star U * U = 1 := by rw [hU]; exact Unitary.coe_star_mul_self hS.isHermitian.eigenvectorUnitary
  have u2 : U * star U = 1 := by rw [hU]; exact Unitary.coe_mul_star_self hS.isHermitian.eigenvectorUnitary
  have hsp : S = U * diagonal l * star U := by
    have := hS.isHermitian.spectral_theorem
    rw [Unitary.conjStarAlgAut_apply] at this
    rw [hU]; exact this
  have hA : S + t • (1 : Matrix (Fin d) (Fin d) ℝ) = U * diagonal (fun i => l i + t) * star U := by
    have : (diagonal fun i => l i + t) = diagonal l + t • (1 : Matrix (Fin d) (Fin d) ℝ) := by
      rw [← diagonal_one, ← diagonal_smul, diagonal_add]
      congr 1
      funext i
      simp
    rw [this, Matrix.mul_add, Matrix.add_mul, ← hsp, Matrix.mul_smul, Matrix.mul_one, Matrix.smul_mul, u2]
  have hinv : (S + t • (1 : Matrix (Fin d) (Fin d) ℝ))⁻¹ = U * diagonal (fun i => 1 / (l i + t)) * star U := by
    refine inv_eq_left_inv ?_
    rw [hA]
    have : ∀ X Y : Matrix (Fin d) (Fin d) ℝ, U * X * star U * (U * Y * star U) = U * (X * Y) * star U := by
      intro X Y
      simp only [Matrix.mul_assoc]
      rw [← Matrix.mul_assoc (star U) U, u1, Matrix.one_mul]
    rw [this, diagonal_mul_diagonal]
    have e : (diagonal fun i => 1 / (l i + t) * (l i + t)) = (1 : Matrix (Fin d) (Fin d) ℝ) := by
      rw [← diagonal_one]
      congr 1
      funext i
      field_simp [(hp i).ne']
    rw [e, Matrix.mul_one, u2]
  have hm : ∀ X Y : Matrix (Fin d) (Fin d) ℝ, (U * X * star U * (U * Y * star U)).trace = (X * Y).trace := by
    intro X Y
    have : U * X * star U * (U * Y * star U) = U * (X * Y * star U) := by
      simp only [Matrix.mul_assoc]
      rw [← Matrix.mul_assoc (star U) U, u1, Matrix.one_mul]
    rw [this, trace_mul_comm, Matrix.mul_assoc, u1, Matrix.mul_one]
  refine ⟨?_, ?_, ?_, ?_⟩
  · rcases ht.eq_or_lt with rfl | h0
    · simpa using hS
    · exact hS.add (Matrix.PosDef.one.smul h0)
  · rw [hA, det_mul, det_mul, det_diagonal, mul_right_comm, ← det_mul, u2, det_one, one_mul]
  · rw [hinv]
    conv_lhs => rw [hsp]
    rw [hm, diagonal_mul_diagonal, trace_diagonal]
    refine Finset.sum_congr rfl fun i _ => ?_
    field_simp [(hp i).ne']
  · rw [hinv, hm, diagonal_mul_diagonal, trace_diagonal]
    refine Finset.sum_congr rfl fun i _ => ?_
    ring

end BMI.Samplers
