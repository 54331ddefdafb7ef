import Verif.Lemmas.Cca
import Verif.Lemmas.PmiProfile
import Mathlib.Analysis.InnerProductSpace.SingularValues
import Mathlib.Analysis.Matrix.Order

/-! Canonical variables exist. -/

namespace BMI.Cca

open BMI.Samplers BMI.Bmm Module

variable {p q : ℕ}

/-- Orthonormal bases in which a linear map is diagonal. -/
theorem exists_singular (T : EuclideanSpace ℝ (Fin p) →ₗ[ℝ] EuclideanSpace ℝ (Fin q)) :
    ∃ (b : OrthonormalBasis (Fin p) ℝ (EuclideanSpace ℝ (Fin p))) (c : OrthonormalBasis (Fin q) ℝ (EuclideanSpace ℝ (Fin q))),
      ∀ i j, i.val ≠ j.val → inner ℝ (c j) (T (b i)) = 0 := by
  have hp : finrank ℝ (EuclideanSpace ℝ (Fin p)) = p := by simp
  have hsym := T.isSymmetric_adjoint_comp_self
  set b := hsym.eigenvectorBasis hp with hb
  have hin : ∀ i j, inner ℝ (T (b i)) (T (b j)) = hsym.eigenvalues hp j * inner ℝ (b i) (b j) := by
    intro i j
    rw [← LinearMap.adjoint_inner_right]
    have := hsym.apply_eigenvectorBasis hp j
    rw [← hb] at this
    simp only [LinearMap.comp_apply] at this
    rw [this, inner_smul_right]
    rfl
  have hort : ∀ i j, i ≠ j → inner ℝ (T (b i)) (T (b j)) = 0 := fun i j h => by
    rw [hin, b.inner_eq_zero h, mul_zero]
  have hlt : ∀ i : Fin p, T (b i) ≠ 0 → i.val < q := by
    intro i hi
    have h1 : 0 < T.singularValues i := by
      refine lt_of_le_of_ne (T.singularValues_nonneg i) fun h0 => hi ?_
      have h2 := T.sq_singularValues_fin hp i
      rw [← h0] at h2
      have h3 := hin i i
      have h4 : hsym.eigenvalues hp i = 0 := by simpa using h2.symm
      rw [h4, zero_mul] at h3
      exact inner_self_eq_zero.1 h3
    have h2 := T.singularValues_pos_iff_lt_finrank_range.1 h1
    have h3 := Submodule.finrank_le (LinearMap.range T)
    simp only [finrank_euclideanSpace, Fintype.card_fin] at h3
    omega
  let v : Fin q → EuclideanSpace ℝ (Fin q) := fun j => if h : j.val < p then ‖T (b ⟨j, h⟩)‖⁻¹ • T (b ⟨j, h⟩) else 0
  let s : Set (Fin q) := {j | ∃ h : j.val < p, T (b ⟨j, h⟩) ≠ 0}
  have hv : Orthonormal ℝ (s.domRestrict v) := by
    constructor
    · rintro ⟨j, h, h0⟩
      show ‖v j‖ = 1
      simp only [v, dif_pos h]
      rw [norm_smul, norm_inv, norm_norm, inv_mul_cancel₀ (norm_ne_zero_iff.2 h0)]
    · rintro ⟨j, h, h0⟩ ⟨k, h', h0'⟩ hjk
      show inner ℝ (v j) (v k) = 0
      simp only [v, dif_pos h, dif_pos h']
      rw [inner_smul_left, inner_smul_right, hort _ _ (fun e => hjk (Subtype.ext (Fin.ext (Fin.mk.inj e)))), mul_zero, mul_zero]
  obtain ⟨c, hc⟩ := hv.exists_orthonormalBasis_extension_of_card_eq (by simp)
  refine ⟨b, c, fun i j hij => ?_⟩
  by_cases h0 : T (b i) = 0
  · rw [h0, inner_zero_right]
  · have hi := hlt i h0
    have h1 := hc ⟨i, hi⟩ ⟨i.isLt, h0⟩
    have h2 : T (b i) = ‖T (b i)‖ • c ⟨i, hi⟩ := by
      rw [h1]
      simp only [v, dif_pos i.isLt, Fin.eta]
      rw [smul_smul, mul_inv_cancel₀ (norm_ne_zero_iff.2 h0), one_smul]
    rw [h2, inner_smul_right, c.inner_eq_zero (fun e => hij (by rw [e])), mul_zero]

open scoped MatrixOrder Matrix.Norms.L2Operator in
theorem exists_whitening {d : ℕ} {S : Matrix (Fin d) (Fin d) ℝ} (hS : S.PosDef) : ∃ W : Matrix (Fin d) (Fin d) ℝ, W * S * W.transpose = 1 := by
  obtain ⟨L, hL⟩ := CStarAlgebra.nonneg_iff_eq_star_mul_self.mp hS.posSemidef.nonneg
  rw [Matrix.star_eq_conjTranspose, Matrix.conjTranspose_eq_transpose_of_trivial] at hL
  have hd : IsUnit L.det := by
    have := hS.det_pos.ne'
    rw [hL, Matrix.det_mul] at this
    exact (right_ne_zero_of_mul this).isUnit
  refine ⟨L⁻¹.transpose, ?_⟩
  rw [Matrix.transpose_transpose, hL, Matrix.mul_assoc, Matrix.mul_assoc, Matrix.mul_nonsing_inv _ hd, Matrix.mul_one,
    ← Matrix.transpose_mul, Matrix.mul_nonsing_inv _ hd, Matrix.transpose_one]

/-- Canonical directions of an invertible covariance matrix. -/
theorem exists_canonical {S : Matrix (Fin (p + q)) (Fin (p + q)) ℝ} (hS : S.PosDef) :
    ∃ (A : Matrix (Fin p) (Fin p) ℝ) (B : Matrix (Fin q) (Fin q) ℝ), A * blockX S * A.transpose = 1 ∧ B * blockY S * B.transpose = 1 ∧
      ∀ i j, i.val ≠ j.val → (A * blockXY S * B.transpose) i j = 0 := by
  obtain ⟨W, hW⟩ := exists_whitening (blockX_posDef hS)
  obtain ⟨Z, hZ⟩ := exists_whitening (blockY_posDef hS)
  set M := W * blockXY S * Z.transpose with hM
  obtain ⟨b, c, hbc⟩ := exists_singular (Matrix.toEuclideanLin M.transpose)
  let U : Matrix (Fin p) (Fin p) ℝ := Matrix.of fun i k => b i k
  let V : Matrix (Fin q) (Fin q) ℝ := Matrix.of fun j k => c j k
  have hU : U * U.transpose = 1 := by
    ext i j
    have := b.inner_eq_ite i j
    simp only [PiLp.inner_apply, RCLike.inner_apply, conj_trivial] at this
    rw [Matrix.mul_apply, Matrix.one_apply, ← this]
    exact Finset.sum_congr rfl fun k _ => mul_comm _ _
  have hV : V * V.transpose = 1 := by
    ext i j
    have := c.inner_eq_ite i j
    simp only [PiLp.inner_apply, RCLike.inner_apply, conj_trivial] at this
    rw [Matrix.mul_apply, Matrix.one_apply, ← this]
    exact Finset.sum_congr rfl fun k _ => mul_comm _ _
  refine ⟨U * W, V * Z, ?_, ?_, fun i j hij => ?_⟩
  · rw [Matrix.transpose_mul]
    calc U * W * blockX S * (W.transpose * U.transpose) = U * (W * blockX S * W.transpose) * U.transpose := by
          simp only [Matrix.mul_assoc]
      _ = 1 := by rw [hW, Matrix.mul_one, hU]
  · rw [Matrix.transpose_mul]
    calc V * Z * blockY S * (Z.transpose * V.transpose) = V * (Z * blockY S * Z.transpose) * V.transpose := by
          simp only [Matrix.mul_assoc]
      _ = 1 := by rw [hZ, Matrix.mul_one, hV]
  · have e : U * W * blockXY S * (V * Z).transpose = U * M * V.transpose := by
      rw [Matrix.transpose_mul, hM]
      simp only [Matrix.mul_assoc]
    rw [e]
    have h := hbc i j hij
    simp only [PiLp.inner_apply, RCLike.inner_apply, conj_trivial, Matrix.toLpLin_apply, Matrix.mulVec, dotProduct, Matrix.transpose_apply] at h
    rw [Matrix.mul_apply, ← h]
    refine Finset.sum_congr rfl fun k _ => ?_
    rw [Matrix.mul_apply]
    congr 1
    exact Finset.sum_congr rfl fun l _ => mul_comm _ _

end BMI.Cca
