import Verif.Props.BmmPmi
import Verif.Lemmas.MixtureMore
import Mathlib.Data.Matrix.Block

/-! Helper lemmas for C65: quadratic forms and rotations of normal vectors. -/

namespace BMI.Bmm

open MeasureTheory ProbabilityTheory BMI.Samplers BMI.Student Matrix

/-- The block of a matrix between X and Y. -/
def blockXY {dx dy : ℕ} (m : Matrix (Fin (dx + dy)) (Fin (dx + dy)) ℝ) : Matrix (Fin dx) (Fin dy) ℝ :=
  fun i j => m (Fin.castAdd dy i) (Fin.natAdd dx j)

/-- A matrix on the concatenated coordinates from its blocks. -/
def ofBlocks {dx dy : ℕ} (a : Matrix (Fin dx) (Fin dx) ℝ) (b : Matrix (Fin dx) (Fin dy) ℝ) (c : Matrix (Fin dy) (Fin dx) ℝ)
    (d : Matrix (Fin dy) (Fin dy) ℝ) : Matrix (Fin (dx + dy)) (Fin (dx + dy)) ℝ :=
  (fromBlocks a b c d).submatrix finSumFinEquiv.symm finSumFinEquiv.symm

variable {dx dy : ℕ}

theorem ofBlocks_mul (a a' : Matrix (Fin dx) (Fin dx) ℝ) (b b' : Matrix (Fin dx) (Fin dy) ℝ) (c c' : Matrix (Fin dy) (Fin dx) ℝ)
    (d d' : Matrix (Fin dy) (Fin dy) ℝ) : ofBlocks a b c d * ofBlocks a' b' c' d' =
      ofBlocks (a * a' + b * c') (a * b' + b * d') (c * a' + d * c') (c * b' + d * d') := by
  unfold ofBlocks
  rw [submatrix_mul_equiv, fromBlocks_multiply]

theorem ofBlocks_transpose (a : Matrix (Fin dx) (Fin dx) ℝ) (b : Matrix (Fin dx) (Fin dy) ℝ) (c : Matrix (Fin dy) (Fin dx) ℝ)
    (d : Matrix (Fin dy) (Fin dy) ℝ) : (ofBlocks a b c d)ᵀ = ofBlocks aᵀ cᵀ bᵀ dᵀ := by
  unfold ofBlocks
  rw [transpose_submatrix, fromBlocks_transpose]

theorem ofBlocks_one : ofBlocks (1 : Matrix (Fin dx) (Fin dx) ℝ) 0 0 (1 : Matrix (Fin dy) (Fin dy) ℝ) = 1 := by
  unfold ofBlocks
  rw [fromBlocks_one, submatrix_one_equiv]

theorem ofBlocks_eta {m : Matrix (Fin (dx + dy)) (Fin (dx + dy)) ℝ} (h : mᵀ = m) :
    m = ofBlocks (blockX m) (blockXY m) (blockXY m)ᵀ (blockY m) := by
  have h' : m.submatrix finSumFinEquiv finSumFinEquiv = fromBlocks (blockX m) (blockXY m) (blockXY m)ᵀ (blockY m) := by
    ext (i | i) (j | j)
    · simp [blockX]
    · simp [blockXY]
    · simp only [submatrix_apply, finSumFinEquiv_apply_right, finSumFinEquiv_apply_left, fromBlocks_apply₂₁, transpose_apply,
        blockXY]
      conv_lhs => rw [← h, transpose_apply]
    · simp [blockY]
  unfold ofBlocks
  rw [← h']
  simp

theorem parts_mulVec (a : Matrix (Fin dx) (Fin dx) ℝ) (b : Matrix (Fin dx) (Fin dy) ℝ) (c : Matrix (Fin dy) (Fin dx) ℝ)
    (d : Matrix (Fin dy) (Fin dy) ℝ) (z : Fin (dx + dy) → ℝ) :
    parts ((ofBlocks a b c d) *ᵥ z) = (a *ᵥ (parts z).1 + b *ᵥ (parts z).2, c *ᵥ (parts z).1 + d *ᵥ (parts z).2) := by
  refine Prod.ext ?_ ?_ <;> funext i <;>
    simp [parts, ofBlocks, mulVec, dotProduct, Fin.sum_univ_add]

theorem dot_parts (z w : Fin (dx + dy) → ℝ) : z ⬝ᵥ w = (parts z).1 ⬝ᵥ (parts w).1 + (parts z).2 ⬝ᵥ (parts w).2 := by
  simp [dotProduct, Fin.sum_univ_add, parts]

theorem quad_factor {d : ℕ} {S L : Matrix (Fin d) (Fin d) ℝ} (h : L * Lᵀ = S) (hL : IsUnit L.det) (mean w : Fin d → ℝ) :
    quad mean S (mean + L *ᵥ w) = w ⬝ᵥ w := by
  rw [← mahalanobis_eq h]
  unfold mahalanobis
  rw [add_sub_cancel_left, mulVec_mulVec, nonsing_inv_mul _ hL, one_mulVec]
  simp [dotProduct, sq]

theorem stdNormal_split (dx dy : ℕ) : (stdNormal (dx + dy)).map parts = (stdNormal dx).prod (stdNormal dy) := by
  have h := (splitNormal_diagonal (dx := dx) (dy := dy) 0 (fun _ => 1) fun _ => one_pos).2
  have e : ∀ d, (diagonal (fun _ : Fin d => (1 : ℝ))) = 1 := fun d => diagonal_one
  have e1 : (parts (fun _ : Fin (dx + dy) => (1 : ℝ)) : (Fin dx → ℝ) × (Fin dy → ℝ)) = (fun _ => 1, fun _ => 1) := rfl
  have e2 : (parts (0 : Fin (dx + dy) → ℝ) : (Fin dx → ℝ) × (Fin dy → ℝ)) = (0, 0) := rfl
  unfold splitNormal at h
  rw [e1, e2, e, e, e, stdNormal_eq, stdNormal_eq, stdNormal_eq] at h
  exact h

theorem stdNormal_rotate {d : ℕ} {L : Matrix (Fin d) (Fin d) ℝ} (h : L * Lᵀ = 1) :
    (stdNormal d).map (fun w => L *ᵥ w) = stdNormal d := by
  have := normalLaw_cholesky h 0
  rw [stdNormal_eq] at this
  simpa only [zero_add] using this

/-- The two quadratic forms of the marginals minus the one of the joint law, at the point with standard coordinates `w`. -/
theorem quad_difference {cov : Matrix (Fin (dx + dy)) (Fin (dx + dy)) ℝ} (hpos : cov.PosDef) {Sx : Matrix (Fin dx) (Fin dx) ℝ}
    {Sy : Matrix (Fin dy) (Fin dy) ℝ} {C : Matrix (Fin dx) (Fin dy) ℝ} (hx : Sx * Sxᵀ = blockX cov) (hy : Sy * Syᵀ = blockY cov)
    (hC : Sx * C * Syᵀ = blockXY cov) (mean : Fin (dx + dy) → ℝ) :
    ∃ L : Matrix (Fin (dx + dy)) (Fin (dx + dy)) ℝ, L * Lᵀ = cov ∧ ∀ w,
      quad (parts mean).1 (blockX cov) (parts (mean + L *ᵥ w)).1 + quad (parts mean).2 (blockY cov) (parts (mean + L *ᵥ w)).2
        - quad mean cov (mean + L *ᵥ w) = 2 * ((parts w).1 ⬝ᵥ C *ᵥ (parts w).2) := by
  have unit : ∀ {d : ℕ} {S M : Matrix (Fin d) (Fin d) ℝ}, S * Sᵀ = M → M.PosDef → IsUnit S.det := by
    intro d S M h hM
    rw [isUnit_iff_ne_zero]
    intro h0
    have := hM.det_pos
    rw [← h, det_mul, h0, zero_mul] at this
    exact this.false
  have ux := unit hx (blockX_posDef hpos)
  have uy := unit hy (blockY_posDef hpos)
  have hsym : covᵀ = cov := by
    have := hpos.isHermitian
    rwa [IsHermitian, conjTranspose_eq_transpose_of_trivial] at this
  set B := ofBlocks Sx 0 0 Sy with hB
  set Bi := ofBlocks Sx⁻¹ 0 0 Sy⁻¹ with hBi
  set K : Matrix (Fin (dx + dy)) (Fin (dx + dy)) ℝ := ofBlocks 1 C Cᵀ 1 with hK
  have hBBi : B * Bi = 1 := by
    rw [hB, hBi, ofBlocks_mul, mul_nonsing_inv _ ux, mul_nonsing_inv _ uy]
    simp [ofBlocks_one]
  have hBiB : Bi * B = 1 := mul_eq_one_comm.1 hBBi
  have hBK : B * K * Bᵀ = cov := by
    rw [hB, hK, ofBlocks_transpose, ofBlocks_mul, ofBlocks_mul, ofBlocks_eta hsym, ← hx, ← hy, ← hC]
    simp [Matrix.mul_assoc, transpose_mul]
  have hKc : K = Bi * cov * Biᵀ := by
    rw [← hBK]
    calc K = (Bi * B) * K * (Bi * B)ᵀ := by rw [hBiB]; simp
      _ = _ := by rw [transpose_mul]; simp only [Matrix.mul_assoc]
  have hKpos : K.PosDef := by
    rw [hKc]
    have := hpos.mul_mul_conjTranspose_same (B := Bi) (vecMul_injective_iff_isUnit.2 (IsUnit.of_mul_eq_one _ hBiB))
    rwa [conjTranspose_eq_transpose_of_trivial] at this
  obtain ⟨A, -, hAA, hAt, hAdet, -⟩ := sqrt_facts hKpos
  have hL : B * A * (B * A)ᵀ = cov := by
    rw [transpose_mul, hAt, ← hBK, ← hAA]
    simp only [Matrix.mul_assoc]
  refine ⟨B * A, hL, fun w => ?_⟩
  have q := quad_factor hL (unit hL hpos) mean w
  have hp : parts (mean + (B * A) *ᵥ w) = ((parts mean).1 + Sx *ᵥ (parts (A *ᵥ w)).1, (parts mean).2 + Sy *ᵥ (parts (A *ᵥ w)).2) := by
    have e : ∀ u v : Fin (dx + dy) → ℝ, (parts (u + v) : (Fin dx → ℝ) × (Fin dy → ℝ)) = parts u + parts v := fun u v => rfl
    rw [e, ← mulVec_mulVec, hB, parts_mulVec]
    simp [Prod.ext_iff]
  rw [q, hp]
  dsimp only
  rw [quad_factor hx ux, quad_factor hy uy, ← dot_parts]
  have e1 : (A *ᵥ w) ⬝ᵥ (A *ᵥ w) = w ⬝ᵥ K *ᵥ w := by
    conv_rhs => rw [← hAA, ← mulVec_mulVec, dotProduct_mulVec, ← mulVec_transpose, hAt]
  rw [e1, dot_parts, hK, parts_mulVec, dot_parts w w]
  dsimp only
  rw [one_mulVec, one_mulVec, dotProduct_add, dotProduct_add]
  have e2 : (parts w).2 ⬝ᵥ Cᵀ *ᵥ (parts w).1 = (parts w).1 ⬝ᵥ C *ᵥ (parts w).2 := by
    rw [mulVec_transpose, dotProduct_comm, ← dotProduct_mulVec]
  rw [e2]
  ring

end BMI.Bmm
