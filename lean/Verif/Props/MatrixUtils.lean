import Verif.Lemmas.MatrixUtils
import Verif.Spec.MatrixUtils
import Verif.Props.Multinormal
import Mathlib.LinearAlgebra.Matrix.SchurComplement
import Mathlib.Analysis.Matrix.Order

/-! Properties C13 and C14 (dispersion matrices), over /repo/src/bmi/samplers/_matrix_utils.py:9-108. -/

namespace BMI.MatrixUtils

open BMI.Samplers Matrix

variable {Key : Type}

/-! ## C13 -/

theorem diagonalBlocks_apply (dx n : ℕ) (p q : Fin n) : diagonalBlocks dx n p q
    = if (p : ℕ) < dx ∧ (q : ℕ) < dx then (if (p : ℕ) = q then 1 else 0)
      else if dx ≤ (p : ℕ) ∧ dx ≤ (q : ℕ) then (if (p : ℕ) - dx = q - dx then 1 else 0) else 0 := rfl

/-- **C13**: `canonical_correlation` builds the documented matrix. -/
theorem canonicalCorrelation_spec (rho : List ℝ) (additional : ℤ) (h : 0 ≤ additional) :
    ∃ m, canonicalCorrelation rho additional = .ok m ∧ IsCanonical rho.get m := by
  have hn : (rho.length : ℤ) + additional < 0 ↔ False := by simp; omega
  have hr : ∀ w ∈ ((List.range rho.length).flatMap fun i =>
      [(i, rho.length + i, rho.getD i 0), (rho.length + i, i, rho.getD i 0)]),
      w.1 < rho.length + (rho.length + additional).toNat ∧ w.2.1 < rho.length + (rho.length + additional).toNat := by
    intro w hw
    simp only [List.mem_flatMap, List.mem_range, List.mem_cons, List.not_mem_nil, or_false] at hw
    obtain ⟨i, hi, rfl | rfl⟩ := hw <;> (dsimp only; omega)
  have hmem : ∀ p q v, (p, q, v) ∈ ((List.range rho.length).flatMap fun i =>
      [(i, rho.length + i, rho.getD i 0), (rho.length + i, i, rho.getD i 0)]) ↔
      ∃ i, i < rho.length ∧ v = rho.getD i 0 ∧ ((p = i ∧ q = rho.length + i) ∨ (p = rho.length + i ∧ q = i)) := by
    intro p q v
    simp only [List.mem_flatMap, List.mem_range, List.mem_cons, List.not_mem_nil, or_false, Prod.mk.injEq]
    constructor
    · rintro ⟨i, hi, ⟨h1, h2, h3⟩ | ⟨h1, h2, h3⟩⟩
      · exact ⟨i, hi, h3, Or.inl ⟨h1, h2⟩⟩
      · exact ⟨i, hi, h3, Or.inr ⟨h1, h2⟩⟩
    · rintro ⟨i, hi, h3, ⟨h1, h2⟩ | ⟨h1, h2⟩⟩
      · exact ⟨i, hi, Or.inl ⟨h1, h2, h3⟩⟩
      · exact ⟨i, hi, Or.inr ⟨h1, h2, h3⟩⟩
  unfold canonicalCorrelation
  dsimp only
  rw [if_neg (by omega), foldlM_setEntry _ hr]
  refine ⟨_, rfl, ⟨fun i j => ?_, fun i j => ?_, fun i j => ?_, fun i j => ?_⟩⟩ <;> beta_reduce
  · rw [lastSet_of_no_match]
    · refine (diagonalBlocks_apply _ _ _ _).trans ?_
      simp [Fin.ext_iff]
    · rintro ⟨p, q, v⟩ hw ⟨h1, h2⟩
      obtain ⟨k, hk, -, h3⟩ := (hmem p q v).1 hw
      simp only [Fin.val_castAdd] at h1 h2
      omega
  · rw [lastSet_of_no_match]
    · refine (diagonalBlocks_apply _ _ _ _).trans ?_
      rw [if_neg (by simp)]
      simp [Fin.ext_iff]
    · rintro ⟨p, q, v⟩ hw ⟨h1, h2⟩
      obtain ⟨k, hk, -, h3⟩ := (hmem p q v).1 hw
      simp only [Fin.val_natAdd] at h1 h2
      omega
  · by_cases hij : (i : ℕ) = j
    · rw [if_pos hij, lastSet_of_match (v := rho.get i)]
      · refine ⟨(i, rho.length + i, rho.getD i 0), (hmem _ _ _).2 ⟨i, i.2, rfl, Or.inl ⟨rfl, rfl⟩⟩, ?_⟩
        simp [hij]
      · rintro ⟨p, q, v⟩ hw ⟨h1, h2⟩
        obtain ⟨k, hk, rfl, h3⟩ := (hmem p q v).1 hw
        simp only [Fin.val_castAdd, Fin.val_natAdd] at h1 h2
        obtain rfl : k = i := by omega
        simp
    · rw [if_neg hij, lastSet_of_no_match]
      · refine (diagonalBlocks_apply _ _ _ _).trans ?_
        simp
      · rintro ⟨p, q, v⟩ hw ⟨h1, h2⟩
        obtain ⟨k, hk, -, h3⟩ := (hmem p q v).1 hw
        simp only [Fin.val_castAdd, Fin.val_natAdd] at h1 h2
        omega
  · by_cases hij : (i : ℕ) = j
    · rw [if_pos hij, lastSet_of_match (v := rho.get i)]
      · refine ⟨(rho.length + i, i, rho.getD i 0), (hmem _ _ _).2 ⟨i, i.2, rfl, Or.inr ⟨rfl, rfl⟩⟩, ?_⟩
        simp [hij]
      · rintro ⟨p, q, v⟩ hw ⟨h1, h2⟩
        obtain ⟨k, hk, rfl, h3⟩ := (hmem p q v).1 hw
        simp only [Fin.val_castAdd, Fin.val_natAdd] at h1 h2
        obtain rfl : k = i := by omega
        simp
    · rw [if_neg hij, lastSet_of_no_match]
      · refine (diagonalBlocks_apply _ _ _ _).trans ?_
        simp
      · rintro ⟨p, q, v⟩ hw ⟨h1, h2⟩
        obtain ⟨k, hk, -, h3⟩ := (hmem p q v).1 hw
        simp only [Fin.val_castAdd, Fin.val_natAdd] at h1 h2
        omega

/-- **C13**: a negative `additional_y` is never accepted: `IndexError`, or `ValueError` when `dim_y` would be negative. -/
theorem canonicalCorrelation_rejects (rho : List ℝ) (additional : ℤ) (h : additional < 0) :
    canonicalCorrelation rho additional
      = .error (if (rho.length : ℤ) + additional < 0 then .valueError else .indexError) := by
  unfold canonicalCorrelation
  dsimp only
  by_cases h1 : (rho.length : ℤ) + additional < 0
  · rw [if_pos h1, if_pos h1]
  · rw [if_neg h1, if_neg h1]
    obtain ⟨e, he⟩ : ∃ e : ℕ, rho.length = (rho.length + additional).toNat + 1 + e :=
      ⟨rho.length - (rho.length + additional).toNat - 1, by omega⟩
    have hl : List.range rho.length = List.range (rho.length + additional).toNat
        ++ (rho.length + additional).toNat :: List.range' ((rho.length + additional).toNat + 1) e := by
      conv_lhs => rw [he]
      rw [List.range_add, List.range_succ, List.append_assoc, List.range'_eq_map_range]
      rfl
    rw [hl, List.flatMap_append, List.flatMap_cons, List.cons_append]
    refine foldlM_setEntry_error _ _ _ (fun w hw => ?_) ?_ _
    · simp only [List.mem_flatMap, List.mem_range, List.mem_cons, List.not_mem_nil, or_false] at hw
      obtain ⟨i, hi, rfl | rfl⟩ := hw <;> (dsimp only; omega)
    · dsimp only
      omega

example : canonicalCorrelation [0.5, 0.2] (-1) = .error .indexError := by
  rw [canonicalCorrelation_rejects _ _ (by norm_num)]
  simp

variable {dx dy : ℕ} {ρ : Fin dx → ℝ} {m : Matrix (Fin (dx + dy)) (Fin (dx + dy)) ℝ}

/-- The block between X and Y. -/
def cross (dy : ℕ) (ρ : Fin dx → ℝ) : Matrix (Fin dx) (Fin dy) ℝ := fun i j => if (i : ℕ) = j then ρ i else 0

/-- What is left of Y when X is known. -/
noncomputable def rest (dy : ℕ) (ρ : Fin dx → ℝ) (j : Fin dy) : ℝ := 1 - if h : (j : ℕ) < dx then ρ ⟨j, h⟩ ^ 2 else 0

theorem IsCanonical.eq_blocks (h : IsCanonical ρ m) :
    m = (fromBlocks 1 (cross dy ρ) (cross dy ρ)ᵀ 1).submatrix finSumFinEquiv.symm finSumFinEquiv.symm := by
  have h' : m.submatrix finSumFinEquiv finSumFinEquiv = fromBlocks 1 (cross dy ρ) (cross dy ρ)ᵀ 1 := by
    ext (i | i) (j | j)
    · simp [h.xx, Matrix.one_apply]
    · simp [h.xy, cross]
    · simp [h.yx, cross]
    · simp [h.yy, Matrix.one_apply]
  rw [← h']
  simp

theorem cross_gram : 1 - (cross dy ρ)ᵀ * cross dy ρ = diagonal (rest dy ρ) := by
  ext j k
  simp only [Matrix.sub_apply, Matrix.mul_apply, transpose_apply, cross, diagonal_apply, Matrix.one_apply, rest]
  by_cases hj : (j : ℕ) < dx
  · rw [Finset.sum_eq_single (⟨j, hj⟩ : Fin dx)]
    · rcases eq_or_ne j k with rfl | hjk
      · simp [hj, sq]
      · have : (j : ℕ) ≠ k := fun e => hjk (Fin.ext e)
        simp [hjk, this]
    · intro i _ hi
      rw [if_neg (fun e => hi (Fin.ext e)), zero_mul]
    · simp
  · rw [Finset.sum_eq_zero]
    · rcases eq_or_ne j k with rfl | hjk
      · simp [hj]
      · simp [hjk]
    · intro i _
      rw [if_neg (by omega), zero_mul]

theorem IsCanonical.det_eq (h : IsCanonical ρ m) : m.det = ∏ j, rest dy ρ j := by
  rw [h.eq_blocks, det_submatrix_equiv_self, det_fromBlocks_one₁₁, cross_gram, det_diagonal]

theorem IsCanonical.posSemidef_iff (h : IsCanonical ρ m) : m.PosSemidef ↔ ∀ j, 0 ≤ rest dy ρ j := by
  rw [h.eq_blocks, posSemidef_submatrix_equiv]
  haveI : Invertible (1 : Matrix (Fin dx) (Fin dx) ℝ) := invertibleOne
  have := PosDef.fromBlocks₁₁ (A := (1 : Matrix (Fin dx) (Fin dx) ℝ)) (cross dy ρ) 1 PosDef.one
  rw [conjTranspose_eq_transpose_of_trivial] at this
  rw [this, inv_one, Matrix.mul_one, cross_gram, posSemidef_diagonal_iff]

/-- **C13**: a matrix of the documented form, with at least as many coordinates of Y as of X, is positive-definite exactly
when all `|ρᵢ| < 1`. -/
theorem canonical_posDef_iff (h : IsCanonical ρ m) (hd : dx ≤ dy) : m.PosDef ↔ ∀ i, |ρ i| < 1 := by
  have hr : (∀ j, 0 < rest dy ρ j) ↔ ∀ i, |ρ i| < 1 := by
    constructor
    · intro hj i
      have := hj ⟨i, by omega⟩
      simp only [rest, i.2, dite_true, sub_pos] at this
      exact (sq_lt_one_iff_abs_lt_one _).1 this
    · intro hi j
      unfold rest
      split_ifs with h
      · rw [sub_pos]
        exact (sq_lt_one_iff_abs_lt_one _).2 (hi _)
      · norm_num
  rw [← hr]
  constructor
  · intro hp j
    have h1 := h.posSemidef_iff.1 hp.posSemidef j
    have h2 := (hp.posSemidef.posDef_iff_det_ne_zero).1 hp
    rw [h.det_eq] at h2
    exact lt_of_le_of_ne h1 (Ne.symm (Finset.prod_ne_zero_iff.1 h2 j (Finset.mem_univ j)))
  · intro hp
    rw [(h.posSemidef_iff.2 fun j => (hp j).le).posDef_iff_det_ne_zero, h.det_eq]
    exact Finset.prod_ne_zero_iff.2 fun j _ => (hp j).ne'

/-- **C13**: the multinormal sampler with such a matrix reports `-1/2 Σ log (1 - ρᵢ²)`; by C01 this is the mutual
information. -/
theorem canonical_number (R : JaxRandom Key) (hx : 0 < dx) (hd : dx ≤ dy) (h : IsCanonical ρ m) (hρ : ∀ i, |ρ i| < 1)
    (mean : Fin (dx + dy) → ℝ) :
    ∃ s, splitMultinormal R dx dy (rowsOf m) (some (List.ofFn mean)) = .ok s ∧
      s.mi = -(1 / 2) * ∑ i, Real.log (1 - ρ i ^ 2) := by
  have hpos := (canonical_posDef_iff h hd).2 hρ
  obtain ⟨s, h1, h2⟩ := splitMultinormal_number R dx dy hx (by omega) mean m hpos
  refine ⟨s, h1, ?_⟩
  have ex : blockX m = 1 := by
    ext i j
    simp [blockX, h.xx, Matrix.one_apply]
  have ey : blockY m = 1 := by
    ext i j
    simp [blockY, h.yy, Matrix.one_apply]
  have hne : ∀ j ∈ Finset.univ, rest dy ρ j ≠ 0 := by
    have := (hpos.posSemidef.posDef_iff_det_ne_zero).1 hpos
    rw [h.det_eq] at this
    exact Finset.prod_ne_zero_iff.1 this
  have hs : ∑ j, Real.log (rest dy ρ j) = ∑ i, Real.log (1 - ρ i ^ 2) := by
    obtain ⟨e, rfl⟩ : ∃ e, dy = dx + e := ⟨dy - dx, by omega⟩
    rw [Fin.sum_univ_add]
    have a1 : ∀ i : Fin dx, rest (dx + e) ρ (Fin.castAdd e i) = 1 - ρ i ^ 2 := fun i => by simp [rest]
    have a2 : ∀ i : Fin e, rest (dx + e) ρ (Fin.natAdd dx i) = 1 := fun i => by simp [rest]
    simp [a1, a2]
  rw [h2, ex, ey, h.det_eq, Real.log_prod hne, hs]
  simp
  ring

/-- The canonical correlations of a task with three strong interactions and two additional coordinates of Y. -/
example : ∃ m s, canonicalCorrelation [0.5, 0.8, -0.3] 2 = .ok m ∧
    splitMultinormal tree 3 5 (rowsOf m) (some (List.ofFn (n := 3 + 5) 0)) = .ok s ∧
    s.mi = -(1 / 2) * (Real.log (1 - 0.5 ^ 2) + Real.log (1 - 0.8 ^ 2) + Real.log (1 - (-0.3) ^ 2)) := by
  obtain ⟨m, h1, h2⟩ := canonicalCorrelation_spec [0.5, 0.8, -0.3] 2 (by norm_num)
  obtain ⟨s, h3, h4⟩ := canonical_number tree (by simp) (by simp) h2 (by
    intro i
    fin_cases i <;> simp <;> norm_num [abs_lt]) 0
  refine ⟨m, s, h1, h3, h4.trans ?_⟩
  show _ * ∑ i : Fin 3, _ = _
  simp [Fin.sum_univ_succ]
  ring

/-! ## C14 -/

/-- **C14**: `parametrised_correlation_matrix` builds the documented matrix. -/
theorem parametrisedCorrelationMatrix_spec (dimX dimY k : ℤ) (c cx cy : ℝ) (hk : 1 ≤ k) (hkx : k ≤ dimX) (hky : k ≤ dimY)
    (hc : |c| ≤ 1) (hcx : |cx| ≤ 1) (hcy : |cy| ≤ 1) :
    ∃ m, parametrisedCorrelationMatrix dimX dimY k c cx cy = .ok m ∧ IsParametrised k.toNat c cx cy m := by
  have hv : validate dimX dimY k c cx cy = .ok () := by
    rw [abs_le] at hc hcx hcy
    unfold validate
    rw [if_neg (by simp; omega), if_neg (by omega), if_neg]
    simp [hc.1, hc.2, hcx.1, hcx.2, hcy.1, hcy.2]
  unfold parametrisedCorrelationMatrix
  rw [hv]
  show ∃ m, (List.foldlM _ _ _ >>= fun a => (List.foldlM _ a _ >>= fun b => List.foldlM _ b _)) = Except.ok m ∧ _
  simp only [← List.foldlM_append]
  generalize hL : (_ ++ _ : List (ℕ × ℕ × ℝ)) = L
  have hmem : ∀ p q v, (p, q, v) ∈ L ↔
      (v = c ∧ ∃ i < k.toNat, (p = i ∧ q = dimX.toNat + i) ∨ (q = i ∧ p = dimX.toNat + i)) ∨
      (v = cx ∧ p ≠ q ∧ p < dimX.toNat ∧ q < dimX.toNat) ∨
      (v = cy ∧ p ≠ q ∧ dimX.toNat ≤ p ∧ dimX.toNat ≤ q ∧ p < dimX.toNat + dimY.toNat ∧ q < dimX.toNat + dimY.toNat) := by
    intro p q v
    rw [← hL]
    simp only [List.mem_append, List.mem_flatMap, List.mem_range, List.mem_range'_1, List.mem_cons, List.not_mem_nil,
      or_false, Prod.mk.injEq]
    refine or_congr ?_ (or_congr ?_ ?_)
    · constructor
      · rintro ⟨i, hi, ⟨h1, h2, h3⟩ | ⟨h1, h2, h3⟩⟩
        · exact ⟨h3, i, hi, Or.inl ⟨h1, h2⟩⟩
        · exact ⟨h3, i, hi, Or.inr ⟨h2, h1⟩⟩
      · rintro ⟨h3, i, hi, ⟨h1, h2⟩ | ⟨h1, h2⟩⟩
        · exact ⟨i, hi, Or.inl ⟨h1, h2, h3⟩⟩
        · exact ⟨i, hi, Or.inr ⟨h2, h1, h3⟩⟩
    · constructor
      · rintro ⟨i, hi, j, hj, ⟨h1, h2, h3⟩ | ⟨h1, h2, h3⟩⟩
        · exact ⟨h3, by omega, by omega, by omega⟩
        · exact ⟨h3, by omega, by omega, by omega⟩
      · rintro ⟨h3, h4, h5, h6⟩
        rcases lt_or_gt_of_ne h4 with h | h
        · exact ⟨q, h6, p, h, Or.inr ⟨rfl, rfl, h3⟩⟩
        · exact ⟨p, h5, q, h, Or.inl ⟨rfl, rfl, h3⟩⟩
    · constructor
      · rintro ⟨i, hi, j, hj, ⟨h1, h2, h3⟩ | ⟨h1, h2, h3⟩⟩
        · exact ⟨h3, by omega, by omega, by omega, by omega, by omega⟩
        · exact ⟨h3, by omega, by omega, by omega, by omega, by omega⟩
      · rintro ⟨h3, h4, h5, h6, h7, h8⟩
        rcases lt_or_gt_of_ne h4 with h | h
        · exact ⟨q, ⟨h6, h8⟩, p, ⟨h5, by omega⟩, Or.inr ⟨rfl, rfl, h3⟩⟩
        · exact ⟨p, ⟨h5, h7⟩, q, ⟨h6, by omega⟩, Or.inl ⟨rfl, rfl, h3⟩⟩
  have hr : ∀ w ∈ L, w.1 < dimX.toNat + dimY.toNat ∧ w.2.1 < dimX.toNat + dimY.toNat := by
    rintro ⟨p, q, v⟩ hw
    rcases (hmem p q v).1 hw with ⟨-, i, hi, h⟩ | ⟨-, h⟩ | ⟨-, h⟩ <;> (dsimp only; omega)
  rw [foldlM_setEntry _ hr]
  have key : ∀ (p q : Fin (dimX.toNat + dimY.toNat)) (v d : ℝ),
      (((p : ℕ), (q : ℕ), v) ∈ L ∧ ∀ v', ((p : ℕ), (q : ℕ), v') ∈ L → v' = v) ∨
        ((∀ v', ((p : ℕ), (q : ℕ), v') ∉ L) ∧ d = v) → lastSet L p q d = v := by
    rintro p q v d (⟨h1, h2⟩ | ⟨h1, rfl⟩)
    · refine lastSet_of_match L p q d v ⟨_, h1, rfl, rfl⟩ ?_
      rintro ⟨p', q', v'⟩ hw ⟨rfl, rfl⟩
      exact h2 v' hw
    · refine lastSet_of_no_match L p q d ?_
      rintro ⟨p', q', v'⟩ hw ⟨rfl, rfl⟩
      exact h1 v' hw
  refine ⟨_, rfl, ⟨fun i j => ?_, fun i j => ?_, fun i j => ?_, fun i j => ?_⟩⟩ <;> beta_reduce <;> apply key <;>
    simp only [hmem, Fin.val_castAdd, Fin.val_natAdd, Fin.ext_iff]
  · have := i.2
    have := j.2
    by_cases h : (i : ℕ) = j
    · right
      refine ⟨?_, by simp [Fin.ext h, Matrix.one_apply]⟩
      rintro v' (⟨-, i, hi, h⟩ | ⟨-, h⟩ | ⟨-, h⟩) <;> omega
    · left
      rw [if_neg h]
      refine ⟨Or.inr (Or.inl ⟨rfl, by omega, by omega, by omega⟩), ?_⟩
      rintro v' (⟨-, i, hi, h⟩ | ⟨h, -⟩ | ⟨-, h⟩)
      · omega
      · exact h
      · omega
  · have := i.2
    have := j.2
    by_cases h : (i : ℕ) = j
    · right
      refine ⟨?_, by simp [Fin.ext h, Matrix.one_apply]⟩
      rintro v' (⟨-, i, hi, h⟩ | ⟨-, h⟩ | ⟨-, h⟩) <;> omega
    · left
      rw [if_neg h]
      refine ⟨Or.inr (Or.inr ⟨rfl, by omega, by omega, by omega, by omega, by omega⟩), ?_⟩
      rintro v' (⟨-, i, hi, h⟩ | ⟨-, h⟩ | ⟨h, -⟩)
      · omega
      · omega
      · exact h
  · have := i.2
    have := j.2
    by_cases h : (i : ℕ) = j ∧ (i : ℕ) < k.toNat
    · left
      rw [if_pos h]
      refine ⟨Or.inl ⟨rfl, i, h.2, Or.inl ⟨rfl, by omega⟩⟩, ?_⟩
      rintro v' (⟨h, -⟩ | ⟨-, h⟩ | ⟨-, h⟩)
      · exact h
      · omega
      · omega
    · right
      rw [if_neg h]
      refine ⟨?_, ?_⟩
      · rintro v' (⟨-, i, hi, h⟩ | ⟨-, h⟩ | ⟨-, h⟩) <;> omega
      · refine Matrix.one_apply_ne ?_
        simp only [ne_eq, Fin.ext_iff, Fin.val_castAdd, Fin.val_natAdd]
        omega
  · have := i.2
    have := j.2
    by_cases h : (i : ℕ) = j ∧ (i : ℕ) < k.toNat
    · left
      rw [if_pos h]
      refine ⟨Or.inl ⟨rfl, i, h.2, Or.inr ⟨rfl, by omega⟩⟩, ?_⟩
      rintro v' (⟨h, -⟩ | ⟨-, h⟩ | ⟨-, h⟩)
      · exact h
      · omega
      · omega
    · right
      rw [if_neg h]
      refine ⟨?_, ?_⟩
      · rintro v' (⟨-, i, hi, h⟩ | ⟨-, h⟩ | ⟨-, h⟩) <;> omega
      · refine Matrix.one_apply_ne ?_
        simp only [ne_eq, Fin.ext_iff, Fin.val_castAdd, Fin.val_natAdd]
        omega

/-- **C14**: all other arguments are rejected with `ValueError`. -/
theorem parametrisedCorrelationMatrix_rejects (dimX dimY k : ℤ) (c cx cy : ℝ)
    (h : ¬ (1 ≤ k ∧ k ≤ dimX ∧ k ≤ dimY ∧ |c| ≤ 1 ∧ |cx| ≤ 1 ∧ |cy| ≤ 1)) :
    parametrisedCorrelationMatrix dimX dimY k c cx cy = .error .valueError := by
  have hv : validate dimX dimY k c cx cy = .error .valueError := by
    unfold validate
    by_cases h1 : min (min dimX dimY) k < 1
    · rw [if_pos h1]
    by_cases h2 : k > dimX ∨ k > dimY
    · rw [if_neg h1, if_pos h2]
    rw [if_neg h1, if_neg h2, if_pos]
    by_contra h3
    simp only [min_lt_iff, gt_iff_lt, lt_max_iff, not_or, not_lt] at h1 h2 h3
    exact h ⟨by omega, by omega, by omega, abs_le.2 ⟨h3.1.2, h3.2.2⟩, abs_le.2 ⟨h3.1.1.1, h3.2.1.1⟩,
      abs_le.2 ⟨h3.1.1.2, h3.2.1.2⟩⟩
  unfold parametrisedCorrelationMatrix
  rw [hv]
  rfl

/-- The parameters of the task used in the benchmark are accepted; `k = 3` with two coordinates of X is not. -/
example : (∃ m, parametrisedCorrelationMatrix 3 5 2 0.8 0.1 (-0.2) = .ok m ∧ IsParametrised 2 0.8 0.1 (-0.2) m) ∧
    parametrisedCorrelationMatrix 2 5 3 0.8 0.1 (-0.2) = .error .valueError := by
  refine ⟨parametrisedCorrelationMatrix_spec 3 5 2 0.8 0.1 (-0.2) (by norm_num) (by norm_num) (by norm_num) ?_ ?_ ?_,
    parametrisedCorrelationMatrix_rejects _ _ _ _ _ _ (by norm_num)⟩ <;> norm_num [abs_le]

theorem parametrised_sum_variance {k : ℕ} {c cx cy : ℝ} (h : IsParametrised k c cx cy m) :
    (Fin.append (fun _ : Fin dx => (1 : ℝ)) (fun _ : Fin dy => 0)) ⬝ᵥ
      (m *ᵥ (Fin.append (fun _ : Fin dx => (1 : ℝ)) (fun _ : Fin dy => 0))) = dx + dx * (dx - 1) * cx := by
  simp only [dotProduct, mulVec, Fin.sum_univ_add, Fin.append_left, Fin.append_right, zero_mul, mul_zero, mul_one, one_mul,
    Finset.sum_const_zero, add_zero, h.xx]
  have e : ∀ i j : Fin dx, (if i = j then (1 : ℝ) else cx) = cx + if i = j then 1 - cx else 0 := by
    intro i j
    split_ifs <;> ring
  simp only [e, Finset.sum_add_distrib, Finset.sum_const, Finset.card_univ, Fintype.card_fin, Finset.sum_ite_eq,
    Finset.mem_univ, if_true, nsmul_eq_mul]
  ring

/-- **C14**: the validation does not make the result a covariance matrix.  With `dim_x ≥ 2` coordinates of X it is none as
soon as `correlation_x < -1 / (dim_x - 1)`. -/
theorem parametrised_not_covariance {k : ℕ} {c cx cy : ℝ} (h : IsParametrised k c cx cy m) (hd : 2 ≤ dx)
    (hc : cx < -1 / (dx - 1)) : ¬ m.PosSemidef := by
  intro hp
  have h1 := hp.dotProduct_mulVec_nonneg (Fin.append (fun _ : Fin dx => (1 : ℝ)) (fun _ : Fin dy => 0))
  rw [star_trivial, parametrised_sum_variance h] at h1
  have h2 : (2 : ℝ) ≤ dx := by exact_mod_cast hd
  rw [lt_div_iff₀ (by linarith)] at hc
  nlinarith

/-- Three coordinates of X, all correlated by `-1`, are accepted. -/
example : ∃ m, parametrisedCorrelationMatrix 3 1 1 0 (-1) 0 = .ok m ∧ ¬ m.PosSemidef := by
  obtain ⟨m, h1, h2⟩ := parametrisedCorrelationMatrix_spec 3 1 1 0 (-1) 0 (by norm_num) (by norm_num) (by norm_num)
    (by norm_num) (by norm_num) (by norm_num)
  exact ⟨m, h1, parametrised_not_covariance h2 (by simp) (by rw [show (3 : ℤ).toNat = 3 from rfl]; norm_num)⟩

end BMI.MatrixUtils
