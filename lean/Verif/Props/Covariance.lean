import Verif.Lemmas.Covariance
import Mathlib.LinearAlgebra.Matrix.Charpoly.Coeff
import Verif.Lemmas.IdealWitness

/-! Property C03 (validation of covariance matrices), over /repo/src/bmi/samplers/_splitmultinormal.py. -/

namespace BMI.Samplers

variable {Key : Type}

/-- The entries of a nested list, as a matrix. -/
def entries (d : ℕ) (cov : Arr) : Matrix (Fin d) (Fin d) ℝ := Matrix.of fun i j => (cov.getD i []).getD j 0

/-- **C03**, for arrays whose matrix of entries is symmetric: the constructor succeeds exactly if the dimensions are
positive, the mean (if given) and the covariance have the right shape, and the covariance is positive-definite;
otherwise it raises `ValueError`.

The full property has no symmetry hypothesis and says that symmetry is required too.  That is false, see
`splitMultinormal_accepts_asymmetric`. -/
theorem splitMultinormal_accepts_iff_partial (R : JaxRandom Key) (dimX dimY : ℤ) (cov : Arr) (mean : Option (List ℝ))
    (hsym : (entries (dimX.toNat + dimY.toNat) cov).IsSymm) :
    ((∃ s, splitMultinormal R dimX dimY cov mean = .ok s) ↔
      0 < dimX ∧ 0 < dimY ∧ (∀ v, mean = some v → (v.length : ℤ) = dimX + dimY) ∧
      (cov.length : ℤ) = dimX + dimY ∧ (∀ r ∈ cov, (r.length : ℤ) = dimX + dimY) ∧
      (entries (dimX.toNat + dimY.toNat) cov).PosDef) ∧
    ((¬ ∃ s, splitMultinormal R dimX dimY cov mean = .ok s) →
      splitMultinormal R dimX dimY cov mean = .error .valueError) := by
  have hm : entries (dimX.toNat + dimY.toNat) cov = toMatrix (dimX.toNat + dimY.toNat) cov := rfl
  rw [hm] at hsym ⊢
  have hherm : (toMatrix (dimX.toNat + dimY.toNat) cov).IsHermitian := by
    rw [Matrix.IsHermitian, Matrix.conjTranspose_eq_transpose_of_trivial]
    exact hsym
  have hc := splitMultinormal_checks R dimX dimY cov mean
  refine ⟨⟨?_, ?_⟩, fun h => ?_⟩
  · rintro ⟨s, hs⟩
    rcases hc with ⟨s', hs', h1, h2, h3, h4, h5⟩ | hc
    · refine ⟨by omega, by omega, ?_, ?_, ?_, (canBeCovariance_iff (by omega) hherm).1 h5⟩
      · rintro v rfl
        simp only [Option.getD_some] at h3
        omega
      · have := h4.1
        omega
      · intro r hr
        have := h4.2 r hr
        omega
    · rw [hc] at hs
      exact absurd hs (by nofun)
  · rintro ⟨h1, h2, h3, h4, h5, h6⟩
    obtain ⟨dx, rfl⟩ : ∃ n : ℕ, dimX = n := ⟨dimX.toNat, by omega⟩
    obtain ⟨dy, rfl⟩ : ∃ n : ℕ, dimY = n := ⟨dimY.toNat, by omega⟩
    refine ⟨_, splitMultinormal_of R dx dy (by omega) (by omega) cov mean ?_ ⟨by omega, fun r hr => ?_⟩ h6⟩
    · cases mean with
      | none => simp
      | some v =>
        have := h3 v rfl
        simp only [Option.getD_some]
        omega
    · have := h5 r hr
      omega
  · rcases hc with ⟨s', hs', _⟩ | hc
    · exact absurd ⟨s', hs'⟩ h
    · exact hc

private theorem posDef_example : (entries 2 [[2, 1], [1, 3]]).PosDef := by
  refine Matrix.PosDef.of_dotProduct_mulVec_pos ?_ fun x hx => ?_
  · ext i j
    fin_cases i <;> fin_cases j <;> simp [entries]
  · have : x 0 ≠ 0 ∨ x 1 ≠ 0 := by
      by_contra h
      rw [not_or, not_not, not_not] at h
      exact hx (funext fun i => by fin_cases i; exacts [h.1, h.2])
    simp [entries, dotProduct, Matrix.mulVec, Fin.sum_univ_two]
    rcases this with h | h
    · nlinarith [sq_nonneg (x 0 + x 1), sq_nonneg (x 1), sq_pos_of_ne_zero h]
    · nlinarith [sq_nonneg (x 0 + x 1), sq_nonneg (x 0), sq_pos_of_ne_zero h]

example : ∃ s, splitMultinormal tree 1 1 [[2, 1], [1, 3]] none = .ok s :=
  (splitMultinormal_accepts_iff_partial tree 1 1 [[2, 1], [1, 3]] none (by
    ext i j
    fin_cases i <;> fin_cases j <;> simp [entries])).1.2
    ⟨by norm_num, by norm_num, by simp, by simp, by simp, posDef_example⟩

/-- **C03** fails for asymmetric matrices: the check `np.all(mat != mat.transpose())` never fires, because the
diagonal entries are equal.  For example `[[1, 1/2], [0, 1]]` is accepted. -/
theorem splitMultinormal_accepts_asymmetric (R : JaxRandom Key) :
    ¬ (entries 2 [[1, 1 / 2], [0, 1]]).IsSymm ∧ ∃ s, splitMultinormal R 1 1 [[1, 1 / 2], [0, 1]] none = .ok s := by
  constructor
  · intro h
    have := congrFun (congrFun h 0) 1
    simp [entries, Matrix.transpose] at this
  · refine ⟨_, splitMultinormal_of_checks R 1 1 one_pos one_pos [[1, 1 / 2], [0, 1]] none (by simp) (by simp [hasShape])
      ?_ ?_ ?_⟩
    · unfold canBeCovariance
      rw [if_neg (fun hc => hc 0 0 rfl), if_neg]
      rw [not_not]
      intro z hz
      unfold eigvals at hz
      have := (Polynomial.mem_roots'.1 hz).2
      rw [Matrix.charpoly_fin_two] at this
      simp [toMatrix, Matrix.trace_fin_two, Matrix.det_fin_two] at this
      have h1 : (z - 1) ^ 2 = 0 := by
        rw [← this]; ring
      have h2 : z = 1 := by
        have := pow_eq_zero_iff (two_ne_zero) |>.1 h1
        linear_combination this
      subst h2
      exact .inl (by simp)
    · have e : blockX (toMatrix (1 + 1) [[1, 1 / 2], [0, 1]]) = (1 : Matrix (Fin 1) (Fin 1) ℝ) := by
        ext i j
        fin_cases i
        fin_cases j
        simp [blockX, toMatrix]
      rw [e]
      exact (canBeCovariance_iff one_pos Matrix.PosDef.one.1).2 Matrix.PosDef.one
    · have e : blockY (toMatrix (1 + 1) [[1, 1 / 2], [0, 1]]) = (1 : Matrix (Fin 1) (Fin 1) ℝ) := by
        ext i j
        fin_cases i
        fin_cases j
        simp [blockY, toMatrix]
      rw [e]
      exact (canBeCovariance_iff one_pos Matrix.PosDef.one.1).2 Matrix.PosDef.one

/-- **C03**: the symmetry check rejects nothing: whether or not a non-empty matrix is symmetric, the outcome is
decided by its eigenvalues alone. -/
theorem canBeCovariance_ignores_symmetry {n : ℕ} (hn : 0 < n) (m : Matrix (Fin n) (Fin n) ℝ) :
    canBeCovariance m = .ok () ↔ ∀ z ∈ (m.map Complex.ofReal).charpoly.roots, 0 < z.re ∨ (z.re = 0 ∧ 0 < z.im) := by
  unfold canBeCovariance
  rw [if_neg (fun hc => hc ⟨0, hn⟩ ⟨0, hn⟩ rfl)]
  by_cases hh : ∀ z ∈ eigvals m, numpyPos z
  · rw [if_neg (not_not.2 hh)]
    exact ⟨fun _ => hh, fun _ => rfl⟩
  · rw [if_pos hh]
    exact ⟨fun h => absurd h (by nofun), fun h => absurd h hh⟩

end BMI.Samplers
