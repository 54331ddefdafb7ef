import Verif.Lemmas.Transforms
import Verif.Spec.Transforms
import Mathlib.Analysis.SpecialFunctions.Exponential
import Mathlib.Analysis.Calculus.MeanValue

/-! The exponential of a generator of the rotations of a plane. -/

namespace BMI.Samplers

open Matrix

/-- The exponential of a multiple of an element with `g ^ 3 = -g`. -/
theorem exp_smul_of_cube_aux {A : Type*} [NormedRing A] [NormedAlgebra ℝ A] [CompleteSpace A] (g : A)
    (hg : g * g * g = -g) (θ : ℝ) :
    NormedSpace.exp (θ • g) = 1 + Real.sin θ • g + (1 - Real.cos θ) • (g * g) := by
  have h1 : ∀ t : ℝ, HasDerivAt (fun t : ℝ => NormedSpace.exp (t • -g)) (NormedSpace.exp (t • -g) * -g) t :=
    fun t => hasDerivAt_exp_smul_const (-g) t
  have h2 : ∀ t : ℝ, HasDerivAt (fun t : ℝ => (1 : A) + Real.sin t • g
      + (1 - Real.cos t) • (g * g)) (Real.cos t • g + Real.sin t • (g * g)) t := by
    intro t
    have a := (Real.hasDerivAt_sin t).smul_const g
    have b := ((Real.hasDerivAt_cos t).const_sub 1).smul_const (g * g)
    rw [neg_neg] at b
    exact (a.const_add 1).add b
  have h3 : ∀ t : ℝ, HasDerivAt (fun t : ℝ => NormedSpace.exp (t • -g) *
      ((1 : A) + Real.sin t • g + (1 - Real.cos t) • (g * g))) 0 t := by
    intro t
    have hz : -g * (1 + Real.sin t • g + (1 - Real.cos t) • (g * g)) + (Real.cos t • g + Real.sin t • (g * g)) = 0 := by
      rw [mul_add, mul_add, mul_smul_comm, mul_smul_comm, mul_one, neg_mul,
        neg_mul, ← mul_assoc, hg, sub_smul]
      module
    have := (h1 t).mul (h2 t)
    rw [mul_assoc, ← mul_add, hz, mul_zero] at this
    exact this
  have h4 := is_const_of_deriv_eq_zero (fun t => (h3 t).differentiableAt) (fun t => (h3 t).deriv) θ 0
  simp only [zero_smul, Real.sin_zero, Real.cos_zero, sub_self, add_zero, mul_one, NormedSpace.exp_zero] at h4
  have h5 : NormedSpace.exp (θ • g) * NormedSpace.exp (θ • -g) = 1 := by
    let _ : NormedAlgebra ℚ A := NormedAlgebra.restrictScalars ℚ ℝ A
    rw [smul_neg, ← NormedSpace.exp_add_of_commute (Commute.neg_right (Commute.refl _)), add_neg_cancel,
      NormedSpace.exp_zero]
  have h6 := congrArg (NormedSpace.exp (θ • g) * ·) h4
  simp only [← mul_assoc, h5, one_mul, mul_one] at h6
  exact h6.symm

variable {n : ℕ}

set_option backward.isDefEq.respectTransparency false in
open scoped Norms.Operator in
theorem exp_smul_of_cube (g : Matrix (Fin n) (Fin n) ℝ) (hg : g * g * g = -g) (θ : ℝ) :
    NormedSpace.exp (θ • g) = 1 + Real.sin θ • g + (1 - Real.cos θ) • (g * g) :=
  exp_smul_of_cube_aux g hg θ

/-- The generator of the rotations of the plane of coordinates `i` and `j`. -/
def planeGen (i j : Fin n) : Matrix (Fin n) (Fin n) ℝ := Matrix.single j i 1 - Matrix.single i j 1

theorem planeGen_skew (i j : Fin n) : (planeGen i j)ᵀ = -planeGen i j := by
  simp [planeGen, Matrix.transpose_single]

theorem planeGen_mulVec (i j : Fin n) (hij : i ≠ j) (x : Fin n → ℝ) (k : Fin n) :
    (planeGen i j *ᵥ x) k = if k = i then -x j else if k = j then x i else 0 := by
  simp only [planeGen, Matrix.sub_mulVec, Matrix.single_mulVec, Pi.sub_apply, one_mul]
  rcases eq_or_ne k i with rfl | h1
  · simp [Function.update, hij]
  · rcases eq_or_ne k j with rfl | h2
    · simp [Function.update, h1]
    · simp [Function.update, h1, h2]

theorem planeGen_cube (i j : Fin n) (hij : i ≠ j) :
    planeGen i j * planeGen i j * planeGen i j = -planeGen i j := by
  simp only [planeGen, Matrix.mul_sub, Matrix.sub_mul, Matrix.single_mul_single_same, mul_one]
  simp [Matrix.single_mul_single_of_ne, hij, hij.symm]
  abel

theorem exp_planeGen_mulVec (i j : Fin n) (hij : i ≠ j) (θ : ℝ) (x : Fin n → ℝ) :
    NormedSpace.exp (θ • planeGen i j) *ᵥ x = turn i j θ x := by
  rw [exp_smul_of_cube _ (planeGen_cube i j hij)]
  funext k
  simp only [Matrix.add_mulVec, Matrix.smul_mulVec, ← Matrix.mulVec_mulVec, Matrix.one_mulVec, Pi.add_apply,
    Pi.smul_apply, smul_eq_mul]
  rw [planeGen_mulVec i j hij, planeGen_mulVec i j hij, planeGen_mulVec i j hij, planeGen_mulVec i j hij]
  unfold turn
  rcases eq_or_ne k i with rfl | h1
  · simp [hij.symm]; ring
  · rcases eq_or_ne k j with rfl | h2
    · simp [h1]; ring
    · simp [h1, h2]

theorem soGenerator_eq_planeGen (i j : Fin n) (h : i < j) : soGenerator n i j = .ok (planeGen i j) := by
  rw [soGenerator_eq ⟨by omega, by exact_mod_cast h, by exact_mod_cast j.2⟩]
  congr 1
  have hne : i ≠ j := h.ne
  funext a b
  simp only [planeGen, Matrix.sub_apply, Matrix.single_apply, Nat.cast_inj, Fin.val_inj]
  rcases eq_or_ne a j with rfl | h1
  · rcases eq_or_ne b i with rfl | h2
    · simp [hne]
    · simp [h2, h2.symm, hne, hne.symm]
  · simp only [h1, h1.symm, false_and, if_false, zero_sub, eq_comm (a := a), eq_comm (a := b)]
    split_ifs <;> simp

end BMI.Samplers
