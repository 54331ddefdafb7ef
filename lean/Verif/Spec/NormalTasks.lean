import Verif.Spec.Samplers
import Mathlib.Analysis.SpecialFunctions.Pow.NNReal

/-! Specification of the Gaussian and Student-t tasks. -/

namespace BMI.Student

open MeasureTheory BMI.Samplers

/-- Unit variances, all correlations equal to `ρ`. -/
def equicorrelation (n : ℕ) (ρ : ℝ) : Matrix (Fin n) (Fin n) ℝ := Matrix.of fun i j => if i = j then 1 else ρ

/-- Unit variances, correlation `c` between the coordinates `i` of X and `i` of Y for `i < k`, and no other correlation. The
coordinate `i` of Y is the coordinate `dx + i` of the vector. -/
def pairs (dx dy k : ℕ) (c : ℝ) : Matrix (Fin (dx + dy)) (Fin (dx + dy)) ℝ := Matrix.of fun p q =>
  if p = q then 1
  else if ((p : ℕ) < k ∧ (q : ℕ) = dx + p) ∨ ((q : ℕ) < k ∧ (p : ℕ) = dx + q) then c
  else 0

/-- The covariance of the variables `Xᵢ = α U + β V + λ Zᵢ + Eᵢ`, `Yᵢ = α U + β W + λ Zᵢ + Fᵢ` for `i < k`, where the
other coordinates have independent variables with coefficient `η` in place of `λ Zᵢ`. -/
structure IsLvmCovariance {dx dy : ℕ} (k : ℕ) (α lam β η : ℝ) (m : Matrix (Fin (dx + dy)) (Fin (dx + dy)) ℝ) : Prop where
  xx : ∀ i j : Fin dx, m (Fin.castAdd dy i) (Fin.castAdd dy j)
    = α ^ 2 + β ^ 2 + if i = j then 1 + (if (i : ℕ) < k then lam ^ 2 else η ^ 2) else 0
  yy : ∀ i j : Fin dy, m (Fin.natAdd dx i) (Fin.natAdd dx j)
    = α ^ 2 + β ^ 2 + if i = j then 1 + (if (i : ℕ) < k then lam ^ 2 else η ^ 2) else 0
  xy : ∀ (i : Fin dx) (j : Fin dy), m (Fin.castAdd dy i) (Fin.natAdd dx j)
    = α ^ 2 + if (i : ℕ) = j ∧ (i : ℕ) < k then lam ^ 2 else 0
  yx : ∀ (i : Fin dx) (j : Fin dy), m (Fin.natAdd dx j) (Fin.castAdd dy i)
    = α ^ 2 + if (i : ℕ) = j ∧ (i : ℕ) < k then lam ^ 2 else 0

/-- The correlation matrix of a covariance. -/
noncomputable def correlationOf {n : ℕ} (C : Matrix (Fin n) (Fin n) ℝ) : Matrix (Fin n) (Fin n) ℝ :=
  Matrix.of fun p q => C p q / (√(C p p) * √(C q q))

/-- The two parts of a vector. -/
def halves (dx dy : ℕ) (z : Fin (dx + dy) → ℝ) : (Fin dx → ℝ) × (Fin dy → ℝ) :=
  (fun i => z (Fin.castAdd dy i), fun i => z (Fin.natAdd dx i))

/-- A Student-t sampler is correct: right dimensions, independent draws of the law except when one point is asked for, and the
reported number is the mutual information of the law. -/
structure CorrectStudent {State : Type} [MeasurableSpace State] (κ : Measure State) (s : Sampler State) (dx dy : ℕ)
    (P : Measure ((Fin dx → ℝ) × (Fin dy → ℝ))) : Prop where
  dimX : s.dimX = .ok dx
  dimY : s.dimY = .ok dy
  law : ∀ n, n ≠ 1 → ∃ draw : State → Fin n → (Fin dx → ℝ) × (Fin dy → ℝ), Measurable draw ∧
    (∀ k, s.sample n (.key k) = .ok (rowsOf fun i => (draw k i).1, rowsOf fun i => (draw k i).2)) ∧
    κ.map draw = Measure.pi fun _ => P
  nonneg : 0 ≤ s.mi
  mi : mutualInfo P = ENNReal.ofReal s.mi

end BMI.Student
