import Verif.Spec.IdealRandom
import Verif.Spec.Transforms

/-! Specification of the figures of the concept. -/

namespace BMI.Concept

open MeasureTheory BMI.Samplers

variable {Key : Type} [MeasurableSpace Key]

/-- The estimator succeeds on arrays of `n` rows. -/
def Works (est : Arr → Arr → Except Err ℝ) (n dx dy : ℕ) : Prop :=
  ∀ (x : Fin n → Fin dx → ℝ) (y : Fin n → Fin dy → ℝ), ∃ v, est (rowsOf x) (rowsOf y) = .ok v

/-- `m` and `d` are the average and the standard deviation of the estimates for samples of `n` points with the seeds from 0 to
`k - 1`. -/
def Estimated (s : Sampler Key) (est : Arr → Arr → Except Err ℝ) (n k : ℕ) (m d : ℝ) : Prop :=
  ∃ es : Fin k → ℝ, (∀ i : Fin k, ∃ x y, s.sample n (.seed ((i : ℕ) : ℤ)) = .ok (x, y) ∧ est x y = .ok (es i)) ∧
    k * m = ∑ i, es i ∧ 0 ≤ d ∧ k * d ^ 2 = ∑ i, (es i - m) ^ 2

/-- A pair of dimensions 1 and 1 is drawn as points. -/
def Drawn11 (s : Sampler Key) (n : ℕ) (points : List (ℝ × ℝ)) : Prop :=
  ∃ (x : Fin n → Fin 1 → ℝ) (y : Fin n → Fin 1 → ℝ), s.sample n (.seed 42) = .ok (rowsOf x, rowsOf y) ∧
    points = List.ofFn fun i => (x i 0, y i 0)

/-- A pair of dimensions 2 and 1 is drawn as points, `X`, with colours, `Y`. -/
def Drawn21 (s : Sampler Key) (n : ℕ) (points : List (ℝ × ℝ)) (colours : List ℝ) : Prop :=
  ∃ (x : Fin n → Fin 2 → ℝ) (y : Fin n → Fin 1 → ℝ), s.sample n (.seed 42) = .ok (rowsOf x, rowsOf y) ∧
    points = (List.ofFn fun i => (x i 0, x i 1)) ∧ colours = List.ofFn fun i => y i 0

/-- The covariance matrix with ones on the diagonal and `ρ` between the first coordinate of `X` and the first of `Y`. -/
def oneCorrelated (dx dy : ℕ) (ρ : ℝ) : Matrix (Fin (dx + dy)) (Fin (dx + dy)) ℝ := fun i j =>
  if (i : ℕ) = j then 1 else if ((i : ℕ) = 0 ∧ (j : ℕ) = dx) ∨ ((i : ℕ) = dx ∧ (j : ℕ) = 0) then ρ else 0

/-- The law of the parts of a normal vector. -/
noncomputable def normalPair (dx dy : ℕ) (C : Matrix (Fin (dx + dy)) (Fin (dx + dy)) ℝ) : Measure ((Fin dx → ℝ) × (Fin dy → ℝ)) :=
  (normalLaw 0 C).map fun z => (fun i => z (Fin.castAdd dy i), fun i => z (Fin.natAdd dx i))

end BMI.Concept
