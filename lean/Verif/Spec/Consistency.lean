import Verif.Spec.Samplers
import Mathlib.Topology.Instances.ENNReal.Lemmas
import Mathlib.Probability.Moments.Covariance

/-! What it means that an estimator finds a number in the long run. -/

namespace BMI.Consistency

open MeasureTheory ProbabilityTheory Filter BMI.Samplers Topology

variable {Key : Type} [MeasurableSpace Key]

/-- `sample n` with a random key returns `n` independent pairs with law `P`, for all `n` apart from `n = 1`. -/
def Draws (κ : Measure Key) (s : Sampler Key) {dx dy : ℕ} (P : Measure ((Fin dx → ℝ) × (Fin dy → ℝ))) : Prop :=
  ∀ n, n ≠ 1 → ∃ draw : Key → Fin n → (Fin dx → ℝ) × (Fin dy → ℝ), Measurable draw ∧
    (∀ k, s.sample n (.key k) = .ok (rowsOf fun i => (draw k i).1, rowsOf fun i => (draw k i).2)) ∧
    κ.map draw = Measure.pi fun _ => P

/-- The estimates (`gives n x y t`: the estimate from the arrays `x` and `y` with `n` rows is the number `t`) from samples with a
random key converge to `c` in probability. -/
def ConvergesTo (κ : Measure Key) (s : Sampler Key) {dx dy : ℕ}
    (gives : (n : ℕ) → (Fin n → Fin dx → ℝ) → (Fin n → Fin dy → ℝ) → ℝ → Prop) (c : ℝ) : Prop :=
  ∀ δ > 0, Tendsto (fun n => κ {k | ¬ ∃ x y t, s.sample n (.key k) = .ok (rowsOf x, rowsOf y) ∧ gives n x y t ∧ |t - c| < δ})
    atTop (𝓝 0)

/-- The law has second moments, and `S` is its covariance matrix. -/
def HasCov {dx dy : ℕ} (P : Measure ((Fin dx → ℝ) × (Fin dy → ℝ))) (S : Matrix (Fin (dx + dy)) (Fin (dx + dy)) ℝ) : Prop :=
  (∀ i, MemLp (fun z : (Fin dx → ℝ) × (Fin dy → ℝ) => Fin.append z.1 z.2 i) 2 P) ∧
  ∀ i j, cov[fun z => Fin.append z.1 z.2 i, fun z => Fin.append z.1 z.2 j; P] = S i j

/-- A law on the line with values in `[L, H]` and in no smaller interval, such that none of the edges between the `b` cells of equal
width has positive probability. -/
structure Fills (μ : Measure ℝ) (b : ℕ) (L H : ℝ) : Prop where
  lt : L < H
  inside : ∀ᵐ x ∂μ, L ≤ x ∧ x ≤ H
  low : ∀ η > 0, μ (Set.Iio (L + η)) ≠ 0
  high : ∀ η > 0, μ (Set.Ioi (H - η)) ≠ 0
  edges : ∀ k, 0 < k → k < b → μ {L + (H - L) * k / b} = 0

end BMI.Consistency
