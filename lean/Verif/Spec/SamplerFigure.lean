import Verif.Model.SamplerFigure
import Verif.Spec.Registry

/-! Specification of the figure of transformed samplers: one cloud of points, shown in five ways. -/

namespace BMI.SamplerFigure

open MeasureTheory ProbabilityTheory BMI.Samplers BMI.Registry

/-- The law of the points of the first panel: standard normal, with correlation 3/4. -/
noncomputable def cloudLaw : Measure (ℝ × ℝ) := (normalLaw 0 !![1, 3 / 4; 3 / 4, 1]).map fun z => (z 0, z 1)

/-- The law of two balls on the line. -/
noncomputable def twoBumps (w a b : ℝ) : Measure ℝ := ENNReal.ofReal w • gaussianReal a 1 + ENNReal.ofReal (1 - w) • gaussianReal b 1

/-- `v` is the number at the same level of the law `ν` as `x` is of the standard normal law, moved into the interval from -10 to 10, up
to an error of 1e-12. -/
def SameLevel (ν : Measure ℝ) (x v : ℝ) : Prop :=
  ∃ t, ν (Set.Iic t) = gaussianReal 0 1 (Set.Iic x) ∧ |v - max (-10) (min 10 t)| ≤ 1e-12

/-- The shades of the points tell the height `y`: from 0 for the lowest point to 1 for the highest, and linear between. -/
def ShadesOf {n : ℕ} (y s : Fin n → ℝ) : Prop :=
  ∃ lo hi, (∃ i, y i = lo) ∧ (∃ i, y i = hi) ∧ (∀ i, lo ≤ y i ∧ y i ≤ hi) ∧ (lo < hi → ∀ i, s i = (y i - lo) / (hi - lo))
    ∧ (lo = hi → ∀ i, s i = 0)

/-- The figure shows the points `z`: the points themselves; after the distribution function; after `v ↦ sign v · |v| ^ (3 / 2)`;
with two bumps on both margins; and with the first coordinate, after the distribution function, rolled up.  Every point has the shade
of its height in the first panel. -/
def Shows {n : ℕ} (z : Fin n → ℝ × ℝ) (fig : List Panel) : Prop :=
  ∃ (s : Fin n → ℝ) (b : Fin n → ℝ × ℝ), ShadesOf (fun i => (z i).2) s ∧
    (∀ i, SameLevel (twoBumps (3 / 10) 0 5) (z i).1 (b i).1 ∧ SameLevel (twoBumps (1 / 2) (-1) 3) (z i).2 (b i).2) ∧
    (∀ i j, (z i).1 ≤ (z j).1 → (b i).1 ≤ (b j).1) ∧ (∀ i j, (z i).2 ≤ (z j).2 → (b i).2 ≤ (b j).2) ∧
    fig = [
      ⟨"Bivariate Gaussian", ["$X$", "$Y$"], [List.ofFn fun i => (z i).1, List.ofFn fun i => (z i).2], List.ofFn s⟩,
      ⟨"Correlated uniform", ["CDF$(X)$", "CDF$(Y)$"],
        [List.ofFn fun i => cdf (gaussianReal 0 1) (z i).1, List.ofFn fun i => cdf (gaussianReal 0 1) (z i).2], List.ofFn s⟩,
      ⟨"Half-cube mapping", ["$h(X)$", "$h(Y)$"],
        [List.ofFn fun i => SignType.sign (z i).1 * |(z i).1| ^ (3 / 2 : ℝ),
          List.ofFn fun i => SignType.sign (z i).2 * |(z i).2| ^ (3 / 2 : ℝ)], List.ofFn s⟩,
      ⟨"Making margins bimodal", ["bimodal$(X)$", "bimodal$(Y)$"], [List.ofFn fun i => (b i).1, List.ofFn fun i => (b i).2],
        List.ofFn s⟩,
      ⟨"Swiss roll mapping", [], [List.ofFn fun i => (rollPoint (cdf (gaussianReal 0 1) (z i).1)).1,
        List.ofFn fun i => (rollPoint (cdf (gaussianReal 0 1) (z i).1)).2, List.ofFn fun i => cdf (gaussianReal 0 1) (z i).2],
        List.ofFn s⟩]

/-- The shades of a panel are in the order of the heights: of two points, the one with the larger last coordinate has at least the shade
of the other. -/
def HeightsAreShades (p : Panel) : Prop :=
  ∀ h ∈ p.axes.getLast?, ∀ i j (_ : i < h.length) (_ : j < h.length) (_ : i < p.shades.length) (_ : j < p.shades.length),
    h[i] < h[j] → p.shades[i] ≤ p.shades[j]

end BMI.SamplerFigure
