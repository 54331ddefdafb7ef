import Verif.Spec.Integration
import Verif.Model.CriticPlots

/-! Specification of the figures comparing critics with the pointwise mutual information. -/

namespace BMI.CriticPlots

open BMI.Integration

/-- The density of a normal number. -/
noncomputable def bell (a s x : ℝ) : ℝ := Real.exp (-(x - a) ^ 2 / (2 * s)) / √(2 * Real.pi * s)

/-- The weights of the balls. -/
noncomputable def weight : Fin 4 → ℝ := ![3 / 10, 3 / 10, 1 / 5, 1 / 5]

/-- The density of the four balls. -/
noncomputable def ballsPdf (x y : ℝ) : ℝ := ∑ j, weight j * (bell (balls j).1.1 (balls j).2 x * bell (balls j).1.2 (balls j).2 y)

/-- The density of the first variable. -/
noncomputable def ballsX (x : ℝ) : ℝ := ∑ j, weight j * bell (balls j).1.1 (balls j).2 x

/-- The density of the second variable. -/
noncomputable def ballsY (y : ℝ) : ℝ := ∑ j, weight j * bell (balls j).1.2 (balls j).2 y

/-- Their pointwise mutual information. -/
noncomputable def ballsPmi (x y : ℝ) : ℝ := Real.log (ballsPdf x y / (ballsX x * ballsY y))

/-- 101 equally spaced numbers from -5 to 5. -/
noncomputable def node (i : Fin 101) : ℝ := -5 + (i : ℝ) / 10

/-- Pixel `i` of `n` in an image which reaches from `a` to `b`. -/
def pixel (a b : ℝ) (n i : ℕ) : Set ℝ := Set.Icc (a + (b - a) * (i / n)) (a + (b - a) * ((i + 1) / n))

/-- The image shows the function `f` on the square from -5 to 5: it has 101 rows, numbered from below, and 101 columns, numbered from
the left, fills that square, and shows in row `j` and column `i` the value at `(node i, node j)`. -/
def Shows (im : Image) (f : ℝ → ℝ → ℝ) : Prop :=
  im.extent = some ((-5, 5), (-5, 5)) ∧ im.rows = List.ofFn fun j => List.ofFn fun i => f (node i) (node j)

/-- The figure compares the critics with the pointwise mutual information: on the grid the critic of NWJ minus one, the critic of
Donsker-Varadhan minus its mean on the grid, the critic of InfoNCE minus its mean over the second variable, each above the pointwise
mutual information treated in the same way; and on the points `w` the critics of NWJ and Donsker-Varadhan. -/
structure Compares (fig : Figure) (c : Critics) (w : Fin 25000 → (Fin 1 → ℝ) × (Fin 1 → ℝ)) : Prop where
  nwj : Shows fig.nwj.1 fun x y => c.nwj [x] [y] - 1
  pmi : Shows fig.nwj.2 ballsPmi
  dv : Shows fig.dv.1 fun x y => c.dv [x] [y] - (∑ i, ∑ j, c.dv [node i] [node j]) / 10201
  pmiDv : Shows fig.dv.2 fun x y => ballsPmi x y - (∑ i, ∑ j, ballsPmi (node i) (node j)) / 10201
  nce : Shows fig.nce.1 fun x y => c.nce [x] [y] - (∑ j, c.nce [x] [node j]) / 101
  pmiNce : Shows fig.nce.2 fun x y => ballsPmi x y - (∑ j, ballsPmi x (node j)) / 101
  upperPmi : fig.upper.1 = List.ofFn fun i => ballsPmi ((w i).1 0) ((w i).2 0)
  upper : fig.upper.2 = List.ofFn fun i => c.nwj [(w i).1 0] [(w i).2 0] - 1
  lowerPmi : fig.lower.1 = List.ofFn fun i =>
    ballsPmi ((w i).1 0) ((w i).2 0) - (∑ k, ballsPmi ((w k).1 0) ((w k).2 0)) / 25000
  lower : fig.lower.2 = List.ofFn fun i =>
    c.dv [(w i).1 0] [(w i).2 0] - (∑ k, c.dv [(w k).1 0] [(w k).2 0]) / 25000

end BMI.CriticPlots
