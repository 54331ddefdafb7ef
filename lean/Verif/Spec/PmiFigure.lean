import Verif.Spec.Profiles
import Verif.Spec.Student
import Verif.Model.PmiFigure

/-! Specification of the figure of pointwise mutual information and trained critics. -/

namespace BMI.PmiFigure

open MeasureTheory BMI.Samplers BMI.Profiles BMI.Integration

/-- Two coordinates with dispersion one, and one half between them. -/
noncomputable def half : Matrix (Fin 2) (Fin 2) ℝ := !![1, 1 / 2; 1 / 2, 1]

/-- The law of the two coordinates of a random point of the plane. -/
noncomputable def coordinates (μ : Measure (Fin 2 → ℝ)) : Measure (ℝ × ℝ) := μ.map fun z => (z 0, z 1)

/-- `r` is the pointwise mutual information of the law: the continuous logarithm of its density with respect to the product of its
marginals, and the only one. -/
structure IsThePmi (P : Measure (ℝ × ℝ)) (r : ℝ → ℝ → ℝ) : Prop where
  continuous : Continuous fun z : ℝ × ℝ => r z.1 z.2
  ratio : IsLogRatio P fun z => r z.1 z.2
  unique : ∀ r' : ℝ → ℝ → ℝ, (Continuous fun z : ℝ × ℝ => r' z.1 z.2) → IsLogRatio P (fun z => r' z.1 z.2) → r' = r

/-- What is assumed of SciPy: `pdf` is continuous and the density of the law in its documentation. -/
structure IdealPdf (P : SciPy) : Prop where
  student : ∀ d loc (S : Matrix (Fin d) (Fin d) ℝ) ν, S.PosDef → 0 < ν → Continuous (P.tPdf d loc S ν) ∧
    (∀ z, 0 ≤ P.tPdf d loc S ν z) ∧ studentLaw loc S ν = volume.withDensity fun z => ENNReal.ofReal (P.tPdf d loc S ν z)
  normal : ∀ d mean (S : Matrix (Fin d) (Fin d) ℝ), S.PosDef → Continuous (P.normalPdf d mean S) ∧
    (∀ z, 0 ≤ P.normalPdf d mean S z) ∧ normalLaw mean S = volume.withDensity fun z => ENNReal.ofReal (P.normalPdf d mean S z)

/-- 71 equally spaced numbers from -5 to 5. -/
noncomputable def node (i : Fin 71) : ℝ := -5 + (i : ℝ) / 7

/-- The horizontal extent of pixel column `j` of `n`. -/
noncomputable def pixelX (im : Image) (n j : ℕ) : Set ℝ :=
  Set.uIcc (im.left + (im.right - im.left) * (j / n)) (im.left + (im.right - im.left) * ((j + 1) / n))

/-- The vertical extent of pixel row `i` of `n`, counted from the upper edge. -/
noncomputable def pixelY (im : Image) (n i : ℕ) : Set ℝ :=
  Set.uIcc (im.top + (im.bottom - im.top) * (i / n)) (im.top + (im.bottom - im.top) * ((i + 1) / n))

/-- The image shows the function on the square from -5 to 5: each of its 71 × 71 pixels shows the value at a node in the pixel. -/
structure Shows (im : Image) (f : ℝ → ℝ → ℝ) : Prop where
  square : Set.uIcc im.left im.right = Set.Icc (-5) 5 ∧ Set.uIcc im.bottom im.top = Set.Icc (-5) 5
  rows : im.rows = List.ofFn fun i => List.ofFn fun j => f (node j) (node i)
  place : ∀ i j : Fin 71, node j ∈ pixelX im 71 j ∧ node i ∈ pixelY im 71 i

/-- The mean of a list of numbers. -/
noncomputable def mean {n : ℕ} (w : Fin n → ℝ) : ℝ := (∑ i, w i) / n

/-- Its standard deviation. -/
noncomputable def deviation {n : ℕ} (w : Fin n → ℝ) : ℝ := √((∑ i, (w i - mean w) ^ 2) / n)

open Classical in
/-- The unit in which numbers are measured after standardisation: the standard deviation, or one if it is negligible in comparison with
the mean (`ε` is the precision of floating-point numbers). -/
noncomputable def unit {n : ℕ} (ε : ℝ) (w : Fin n → ℝ) : ℝ :=
  if deviation w ^ 2 ≤ n * ε * deviation w ^ 2 + (n * mean w * ε) ^ 2 then 1 else deviation w

/-- A number on the standardised scale. -/
noncomputable def standard {n : ℕ} (ε : ℝ) (w : Fin n → ℝ) (x : ℝ) : ℝ := (x - mean w) / unit ε w

/-- The critic is as good as one trained with InfoNCE can be: at the standardised coordinates of a point it gives the pointwise mutual
information at that point, up to a function of the first coordinate, which InfoNCE leaves open. -/
def Right (ε : ℝ) {n : ℕ} (w : Fin n → ℝ × ℝ) (r : ℝ → ℝ → ℝ) (f : Critic) : Prop :=
  ∃ a : ℝ → ℝ, ∀ x y, f [standard ε (fun i => (w i).1) x] [standard ε (fun i => (w i).2) y] = r x y + a x

/-- The images agree up to a number for each pixel column. -/
def Agree (im im' : Image) : Prop :=
  ∃ b : Fin 71 → ℝ, ∀ i j : Fin 71, (im.rows.getD i []).getD j 0 = (im'.rows.getD i []).getD j 0 + b j

end BMI.PmiFigure
