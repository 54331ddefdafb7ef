import Verif.Model.Basic
import Mathlib.Data.Real.Basic

/-!
Model of the script which illustrates appearing and vanishing mutual information
(/repo/scripts/Mixtures/plot_appearing_and_vanishing_mi.py).

A panel is what is handed to `imshow` and `set_title`; an array with two axes is the list of its rows.
-/

namespace BMI.Appearing

open scoped Classical in
/-- `a < b` for numbers (/repo/scripts/Mixtures/plot_appearing_and_vanishing_mi.py:27,32,42). -/
noncomputable def lt (a b : ℝ) : Bool := decide (a < b)

/-- `np.linspace(0, 2)` with its default of 50 points (/repo/scripts/Mixtures/plot_appearing_and_vanishing_mi.py:18-19). -/
noncomputable def linspace (a b : ℝ) : List ℝ := (List.range 50).map fun i : ℕ => a + (i : ℝ) * ((b - a) / ((50 : ℝ) - 1))

/-- `np.meshgrid` (/repo/scripts/Mixtures/plot_appearing_and_vanishing_mi.py:21) followed by an expression in the entries of
`X` and `Y`: the rows belong to `y`, the columns to `x`. -/
noncomputable def onMesh {α : Type} (x y : List ℝ) (f : ℝ → ℝ → α) : List (List α) := y.map fun b => x.map fun a => f a b

/-- What `plot_density` draws (/repo/scripts/Mixtures/plot_appearing_and_vanishing_mi.py:7-14): rows from the bottom to the top; left,
right, lower and upper end of the image; the numbers shown in the lightest and in the darkest colour; the title. -/
structure Panel where
  rows : List (List ℝ)
  extent : ℝ × ℝ × ℝ × ℝ
  vmin : ℝ
  vmax : ℝ
  title : String

/-- `plot_density` (/repo/scripts/Mixtures/plot_appearing_and_vanishing_mi.py:7-14). -/
noncomputable def plotDensity (array : List (List ℝ)) (title : String) : Panel := ⟨array, (0, 2, 0, 2), 0, 1, title⟩

/-- A boolean as a number (/repo/scripts/Mixtures/plot_appearing_and_vanishing_mi.py:28,33,38,43,47). -/
noncomputable def num (b : Bool) : ℝ := if b then 1 else 0

/-- `mask1` (/repo/scripts/Mixtures/plot_appearing_and_vanishing_mi.py:27). -/
noncomputable def mask1 (X Y : ℝ) : Bool := lt 0 X && lt X 1 && lt 0 Y && lt Y 1

/-- `mask2` (/repo/scripts/Mixtures/plot_appearing_and_vanishing_mi.py:32). -/
noncomputable def mask2 (X Y : ℝ) : Bool := lt 1 X && lt X 2 && lt 1 Y && lt Y 2

/-- `mask3` (/repo/scripts/Mixtures/plot_appearing_and_vanishing_mi.py:37). -/
noncomputable def mask3 (X Y : ℝ) : Bool := mask1 X Y || mask2 X Y

/-- `mask4` (/repo/scripts/Mixtures/plot_appearing_and_vanishing_mi.py:42); `&` binds stronger than `|`. -/
noncomputable def mask4 (X Y : ℝ) : Bool := (lt 0 X && lt X 1 && lt 1 Y && lt Y 2) || (lt 1 X && lt X 2 && lt 0 Y && lt Y 1)

/-- `main` (/repo/scripts/Mixtures/plot_appearing_and_vanishing_mi.py:17-50), the five panels from left to right. -/
noncomputable def main : List Panel :=
  let x := linspace 0 2
  let y := linspace 0 2
  [plotDensity (onMesh x y fun a b => num (mask1 a b)) "$I=0$",
   plotDensity (onMesh x y fun a b => num (mask2 a b)) "$I=0$",
   plotDensity (onMesh x y fun a b => 0.5 * num (mask3 a b)) "$I=\\log 2$",
   plotDensity (onMesh x y fun a b => 0.5 * num (mask4 a b)) "$I=\\log 2$",
   plotDensity (onMesh x y fun a b => 0.25 * num (mask3 a b || mask4 a b)) "$I=0$"]

end BMI.Appearing
