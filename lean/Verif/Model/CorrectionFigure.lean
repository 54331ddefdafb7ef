import Verif.Model.Student

/-!
# Model of the figure of the correction term for Student-t laws

/repo/scripts/Beyond_Normal/figures/student/correction.py.  The sizes, the hidden spines and the name of the file are left out.
-/

namespace BMI.CorrectionFigure

open BMI.Student

variable {F : Type}

/-- `correction` (/repo/scripts/Beyond_Normal/figures/student/correction.py:19-20). -/
noncomputable def correction (o : FloatFns F) (df m n : ℕ) : F := miCorrectionFunction o (o.ofReal df) m n

/-- One call of `ax.plot` (/repo/scripts/Beyond_Normal/figures/student/correction.py:46). -/
structure Curve (F : Type) where
  x : List ℕ
  y : List F
  c : String
  label : String

/-- `nus` (/repo/scripts/Beyond_Normal/figures/student/correction.py:40): `list(range(1, 30))`. -/
def nus : List ℕ := List.range' 1 (30 - 1)

/-- `mns` (/repo/scripts/Beyond_Normal/figures/student/correction.py:41). -/
def mns : List (ℕ × ℕ) := [(1, 1), (1, 2), (1, 10), (2, 2), (3, 3), (5, 5)]

/-- The body of the loop (/repo/scripts/Beyond_Normal/figures/student/correction.py:44-46). -/
noncomputable def curve (o : FloatFns F) (i : ℕ) (mn : ℕ × ℕ) : Curve F where
  x := nus
  y := nus.map fun df => correction o df mn.1 mn.2
  c := "C" ++ toString (i + 1)
  label := "$m=" ++ toString mn.1 ++ "$,\t$n=" ++ toString mn.2 ++ "$"

/-- The axes (/repo/scripts/Beyond_Normal/figures/student/correction.py:43-52). -/
structure Axes (F : Type) where
  curves : List (Curve F)
  xlabel : String
  ylabel : String

/-- `main` (/repo/scripts/Beyond_Normal/figures/student/correction.py:36-55). -/
noncomputable def main (o : FloatFns F) : Axes F where
  curves := (mns.zipIdx).map fun p => curve o p.2 p.1
  xlabel := "Degrees of freedom"
  ylabel := "MI correction term"

end BMI.CorrectionFigure
