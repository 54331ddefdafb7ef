import Verif.Spec.KdeTasks

/-! The benchmark tasks on which the number found by CCA in the limit is known not to be too large. -/

namespace BMI.Cca.Spec

open BMI.TaskIds BMI.Kde.Spec

/-- Towers of transforms of single coordinates, over a pair or several pairs of normal variables. -/
def Coordinatewise {F : Type} : Call F → Prop
  | .binormal _ | .sparse _ _ _ _ => True
  | .asinh t | .halfCube t | .normalCdf t | .wiggly t | .power t _ => Coordinatewise t
  | _ => False

/-- Towers of transforms of single coordinates, spirals and rotations, over at least `m` pairs of normal variables; at least two pairs if
there is a spiral, and at least three if there is a rotation. -/
def PairTower {F : Type} : ℕ → Call F → Prop
  | m, .sparse _ _ n _ => m ≤ n
  | m, .asinh t | m, .halfCube t | m, .normalCdf t | m, .wiggly t | m, .power t _ => PairTower m t
  | m, .spiral t _ _ => PairTower (max m 2) t
  | m, .rotate t => PairTower (max m 3) t
  | _, _ => False

/-- Towers of odd transforms of single coordinates, over Student-t variables without correlations. -/
def OddTower {F : Type} : Call F → Prop
  | .studentIdentity _ _ _ => True
  | .asinh t | .halfCube t | .power t _ => OddTower t
  | _ => False

/-- The tasks treated: towers of transforms of single coordinates over pairs of normal variables, with spirals and rotations among the
transforms if there are two or three pairs; towers of odd transforms over uncorrelated Student-t variables, if there are second moments; correlated Student-t variables with second moments; normal variables with
equal correlations; uniform variables with additive noise; and the Swiss roll. -/
def Treated {F : Type} (val : F → ℝ) (c : Call F) : Prop :=
  Coordinatewise c ∨ PairTower 0 c ∨ (OddTower c ∧ 2 < momentsBelow val c) ∨
    match c with
    | .additive _ | .dense _ _ _ | .swissroll (.normalCdf (.binormal _)) => True
    | .studentDense _ _ df _ | .studentSparse _ _ df _ _ => 2 < df
    | _ => False

/-- The tasks of the benchmark which are not treated: those without second moments and the bimodal task (whose number is wrong). -/
def leftOut : List (Call RegF) := heavy ++ [.bimodal .f0_75]

end BMI.Cca.Spec
