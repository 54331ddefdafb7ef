import Verif.Spec.CcaTasks

/-! The tasks on which CCA is known to find too little, however many points there are. -/

namespace BMI.Cca.Spec

open BMI.TaskIds

/-- Pairs of normal variables which are not independent. -/
def Linked {F : Type} (val : F → ℝ) : Call F → Prop
  | .binormal ρ => val ρ ≠ 0
  | .sparse _ _ n s => 0 < n ∧ val s ≠ 0
  | _ => False

/-- Such pairs after one transform of single coordinates which is not linear. -/
def Bent {F : Type} (val : F → ℝ) : Call F → Prop
  | .asinh t | .halfCube t | .normalCdf t | .wiggly t => Linked val t
  | .power t α => Linked val t ∧ val α ≠ 1
  | _ => False

/-- Towers of transforms of single coordinates over such pairs. -/
def LinkedTower {F : Type} (val : F → ℝ) : Call F → Prop
  | .binormal ρ => val ρ ≠ 0
  | .sparse _ _ n s => 0 < n ∧ val s ≠ 0
  | .asinh t | .halfCube t | .normalCdf t | .wiggly t | .power t _ => LinkedTower val t
  | _ => False

/-- The tasks with one transform among the tasks of the benchmark, and the Swiss roll. -/
def bentTasks : List (Call RegF) :=
  [.normalCdf (.binormal .f0_75), .swissroll (.normalCdf (.binormal .f0_75)), .wiggly (.binormal .f0_75), .halfCube (.binormal .f0_75), .normalCdf (twoPair 3 3), .normalCdf (twoPair 5 5),
    .normalCdf (twoPair 25 25), .halfCube (twoPair 3 3), .halfCube (twoPair 5 5), .halfCube (twoPair 25 25)]

end BMI.Cca.Spec
