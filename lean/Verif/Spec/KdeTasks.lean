import Verif.Spec.Registry
import Verif.Spec.Consistency

/-! On which benchmark tasks the kernel density estimator finds the mutual information. -/

namespace BMI.Kde.Spec

open MeasureTheory BMI.Samplers BMI.TaskIds BMI.Registry BMI.Consistency

/-- The components of the law of a task have moments of every order below this number: the degrees of freedom of a Student-t law,
divided by the exponents of the powers applied to it. -/
noncomputable def momentsBelow {F : Type} (val : F → ℝ) : Call F → ENNReal
  | .studentIdentity _ _ df => df
  | .studentDense _ _ df _ => df
  | .studentSparse _ _ df _ _ => df
  | .halfCube t => momentsBelow val t / ENNReal.ofReal (3 / 2)
  | .power t α => momentsBelow val t / ENNReal.ofReal (val α)
  | .wiggly t | .rotate t | .spiral t _ _ => momentsBelow val t
  | _ => ⊤

/-- There is no Swiss roll (which puts X on a curve), and the normal distribution function is only applied to variables with second
moments. -/
def Smooth {F : Type} (val : F → ℝ) : Call F → Prop
  | .swissroll _ => False
  | .normalCdf t => Smooth val t ∧ 2 < momentsBelow val t
  | .asinh t | .halfCube t | .wiggly t | .rotate t | .power t _ | .spiral t _ _ => Smooth val t
  | _ => True

/-- The estimates from samples of the task converge to the number `v` in probability, whichever generator the task uses. -/
def Finds {Key State : Type} [MeasurableSpace Key] [MeasurableSpace State] (κ : Measure Key) (μ : Measure State) {dx dy : ℕ}
    (gives : (n : ℕ) → (Fin n → Fin dx → ℝ) → (Fin n → Fin dy → ℝ) → ℝ → Prop) (v : ℝ) : Built Key State → Prop
  | .jax s => ConvergesTo κ s gives v
  | .np s => ConvergesTo μ s gives v

/-- The tasks of the benchmark whose variables have no second moments. -/
def heavy : List (Call RegF) :=
  [.studentIdentity 1 1 1, .studentIdentity 2 2 1, .studentIdentity 2 2 2, .studentIdentity 3 3 2, .studentIdentity 5 5 2]

end BMI.Kde.Spec
