import Verif.Lemmas.Student
import Mathlib.Probability.ProductMeasure

/-! A random state that satisfies `IdealStudent`: the assumption is consistent. -/

namespace BMI.Samplers

open MeasureTheory ProbabilityTheory BMI.Student

/-- The arguments of `stats.multivariate_t.rvs`. -/
abbrev RvsArgs : Type := Σ (_ : ℕ) (d : ℕ), (Fin d → ℝ) × Matrix (Fin d) (Fin d) ℝ × ℝ

/-- A state of the witness: an answer for every choice of arguments. -/
abbrev TableState : Type := ∀ a : RvsArgs, Fin a.1 → Fin a.2.1 → ℝ

open Classical in
/-- The law of an answer. -/
noncomputable def answerLaw (a : RvsArgs) : Measure (Fin a.1 → Fin a.2.1 → ℝ) :=
  if 0 < a.2.2.2.2 then Measure.pi fun _ => studentLaw a.2.2.1 a.2.2.2.1 a.2.2.2.2 else Measure.dirac 0

instance (a : RvsArgs) : IsProbabilityMeasure (answerLaw a) := by
  unfold answerLaw
  split_ifs with h
  · haveI := studentLaw_prob a.2.2.1 a.2.2.2.1 h
    infer_instance
  · infer_instance

/-- Independent answers. -/
noncomputable def tableLaw : Measure TableState := Measure.infinitePi answerLaw

/-- The witness. -/
def table : NpRandom TableState where
  randomState _ := fun _ _ _ => 0
  multivariateT s n d loc S ν := s ⟨n, d, loc, S, ν⟩

theorem table_ideal : IdealStudent table tableLaw := by
  refine ⟨by unfold tableLaw; infer_instance, fun n d loc S ν _ hν => ⟨measurable_pi_apply _, ?_⟩⟩
  have h := (measurePreserving_eval_infinitePi answerLaw ⟨n, d, loc, S, ν⟩).map_eq
  refine h.trans ?_
  unfold answerLaw
  rw [if_pos hν]

end BMI.Samplers
