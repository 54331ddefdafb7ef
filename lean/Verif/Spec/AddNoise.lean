import Verif.Model.AddNoise
import Verif.Spec.MutualInfo
import Mathlib.Probability.Distributions.Gaussian.Real
import Mathlib.Probability.Independence.Basic

/-! What is expected of `add_noise`. -/

namespace BMI.AddNoise.Spec

open MeasureTheory ProbabilityTheory BMI.PSpace

variable {State : Type} [MeasurableSpace State]

/-- The numbers drawn from a generator in a random state are independent standard normal. -/
structure Ideal (G : Normals State) (κ : Measure State) : Prop where
  measurable : ∀ m, Measurable fun s => G.stream s m
  indep : iIndepFun (fun m s => G.stream s m) κ
  law : ∀ m, κ.map (fun s => G.stream s m) = gaussianReal 0 1

/-- A point of the `i`-th row with the noise for this row from a generator in state `s`. -/
def noisyRow (G : Normals State) (σ : ℝ) (i : ℕ) {d : ℕ} (s : State) (x : Fin d → ℝ) : Fin d → ℝ :=
  fun j => x j + σ * G.stream s (i * d + j)

/-- The law of two variables with law `P` after noise from two generators with independent states. -/
noncomputable def freshLaw (G : Normals State) (κ : Measure State) (σ σ' : ℝ) (i : ℕ) {dx dy : ℕ}
    (P : Measure ((Fin dx → ℝ) × (Fin dy → ℝ))) : Measure ((Fin dx → ℝ) × (Fin dy → ℝ)) :=
  (P.prod (κ.prod κ)).map fun z => (noisyRow G σ i z.2.1 z.1.1, noisyRow G σ' i z.2.2 z.1.2)

/-- The law of two variables with law `P` after noise from one and the same state. -/
noncomputable def sharedLaw (G : Normals State) (κ : Measure State) (σ σ' : ℝ) (i : ℕ) {dx dy : ℕ}
    (P : Measure ((Fin dx → ℝ) × (Fin dy → ℝ))) : Measure ((Fin dx → ℝ) × (Fin dy → ℝ)) :=
  (P.prod κ).map fun z => (noisyRow G σ i z.2 z.1.1, noisyRow G σ' i z.2 z.1.2)

/-- The variable takes only countably many values. -/
def Discrete {Ω : Type} [MeasurableSpace Ω] (μ : Measure Ω) : Prop := ∃ S : Set Ω, S.Countable ∧ ∀ᵐ x ∂μ, x ∈ S

end BMI.AddNoise.Spec
