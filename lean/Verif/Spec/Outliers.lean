import Verif.Model.Outliers
import Verif.Spec.MixtureTasks

/-! Specification of the contamination experiment. -/

namespace BMI.Outliers

open MeasureTheory BMI.Samplers BMI.Bmm BMI.MixtureTasks

/-- The correlations of the signal: 1/501 inside of each variable, 400/501 between the partners. -/
noncomputable def signalCorrelation : Matrix (Fin (2 + 2)) (Fin (2 + 2)) ℝ :=
  !![1, 1 / 501, 400 / 501, 0;
     1 / 501, 1, 0, 400 / 501;
     400 / 501, 0, 1, 1 / 501;
     0, 400 / 501, 1 / 501, 1]

/-- The signal. -/
noncomputable def lawOfSignal : Measure ((Fin 2 → ℝ) × (Fin 2 → ℝ)) := component 2 2 0 signalCorrelation

/-- The noise of variance `v`: X as in the signal, and Y independent of it. -/
noncomputable def lawOfNoise (v : ℝ) : Measure ((Fin 2 → ℝ) × (Fin 2 → ℝ)) :=
  lawOfSignal.fst.prod (normalLaw 0 (v • 1))

/-- The signal, of which the fraction `α` is replaced by noise. -/
noncomputable def contaminated (v α : ℝ) : Measure ((Fin 2 → ℝ) × (Fin 2 → ℝ)) :=
  mixtureLaw ![1 - α, α] ![lawOfSignal, lawOfNoise v]

/-- The mutual information of the signal: canonical correlations 400/500 and 400/502. -/
noncomputable def signalInformation : ℝ :=
  -(1 / 2) * Real.log (1 - (400 / 500 : ℝ) ^ 2) - 1 / 2 * Real.log (1 - (400 / 502 : ℝ) ^ 2)

/-- The levels of contamination. -/
noncomputable def levels : List ℝ := [1 / 1000, 1 / 100, 1 / 20, 1 / 10, 3 / 20, 1 / 5, 3 / 10, 2 / 5, 1 / 2]

/-- The variances of the noise: the powers of two from 1/128 to 128, and in the middle of the range those half-way between. -/
def noiseVariances : Set ℝ :=
  {v | (∃ e : ℤ, -7 ≤ e ∧ e ≤ 7 ∧ v = 2 ^ e) ∨ ∃ e : ℤ, -2 ≤ e ∧ e ≤ 3 ∧ v = 2 ^ e * √2}

/-- What the texts of the levels and of the variances have to satisfy: `float` recovers the number, and the text is made of
digits, points, signs and the letter of the exponent. -/
structure GoodText (repr : ℝ → String) (parse : List Char → Option ℝ) : Prop where
  parses : ∀ a, a ∈ levels ∨ a ∈ noiseVariances → parse (repr a).toList = some a
  ne : ∀ a, a ∈ levels ∨ a ∈ noiseVariances → (repr a).toList ≠ []
  plain : ∀ a, a ∈ levels ∨ a ∈ noiseVariances → ∀ c ∈ (repr a).toList,
    c ∈ ['0', '1', '2', '3', '4', '5', '6', '7', '8', '9', '.', '-', '+', 'e']

/-- The identifiers of the tasks. -/
def inlierId (repr : ℝ → String) (α : ℝ) : String := "mixing-Gauss-Inlier-" ++ repr α
def outlierId (repr : ℝ → String) (α : ℝ) : String := "mixing-Gauss-Outlier-" ++ repr α
def varianceId (repr : ℝ → String) (v : ℝ) : String := "variance-" ++ repr v

variable {Key : Type} [MeasurableSpace Key]

/-- A random number which is almost surely finite, whose expectation is the mutual information of `P`, and whose variance is
that of the pointwise mutual information divided by the number of points. -/
def IsEstimate (κ : Measure Key) (f : Key → EReal) (size : ℕ) {dx dy : ℕ} (P : Measure ((Fin dx → ℝ) × (Fin dy → ℝ))) : Prop :=
  ∃ v : Key → ℝ, (∀ᵐ k ∂κ, f k = (v k : EReal)) ∧ ∫ k, v k ∂κ = (mutualInfo P).toReal ∧
    ∃ i : (Fin dx → ℝ) × (Fin dy → ℝ) → ℝ, MemLp i 2 P ∧
      (P = (P.fst.prod P.snd).withDensity fun z => ENNReal.ofReal (Real.exp (i z))) ∧
      ProbabilityTheory.variance v κ = ProbabilityTheory.variance i P / size

end BMI.Outliers
