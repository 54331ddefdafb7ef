import Verif.Spec.Profiles

/-! Specification of the profiles of five distributions. -/

namespace BMI.Gallery

open MeasureTheory BMI.Samplers BMI.Bmm BMI.Student BMI.MixtureTasks BMI.Profiles

variable {Key : Type} [MeasurableSpace Key]

/-- Every variable has variance 2, and only the first ones of the two and the three are correlated. -/
def pairMatrix : Matrix (Fin (2 + 3)) (Fin (2 + 3)) ℝ :=
  !![2, 0, 1, 0, 0; 0, 2, 0, 0, 0; 1, 0, 2, 0, 0; 0, 0, 0, 2, 0; 0, 0, 0, 0, 2]

/-- Three balls on the diagonal. -/
noncomputable def ballsLaw : Measure ((Fin 2 → ℝ) × (Fin 3 → ℝ)) :=
  mixtureLaw ![1 / 10, 2 / 5, 1 / 2] ![component 2 3 0 1, component 2 3 1 1, component 2 3 (-1) ((2 : ℝ) • 1)]

/-- The list made from the key consists of the logarithm of the density ratio at `n` independent points of the law. -/
def IsProfile (κ : Measure Key) (n : ℕ) {dx dy : ℕ} (P : Measure ((Fin dx → ℝ) × (Fin dy → ℝ))) (numbers : Key → List EReal) : Prop :=
  ∃ r : (Fin dx → ℝ) × (Fin dy → ℝ) → ℝ, IsLogRatio P r ∧ ∃ z : Key → Fin n → (Fin dx → ℝ) × (Fin dy → ℝ),
    MeasurePreserving z κ (Measure.pi fun _ => P) ∧ ∀ k, numbers k = List.ofFn fun i => ((r (z k i) : ℝ) : EReal)

/-- The mean of the list made from the key is a number with expectation `m`. -/
def MeanIs (κ : Measure Key) (numbers : Key → List EReal) (m : ℝ) : Prop :=
  ∃ v : Key → ℝ, (∀ k, Bmm.mean (numbers k) = (v k : EReal)) ∧ Integrable v κ ∧ ∫ k, v k ∂κ = m

/-- The path of a figure. -/
def profilePath (name : String) : List Char := "pmi-profile-".toList ++ (name.toList ++ ".pdf".toList)

end BMI.Gallery
