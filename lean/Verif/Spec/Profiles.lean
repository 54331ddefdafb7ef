import Verif.Spec.MixtureTasks
import Verif.Spec.MutualInfo
import Mathlib.MeasureTheory.Constructions.Pi

/-! Specification of the figures of profiles and of the pointwise mutual information of distributions in the plane. -/

namespace BMI.Profiles

open MeasureTheory BMI.Samplers BMI.Bmm BMI.MixtureTasks

/-- The pointwise mutual information of two standard normal variables with correlation `ρ`. -/
noncomputable def normalPmi (ρ x y : ℝ) : ℝ :=
  -(1 / 2) * Real.log (1 - ρ ^ 2) + (2 * ρ * x * y - ρ ^ 2 * (x ^ 2 + y ^ 2)) / (2 * (1 - ρ ^ 2))

/-- The pointwise mutual information of two Student variables with `ν` degrees of freedom and dispersion `1`, `ρ`, `1`. -/
noncomputable def studentPmi (ν ρ x y : ℝ) : ℝ :=
  -(1 / 2) * Real.log (1 - ρ ^ 2)
    + Real.log (Real.Gamma (ν / 2)) + Real.log (Real.Gamma ((ν + 2) / 2)) - 2 * Real.log (Real.Gamma ((ν + 1) / 2))
    + (ν + 1) / 2 * (Real.log (1 + x ^ 2 / ν) + Real.log (1 + y ^ 2 / ν))
    - (ν + 2) / 2 * Real.log (1 + (x ^ 2 - 2 * ρ * x * y + y ^ 2) / (1 - ρ ^ 2) / ν)

/-- The six panels of the images and the function each of them shows. -/
noncomputable def panels : List (String × (ℝ → ℝ → ℝ)) :=
  [("Normal-0.5", normalPmi 0.5), ("Normal-0.9", normalPmi 0.9), ("Student-0.5-3", studentPmi 3 0.5),
    ("Student-0.5-5", studentPmi 5 0.5), ("Transformed-Normal-0.5", fun x y => normalPmi 0.5 (x - 3) y), ("Mixture", fun _ _ => 0)]

/-- Two standard normal variables with correlation `ρ`. -/
noncomputable def lawOfPair (ρ : ℝ) : Measure ((Fin 1 → ℝ) × (Fin 1 → ℝ)) := component 1 1 0 !![1, ρ; ρ, 1]

/-- Three strokes in the shape of the letter U: two upright ones, centred at `(-3, 0)` and `(3, 0)`, and one that lies, centred at
`(0, -3)`; the variances are `1` along the stroke and `1/5` across. -/
noncomputable def lawOfU : Measure ((Fin 1 → ℝ) × (Fin 1 → ℝ)) :=
  mixtureLaw ![1 / 3, 1 / 3, 1 / 3] ![component 1 1 ![-3, 0] !![1 / 5, 0; 0, 1], component 1 1 ![0, -3] !![1, 0; 0, 1 / 5],
    component 1 1 ![3, 0] !![1 / 5, 0; 0, 1]]

/-- `r` is a logarithm of the density of the law with respect to the product of its marginals. -/
def IsLogRatio {X Y : Type} [MeasurableSpace X] [MeasurableSpace Y] (P : Measure (X × Y)) (r : X × Y → ℝ) : Prop :=
  P = (P.fst.prod P.snd).withDensity fun z => ENNReal.ofReal (Real.exp (r z))

variable {Key : Type} [MeasurableSpace Key]

/-- The list made from the key consists of `n` independent points of the law, each with the number `r` at that point. -/
def DrawsWith (κ : Measure Key) (n : ℕ) {dx dy : ℕ} (P : Measure ((Fin dx → ℝ) × (Fin dy → ℝ)))
    (r : (Fin dx → ℝ) × (Fin dy → ℝ) → ℝ) (points : Key → List (List ℝ × List ℝ)) (numbers : Key → List EReal) : Prop :=
  ∃ z : Key → Fin n → (Fin dx → ℝ) × (Fin dy → ℝ), MeasurePreserving z κ (Measure.pi fun _ => P) ∧
    ∀ k, points k = (List.ofFn fun i => (List.ofFn (z k i).1, List.ofFn (z k i).2)) ∧
      numbers k = List.ofFn fun i => ((r (z k i) : ℝ) : EReal)

end BMI.Profiles
