import Verif.Model.Samplers
import Verif.Spec.MutualInfo
import Mathlib.MeasureTheory.Constructions.Pi
import Mathlib.MeasureTheory.Measure.Lebesgue.Basic

/-!
Specification of samplers: shapes, seeds, laws and ground truth.

The pseudorandom generator is idealised: a key is a random object with law `κ`, and splitting a key gives
independent keys with the same law.
-/

namespace BMI.Samplers

open MeasureTheory

variable {Key : Type}

/-- Sampling with a seed is sampling with the key made from the seed. -/
def SeedsAreKeys (R : JaxRandom Key) (s : Sampler Key) : Prop :=
  ∀ n z, s.sample n (.seed z) = s.sample n (.key (R.prngKey z))

/-- The sampler advertises positive dimensions `dx`, `dy`, and sampling never fails and returns arrays of shapes
`(n, dx)` and `(n, dy)`. -/
def WellShaped (s : Sampler Key) (dx dy : ℕ) : Prop :=
  0 < dx ∧ 0 < dy ∧ s.dimX = .ok dx ∧ s.dimY = .ok dy ∧
    ∀ n rng, ∃ x y, s.sample n rng = .ok (x, y) ∧ x.length = n ∧ y.length = n ∧
      (∀ r ∈ x, r.length = dx) ∧ (∀ r ∈ y, r.length = dy)

/-- Splitting a key gives independent keys with the same law. -/
def IdealSplit [MeasurableSpace Key] (R : JaxRandom Key) (κ : Measure Key) : Prop :=
  ∀ m, Measurable (fun k => R.split k m) ∧ κ.map (fun k => R.split k m) = Measure.pi fun _ => κ

/-- `sample n` with a random key returns `n` independent pairs with law `P`. -/
def HasLaw [MeasurableSpace Key] (κ : Measure Key) (s : Sampler Key) {dx dy : ℕ}
    (P : Measure ((Fin dx → ℝ) × (Fin dy → ℝ))) : Prop :=
  ∀ n, ∃ draw : Key → Fin n → (Fin dx → ℝ) × (Fin dy → ℝ), Measurable draw ∧
    (∀ k, s.sample n (.key k) = .ok (rowsOf fun i => (draw k i).1, rowsOf fun i => (draw k i).2)) ∧
    κ.map draw = Measure.pi fun _ => P

/-- The sampler is correct: right shapes, seeds are keys, `sample` draws independent pairs from a law, and the reported
number is the mutual information of that law. -/
structure Correct [MeasurableSpace Key] (R : JaxRandom Key) (κ : Measure Key) (s : Sampler Key) (dx dy : ℕ)
    (P : Measure ((Fin dx → ℝ) × (Fin dy → ℝ))) : Prop where
  prob : IsProbabilityMeasure P
  shape : WellShaped s dx dy
  seeds : SeedsAreKeys R s
  law : HasLaw κ s P
  nonneg : 0 ≤ s.mi
  mi : mutualInfo P = ENNReal.ofReal s.mi

/-- Concatenation of the X parts and of the Y parts of two pairs. -/
def joinPair {dx dy ex ey : ℕ} (z : ((Fin dx → ℝ) × (Fin dy → ℝ)) × ((Fin ex → ℝ) × (Fin ey → ℝ))) :
    (Fin (dx + ex) → ℝ) × (Fin (dy + ey) → ℝ) :=
  (Fin.append z.1.1 z.2.1, Fin.append z.1.2 z.2.2)

/-- A joint law together with its dimensions. -/
structure Part where
  dx : ℕ
  dy : ℕ
  law : Measure ((Fin dx → ℝ) × (Fin dy → ℝ))

/-- The law of the concatenation of independent pairs. -/
noncomputable def independent : List Part → Part
  | [] => ⟨0, 0, Measure.dirac (Fin.elim0, Fin.elim0)⟩
  | p :: ps =>
    ⟨p.dx + (independent ps).dx, p.dy + (independent ps).dy, (p.law.prod (independent ps).law).map joinPair⟩

/-- The transform maps every row by `f`. -/
def Acts (t : Transform) {d e : ℕ} (f : (Fin d → ℝ) → (Fin e → ℝ)) : Prop :=
  ∀ (n : ℕ) (a : Fin n → Fin d → ℝ), t.vectorized (rowsOf a) = rowsOf fun i => f (a i)

end BMI.Samplers
