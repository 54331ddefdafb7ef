import Verif.Model.Bmm
import Verif.Spec.Student
import Mathlib.Analysis.Normed.Module.FiniteDimension
import Mathlib.MeasureTheory.Measure.Haar.Basic
import Mathlib.Analysis.Calculus.FDeriv.Basic

/-!
Specification of Bend and Mix Models: what it means for a distribution object to stand for a law, for a triple of
distribution objects to be a joint law with its marginals, and for a bijector to be a diffeomorphism.
-/

namespace BMI.Bmm

open MeasureTheory ProbabilityTheory BMI.Samplers

variable {Key : Type} [MeasurableSpace Key]

/-- The law of an index with the given probabilities. -/
noncomputable def categoricalLaw (probs : List ℝ) : Measure ℕ :=
  ∑ j : Fin probs.length, ENNReal.ofReal probs[j] • Measure.dirac j.val

/-- What is assumed of the random numbers of TensorFlow Probability and of `jnp.linalg.cholesky`. -/
structure IdealTfp (T : Tfp Key) (κ : Measure Key) : Prop where
  prob : IsProbabilityMeasure κ
  /-- Splitting a key gives independent keys with the same law. -/
  split : ∀ m, Measurable (fun k => T.split k m) ∧ κ.map (fun k => T.split k m) = Measure.pi fun _ => κ
  /-- An index is drawn from the list. -/
  categorical_lt : ∀ k n probs i, probs ≠ [] → T.categorical k n probs i < probs.length
  /-- Independent indices with the given probabilities. -/
  categorical : ∀ n probs, (∀ p ∈ probs, 0 ≤ p) → probs.sum = 1 → Measurable (fun k => T.categorical k n probs) ∧
    κ.map (fun k => T.categorical k n probs) = Measure.pi fun _ => categoricalLaw probs
  /-- Independent standard normal entries. -/
  normal : ∀ n d, Measurable (fun k => T.normal k n d) ∧
    κ.map (fun k => T.normal k n d) = Measure.pi fun _ => Measure.pi fun _ => gaussianReal 0 1
  /-- Independent χ² entries. -/
  chi2 : ∀ n ν, 0 < ν → Measurable (fun k => T.chi2 k n ν) ∧
    κ.map (fun k => T.chi2 k n ν) = Measure.pi fun _ => chiSquared ν
  /-- The Cholesky factor. -/
  cholesky : ∀ {d : ℕ} (S : Matrix (Fin d) (Fin d) ℝ), S.PosDef →
    (∀ i j, i < j → T.cholesky S i j = 0) ∧ T.cholesky S * (T.cholesky S).transpose = S

/-- The distribution object `D` stands for the law `μ` on `Ω`, whose points are written as lists by `e`: `sample` draws
independent points, and `exp (log_prob)` is a density of `μ` with respect to the reference measure `base`. -/
structure Represents (κ : Measure Key) (D : Dist Key) (d : ℕ) {Ω : Type} [MeasurableSpace Ω] (e : Ω → List ℝ)
    (base μ : Measure Ω) : Prop where
  shape : D.eventShape = [d]
  law : ∀ n, ∃ draw : Key → Fin n → Ω, Measurable draw ∧ (∀ k, D.sample k n = List.ofFn fun i => e (draw k i)) ∧
    κ.map draw = Measure.pi fun _ => μ
  measurable : AEMeasurable (fun z => D.logProb (e z)) base
  density : μ = base.withDensity fun z => (D.logProb (e z)).exp

/-- A pair of points as one list. -/
def pairList {dx dy : ℕ} (z : (Fin dx → ℝ) × (Fin dy → ℝ)) : List ℝ := List.ofFn z.1 ++ List.ofFn z.2

/-- The object `J` stands for the joint law `P`: its three distributions stand for `P` and the marginals of `P`, with densities with
respect to the measures `bx`, `by'` and their product (such as Lebesgue measure, or counting measure on finitely many values). -/
structure ConsistentOn (κ : Measure Key) (J : JointDistribution Key) {dx dy : ℕ} (bx : Measure (Fin dx → ℝ)) (by' : Measure (Fin dy → ℝ))
    (P : Measure ((Fin dx → ℝ) × (Fin dy → ℝ))) : Prop where
  dimX : J.dimX = dx
  dimY : J.dimY = dy
  prob : IsProbabilityMeasure P
  joint : Represents κ J.distJoint (dx + dy) pairList (bx.prod by') P
  x : Represents κ J.distX dx List.ofFn bx P.fst
  y : Represents κ J.distY dy List.ofFn by' P.snd

/-- The object `J` stands for the joint law `P`, supported in `Sx × Sy`: its three distributions stand for `P` and the
marginals of `P`, and the analytic value, if there is one, is the mutual information of `P`. -/
structure Consistent (κ : Measure Key) (J : JointDistribution Key) {dx dy : ℕ} (Sx : Set (Fin dx → ℝ)) (Sy : Set (Fin dy → ℝ))
    (P : Measure ((Fin dx → ℝ) × (Fin dy → ℝ))) : Prop where
  dimX : J.dimX = dx
  dimY : J.dimY = dy
  setX : MeasurableSet Sx
  setY : MeasurableSet Sy
  prob : IsProbabilityMeasure P
  joint : Represents κ J.distJoint (dx + dy) pairList (volume.restrict (Sx ×ˢ Sy)) P
  x : Represents κ J.distX dx List.ofFn (volume.restrict Sx) P.fst
  y : Represents κ J.distY dy List.ofFn (volume.restrict Sy) P.snd
  analytic : ∀ v, J.analyticMi = some v → 0 ≤ v ∧ mutualInfo P = ENNReal.ofReal v

/-- The bijector `b` is the diffeomorphism `f` of `S` onto its image: `inverse` undoes `forward`, and
`inverse_log_det_jacobian` is minus the logarithm of the Jacobian determinant of `f`. -/
structure Diffeo (b : Bijector) {d : ℕ} (S : Set (Fin d → ℝ)) (f : (Fin d → ℝ) → Fin d → ℝ)
    (f' : (Fin d → ℝ) → (Fin d → ℝ) →L[ℝ] Fin d → ℝ) : Prop where
  measurable : Measurable f
  forward : ∀ v, b.forward (List.ofFn v) = List.ofFn (f v)
  inverse : ∀ v ∈ S, b.inverse (List.ofFn (f v)) = List.ofFn v
  deriv : ∀ v ∈ S, HasFDerivWithinAt f (f' v) S v
  det : ∀ v ∈ S, (f' v).det ≠ 0
  ildj : ∀ v ∈ S, b.ildj (List.ofFn (f v)) = -Real.log |(f' v).det|

/-- An optional bijector; no bijector is the identity. -/
def OptDiffeo (o : Option Bijector) {d : ℕ} (S : Set (Fin d → ℝ)) (f : (Fin d → ℝ) → Fin d → ℝ) : Prop :=
  (o = none ∧ f = id) ∨ ∃ b f', o = some b ∧ Diffeo b S f f'

/-- At the event `r` the bijector keeps the number of coordinates, and `inverse` undoes `forward`. -/
def Undoes (b : Bijector) (r : List ℝ) : Prop := (b.forward r).length = r.length ∧ b.inverse (b.forward r) = r

/-- The law of a point drawn from component `i` with probability `p i`. -/
noncomputable def mixtureLaw {Ω : Type} [MeasurableSpace Ω] {m : ℕ} (p : Fin m → ℝ) (μ : Fin m → Measure Ω) : Measure Ω :=
  ∑ i, ENNReal.ofReal (p i) • μ i

end BMI.Bmm
