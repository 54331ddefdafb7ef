import Verif.Spec.Samplers
import Mathlib.Probability.Distributions.Exponential
import Mathlib.Probability.Distributions.Poisson.Basic
import Mathlib.Probability.Distributions.Gaussian.Multivariate

/-!
What is assumed of `jax.random`: with a random key of law `κ`, each function returns independent draws from the law its
documentation names.  `Verif/Lemmas/IdealWitness.lean` builds a generator that satisfies all of it.
-/

namespace BMI.Samplers

open MeasureTheory ProbabilityTheory

variable {Key : Type} [MeasurableSpace Key]

/-- The uniform law on `[lo, hi]`. -/
noncomputable def uniformLaw (lo hi : ℝ) : Measure ℝ :=
  ENNReal.ofReal (1 / (hi - lo)) • volume.restrict (Set.Icc lo hi)

/-- The uniform law on the integers `lo, ..., hi - 1`. -/
noncomputable def randintLaw (lo hi : ℤ) : Measure ℤ :=
  ∑ i ∈ Finset.Ico lo hi, ENNReal.ofReal (1 / (hi - lo)) • Measure.dirac i

/-- The Bernoulli law with `P(true) = p`. -/
noncomputable def bernoulliLaw (p : ℝ) : Measure Bool :=
  ENNReal.ofReal p • Measure.dirac true + ENNReal.ofReal (1 - p) • Measure.dirac false

/-- The normal law with the given mean and covariance. -/
noncomputable def normalLaw {d : ℕ} (mean : Fin d → ℝ) (cov : Matrix (Fin d) (Fin d) ℝ) : Measure (Fin d → ℝ) :=
  (multivariateGaussian (WithLp.toLp 2 mean) cov).map WithLp.ofLp

/-- `jax.random.uniform` draws independent uniform entries. -/
def IdealUniform (R : JaxRandom Key) (κ : Measure Key) : Prop :=
  ∀ n d lo hi, lo < hi → Measurable (fun k => R.uniform k n d lo hi) ∧
    κ.map (fun k => R.uniform k n d lo hi) = Measure.pi fun _ => Measure.pi fun _ => uniformLaw lo hi

/-- `jax.random.randint` draws independent uniform integers. -/
def IdealRandint (R : JaxRandom Key) (κ : Measure Key) : Prop :=
  ∀ n d lo hi, lo < hi → Measurable (fun k => R.randint k n d lo hi) ∧
    κ.map (fun k => R.randint k n d lo hi) = Measure.pi fun _ => Measure.pi fun _ => randintLaw lo hi

/-- `jax.random.exponential` draws independent exponential entries of rate one. -/
def IdealExponential (R : JaxRandom Key) (κ : Measure Key) : Prop :=
  ∀ n d, Measurable (fun k => R.exponential k n d) ∧
    κ.map (fun k => R.exponential k n d) = Measure.pi fun _ => Measure.pi fun _ => expMeasure 1

/-- `jax.random.bernoulli` draws independent Bernoulli entries. -/
def IdealBernoulli (R : JaxRandom Key) (κ : Measure Key) : Prop :=
  ∀ n d p, 0 ≤ p → p ≤ 1 → Measurable (fun k => R.bernoulli k p n d) ∧
    κ.map (fun k => R.bernoulli k p n d) = Measure.pi fun _ => Measure.pi fun _ => bernoulliLaw p

/-- `jax.random.poisson` draws independent Poisson entries with the given rates. -/
def IdealPoisson (R : JaxRandom Key) (κ : Measure Key) : Prop :=
  ∀ n d, Measurable (fun z : Key × (Fin n → Fin d → ℝ) => R.poisson z.1 n d z.2) ∧
    ∀ lam : Fin n → Fin d → ℝ, (∀ i j, 0 ≤ lam i j) →
      κ.map (fun k => R.poisson k n d lam)
        = Measure.pi fun i => Measure.pi fun j => poissonMeasure (lam i j).toNNReal

/-- `jax.random.multivariate_normal` draws independent normal rows. -/
def IdealNormal (R : JaxRandom Key) (κ : Measure Key) : Prop :=
  ∀ n d mean cov, cov.PosDef → Measurable (fun k => R.multivariateNormal k n d mean cov) ∧
    κ.map (fun k => R.multivariateNormal k n d mean cov) = Measure.pi fun _ => normalLaw mean cov

/-- All of it. -/
structure IdealRandom (R : JaxRandom Key) (κ : Measure Key) : Prop where
  prob : IsProbabilityMeasure κ
  split : IdealSplit R κ
  uniform : IdealUniform R κ
  randint : IdealRandint R κ
  exponential : IdealExponential R κ
  bernoulli : IdealBernoulli R κ
  poisson : IdealPoisson R κ
  normal : IdealNormal R κ

end BMI.Samplers
