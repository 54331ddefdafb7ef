import Verif.Model.Fitting
import Verif.Props.Gmm
import Verif.Spec.Gallery
import Verif.Spec.Samplers

/-! Specification of the example distributions and of the figures with fitted mixtures. -/

namespace BMI.Fitting

open MeasureTheory BMI.Samplers BMI.Bmm BMI.Student BMI.MixtureTasks BMI.Gmm BMI.Gallery BMI.Workflow

variable {Key : Type} [MeasurableSpace Key]

/-- The function makes, for every generator of random numbers, an example: its distribution `J` stands for the law `P`, and its sampler
draws from the law of `(f X, Y)`, where `f` is injective, with the draws that `J` makes from the same key.  The mean of the profile has
the mutual information as its expectation, and so has the number that the sampler reports, which is the estimate from `size` points. -/
structure IsExample (κ : Measure Key) (create : JaxRandom Key → Except Err (ExampleDistribution Key)) (size : ℕ) {dx dy : ℕ}
    (f : (Fin dx → ℝ) → Fin dx → ℝ) (P : Measure ((Fin dx → ℝ) × (Fin dy → ℝ))) (J : JointDistribution Key) : Prop where
  prob : IsProbabilityMeasure P
  finite : mutualInfo P ≠ ⊤
  same : mutualInfo (P.map (Prod.map f id)) = mutualInfo P
  dimX : J.dimX = dx
  dimY : J.dimY = dy
  created : ∀ R, ∃ E, create R = .ok E ∧ E.dist = J ∧ E.sampler.dimX = .ok dx ∧ E.sampler.dimY = .ok dy ∧
    ∀ rng, E.sampler.sample 0 rng = .error .valueError
  draws : ∀ n : ℕ, 0 < n → ∃ z : Key → Fin n → (Fin dx → ℝ) × (Fin dy → ℝ), MeasurePreserving z κ (Measure.pi fun _ => P) ∧
    (∀ k, J.sample n k = .ok (rowsOf fun i => (z k i).1, rowsOf fun i => (z k i).2)) ∧
    ∀ R E, create R = .ok E → ∀ rng, E.sampler.sample n rng
      = .ok (rowsOf fun i => f (z (castToRng R rng) i).1, rowsOf fun i => (z (castToRng R rng) i).2)
  profile : ∀ n : ℕ, 0 < n → ∃ p : Key → List EReal, (∀ k, pmiProfile k J n = .ok (p k)) ∧ IsProfile κ n P p ∧
    MeanIs κ p (mutualInfo P).toReal
  number : ∃ v : Key → ℝ, Integrable v κ ∧ ∫ k, v k ∂κ = (mutualInfo P).toReal ∧
    ∀ R E, create R = .ok E → E.sampler.mi = v (R.prngKey 0)
  stands : Consistent κ J Set.univ Set.univ P
  estimate : ∀ R E, create R = .ok E → ∃ e, monteCarloMiEstimate (R.prngKey 0) J size = .ok ((E.sampler.mi : EReal), e)

/-- The X distribution, with variances `3/10`. -/
noncomputable def smallX : Measure ((Fin 1 → ℝ) × (Fin 1 → ℝ)) :=
  mixtureLaw ![1 / 2, 1 / 2] fun j : Fin 2 =>
    component 1 1 0 ((3 / 10 : ℝ) • !![1, ![-(9 / 10), 9 / 10] j; ![-(9 / 10), 9 / 10] j, 1])

/-- Turning by half of the squared norm, then shrinking. -/
noncomputable def swirl (x : Fin 2 → ℝ) : Fin 2 → ℝ := (3 / 10 : ℝ) • turn 0 1 (1 / 2 * (x 0 ^ 2 + x 1 ^ 2)) x

/-- Bending columns to waves, then shrinking. -/
noncomputable def ripple (x : Fin 2 → ℝ) : Fin 2 → ℝ := ![(x 0 + 5 * Real.sin (3 * x 1)) / 10 - 4 / 5, x 1 / 2]

/-- The path of a figure. -/
def plotPath (name : String) (n K : ℕ) : List Char :=
  "plots/".toList ++ (name.toList ++ ('-' :: (intStr n ++ ('-' :: (intStr K ++ ".pdf".toList)))))

/-- The prior: a symmetric Dirichlet distribution with total concentration one, normal means with standard deviation 3, scales with
the half-Cauchy distribution, uniform correlation matrices. -/
noncomputable def thePrior (K d : ℕ) : Prior where
  concentration := List.replicate K (1 / (K : ℝ))
  dim := d
  meanScale := 3
  tauScale := 1
  lkjConc := 1
  jitter := 1 / 1000000

/-- Points with one number and one number. -/
noncomputable def inPlane {n : ℕ} (x : Fin n → Fin 1 → ℝ) (y : Fin n → Fin 1 → ℝ) : List ((ℝ × ℝ) × Option ℝ) :=
  List.ofFn fun i => ((x i 0, y i 0), none)

/-- Points with two numbers and one number, which is the colour. -/
noncomputable def coloured {n : ℕ} (x : Fin n → Fin 2 → ℝ) (y : Fin n → Fin 1 → ℝ) : List ((ℝ × ℝ) × Option ℝ) :=
  List.ofFn fun i => ((x i 0, x i 1), some (y i 0))

/-- The figure for `n` points `(f X, Y)`, where `(X, Y)` is from the law `P`, and `K` components.  If the library returns, for these
points and the prior, 800 samples in the support of the prior, the figure shows
the points; `n` points from the mixture of the first sample; for every sample the profile of its mixture, at 100000 points, and the
mean of the profile, an unbiased estimate of the mutual information of the mixture; and the same for `P`. -/
def Shows (κ : Measure Key) (nuts : Nuts Key) (T : Tfp Key) (name : String) (n K : ℕ) {dx : ℕ}
    (shown : (Fin n → Fin dx → ℝ) → (Fin n → Fin 1 → ℝ) → List ((ℝ × ℝ) × Option ℝ))
    (f : (Fin dx → ℝ) → Fin dx → ℝ) (P : Measure ((Fin dx → ℝ) × (Fin 1 → ℝ))) (range : ℝ × ℝ) : Prop :=
  ∃ (z : Key → Fin n → (Fin dx → ℝ) × (Fin 1 → ℝ)) (p : Key → List EReal)
    (q : Latent (thePrior K (dx + 1)).concentration.length (dx + 1) → Key → List EReal)
    (w : Latent (thePrior K (dx + 1)).concentration.length (dx + 1) → Key → Fin n → (Fin dx → ℝ) × (Fin 1 → ℝ)),
    MeasurePreserving z κ (Measure.pi fun _ => P) ∧ IsProfile κ 100000 P p ∧ MeanIs κ p (mutualInfo P).toReal ∧
    (∀ l, l.Supported → mutualInfo (l.law (1 / 1000000) dx 1) ≠ ⊤ ∧ IsProfile κ 100000 (l.law (1 / 1000000) dx 1) (q l) ∧
      MeanIs κ (q l) (mutualInfo (l.law (1 / 1000000) dx 1)).toReal ∧
      MeasurePreserving (w l) κ (Measure.pi fun _ => l.law (1 / 1000000) dx 1)) ∧
    ∀ (R : JaxRandom Key) (latents : List (Latent (thePrior K (dx + 1)).concentration.length (dx + 1))),
      nuts (R.prngKey 1024) (thePrior K (dx + 1))
        (List.ofFn fun i => List.ofFn (f (z (R.prngKey 0) i).1) ++ List.ofFn (z (R.prngKey 0) i).2) 800 2000 = .ok latents →
      latents.length = 800 → (∀ l ∈ latents, l.Supported) →
      ∃ (F : Figure) (l₀ : Latent (thePrior K (dx + 1)).concentration.length (dx + 1)), latents.head? = some l₀ ∧
        plotPdf nuts R T (plotPath name n K) = .ok F ∧
        F.truePoints = shown (fun i => f (z (R.prngKey 0) i).1) (fun i => (z (R.prngKey 0) i).2) ∧
        F.approxPoints = shown (fun i => (w l₀ (R.prngKey 2048) i).1) (fun i => (w l₀ (R.prngKey 2048) i).2) ∧
        F.profiles = latents.map (fun l => q l (R.prngKey 2048)) ∧
        F.posterior = latents.map (fun l => Bmm.mean (q l (R.prngKey 2048))) ∧
        F.posteriorMean = Bmm.mean (latents.map fun l => Bmm.mean (q l (R.prngKey 2048))) ∧
        F.trueProfile = p (R.prngKey 2048) ∧ F.trueMi = Bmm.mean (p (R.prngKey 2048)) ∧ F.range = range

end BMI.Fitting
