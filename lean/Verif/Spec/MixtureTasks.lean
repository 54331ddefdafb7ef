import Verif.Model.MixtureTasks
import Verif.Spec.Bmm
import Verif.Spec.NormalTasks
import Verif.Spec.Transforms
import Verif.Lemmas.MixtureMI
import Mathlib.Probability.Moments.Variance

/-!
Specification of the mixture tasks: what it means that a wrapper stands for a joint law, and the laws of the tasks.
-/

namespace BMI.MixtureTasks

open MeasureTheory ProbabilityTheory BMI.Samplers BMI.Bmm BMI.Student

variable {Key : Type} [MeasurableSpace Key]

/-- Arrays of independent draws from `P`; fewer than one point raise `ValueError`. -/
def Draws (R : JaxRandom Key) (κ : Measure Key) (sample : ℕ → Rng Key → Except Err (Arr × Arr)) {dx dy : ℕ}
    (P : Measure ((Fin dx → ℝ) × (Fin dy → ℝ))) : Prop :=
  (∀ rng, sample 0 rng = .error .valueError) ∧
  ∀ n : ℕ, 0 < n → ∃ draw : Key → Fin n → (Fin dx → ℝ) × (Fin dy → ℝ), Measurable draw ∧
    κ.map draw = Measure.pi (fun _ => P) ∧ ∀ rng, sample n rng
      = .ok (rowsOf fun i => (draw (castToRng R rng) i).1, rowsOf fun i => (draw (castToRng R rng) i).2)

/-- The wrapper `s` stands for the joint law `P`: it draws from `P`, the mutual information of `P` is finite, and with a key
`k` in the place of the seed, `mutual_information()` returns an unbiased estimate of it, whose variance is that of the
pointwise mutual information divided by `size`. -/
structure Wraps (R : JaxRandom Key) (κ : Measure Key) (s : BmmSampler Key) {dx dy : ℕ} (size : ℕ)
    (P : Measure ((Fin dx → ℝ) × (Fin dy → ℝ))) : Prop where
  prob : IsProbabilityMeasure P
  dimX : s.dist.dimX = dx
  dimY : s.dist.dimY = dy
  seed : s.seed = .seed 0
  draws : Draws R κ (fun n => s.sample R n) P
  finite : mutualInfo P ≠ ⊤
  number : ∃ v : Key → ℝ, (∀ᵐ k ∂κ, ({ s with seed := .key k }.mutualInformation R).1 = .ok (v k : EReal)) ∧
    ∫ k, v k ∂κ = (mutualInfo P).toReal ∧ ∃ i : (Fin dx → ℝ) × (Fin dy → ℝ) → ℝ,
      MemLp i 2 P ∧ (P = (P.fst.prod P.snd).withDensity fun z => ENNReal.ofReal (Real.exp (i z))) ∧
      Var[v; κ] = Var[i; P] / size

/-- The sampler `t` is `base` with variables transformed one to one: it draws from the law `Q`, which has the mutual
information of `P`, and returns the number of `base`. -/
structure Bends (R : JaxRandom Key) (κ : Measure Key) (t : Sampler Key) (base : BmmSampler Key) {dx dy : ℕ}
    (P Q : Measure ((Fin dx → ℝ) × (Fin dy → ℝ))) : Prop where
  dimX : t.dimX = .ok dx
  dimY : t.dimY = .ok dy
  draws : Draws R κ t.sample Q
  same : mutualInfo Q = mutualInfo P
  number : ∃ v, (base.mutualInformation R).1 = .ok v ∧ t.mi = v.toReal

/-- The law of the two parts of a normal vector. -/
noncomputable def component (dx dy : ℕ) (mean : Fin (dx + dy) → ℝ) (cov : Matrix (Fin (dx + dy)) (Fin (dx + dy)) ℝ) :
    Measure ((Fin dx → ℝ) × (Fin dy → ℝ)) := (normalLaw mean cov).map (halves dx dy)

/-- The X distribution: with equal probabilities, standard normal variables with correlation `-ρ` or `ρ`. -/
noncomputable def lawX (ρ : ℝ) : Measure ((Fin 1 → ℝ) × (Fin 1 → ℝ)) :=
  mixtureLaw ![1 / 2, 1 / 2] fun j : Fin 2 => component 1 1 0 (!![1, ![-ρ, ρ] j; ![-ρ, ρ] j, 1])

/-- The centres, the variances and the correlation of the strokes of the AI distribution: the stem and the two serifs of
the I, the bar and the two legs of the A. -/
noncomputable def strokes : Fin 6 → (ℝ × ℝ) × (ℝ × ℝ) × ℝ :=
  ![((1, 0), (1 / 100, 1 / 5), 0),
    ((1, 1), (1 / 20, 1 / 1000), 0),
    ((1, -1), (1 / 20, 1 / 1000), 0),
    ((-4 / 5, -1 / 5), (3 / 100, 1 / 1000), 0),
    ((-6 / 5, 0), (1 / 25, 1 / 5), 19 / 20),
    ((-2 / 5, 0), (1 / 25, 1 / 5), -(19 / 20))]

/-- The AI distribution: one of six strokes, with equal probabilities. -/
noncomputable def lawAi : Measure ((Fin 1 → ℝ) × (Fin 1 → ℝ)) :=
  mixtureLaw (fun _ => 1 / 6) fun j : Fin 6 =>
    let s := strokes j
    let c := s.2.2 * √(s.2.1.1 * s.2.1.2)
    component 1 1 ![s.1.1, s.1.2] !![s.2.1.1, c; c, s.2.1.2]

/-- Two balls: with equal probabilities, a standard normal vector around `±(d/2, d/2, d/2)`. -/
noncomputable def lawBalls (d : ℝ) : Measure ((Fin 2 → ℝ) × (Fin 1 → ℝ)) :=
  mixtureLaw ![1 / 2, 1 / 2] fun j : Fin 2 => component 2 1 (fun _ => ![-(d / 2), d / 2] j) 1

/-- The Galaxy distribution: `X` is turned by an angle proportional to `‖X‖²`. -/
noncomputable def lawGalaxy (speed d : ℝ) : Measure ((Fin 2 → ℝ) × (Fin 1 → ℝ)) :=
  (lawBalls d).map (Prod.map (fun x => turn 0 1 (speed * (x 0 ^ 2 + x 1 ^ 2)) x) id)

/-- The distribution under the Waves distribution: `n` normal components, the `j`-th around `(3j/2, 0)` and
`3 (j mod 4) / 2`. -/
noncomputable def lawColumns (n : ℕ) : Measure ((Fin 2 → ℝ) × (Fin 1 → ℝ)) :=
  mixtureLaw (fun _ => 1 / (n : ℝ)) fun j : Fin n =>
    component 2 1 ![3 / 2 * (j : ℕ), 0, 3 / 2 * ((j : ℕ) % 4 : ℕ)] (Matrix.diagonal ![1 / 10, 1, 1 / 10])

/-- The Waves distribution. -/
noncomputable def lawWaves (n : ℕ) (amplitude frequency : ℝ) : Measure ((Fin 2 → ℝ) × (Fin 1 → ℝ)) :=
  (lawColumns n).map (Prod.map
    (fun x => ![(x 0 + amplitude * Real.sin (frequency * x 1)) / 10 - 4 / 5, x 1 / 2]) id)

/-- Concentric normal distributions: with equal probabilities, `X` has independent entries of standard deviation `i` and
`Y` is close to `i`, where `i = 1, ..., n`. -/
noncomputable def lawConcentric (d n : ℕ) : Measure ((Fin d → ℝ) × (Fin 1 → ℝ)) :=
  mixtureLaw (fun _ => 1 / (n : ℝ)) fun j : Fin n =>
    component d 1 (Fin.append 0 fun _ => ((j : ℕ) : ℝ) + 1)
      (Matrix.diagonal (Fin.append (fun _ => (((j : ℕ) : ℝ) + 1) ^ 2) fun _ => 1 / 10000))

/-- The signal of the sparse task with inliers: `k` pairs of variables with correlation `λ² / (1 + λ²)`. -/
noncomputable def lawSignal (dx dy k : ℕ) (strength : ℝ) : Measure ((Fin dx → ℝ) × (Fin dy → ℝ)) :=
  component dx dy 0 (pairs dx dy k (strength ^ 2 / (1 + strength ^ 2)))

/-- The signal, mixed with independent variables with the same marginals. -/
noncomputable def lawInliers (dx dy k : ℕ) (strength ε : ℝ) : Measure ((Fin dx → ℝ) × (Fin dy → ℝ)) :=
  mixtureLaw ![1 - ε, ε] ![lawSignal dx dy k strength,
    (lawSignal dx dy k strength).fst.prod (lawSignal dx dy k strength).snd]

end BMI.MixtureTasks
