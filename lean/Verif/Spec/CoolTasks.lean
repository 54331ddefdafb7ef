import Verif.Model.CoolTasks
import Verif.Spec.Fitting

/-! Specification of the workflow which shows the example distributions. -/

namespace BMI.CoolTasks

open MeasureTheory BMI.Samplers BMI.Fitting
open BMI.Training (Fl)
open BMI.Run (Outcome)

variable {Key V W : Type} [MeasurableSpace Key]

/-- Draws of `n` points, for each `n`. -/
abbrev Draws (Key : Type) (dx : ℕ) : Type := (n : ℕ) → Key → Fin n → (Fin dx → ℝ) × (Fin 1 → ℝ)

/-- The draws `z` are from the law `P`; `f` does not change the mutual information of `P`; the number `v` has it as its expectation. -/
structure Stands (κ : Measure Key) {dx : ℕ} (f : (Fin dx → ℝ) → Fin dx → ℝ) (P : Measure ((Fin dx → ℝ) × (Fin 1 → ℝ))) (v : Key → ℝ)
    (z : Draws Key dx) : Prop where
  prob : IsProbabilityMeasure P
  finite : mutualInfo P ≠ ⊤
  same : mutualInfo (P.map (Prod.map f id)) = mutualInfo P
  draws : ∀ n, 0 < n → MeasurePreserving (z n) κ (Measure.pi fun _ => P)
  integrable : Integrable v κ
  number : ∫ k, v k ∂κ = (mutualInfo P).toReal

/-- The sampler reports the number of the key of seed 0, and samples the draws, with `f` applied to `X`. -/
structure Samples (R : JaxRandom Key) {dx : ℕ} (f : (Fin dx → ℝ) → Fin dx → ℝ) (v : Key → ℝ) (z : Draws Key dx) (s : Sampler Key) : Prop where
  dimX : s.dimX = .ok dx
  dimY : s.dimY = .ok 1
  mi : s.mi = v (R.prngKey 0)
  sample : ∀ n, 0 < n → ∀ seed : ℤ, s.sample n (.seed seed)
    = .ok (rowsOf fun i => f (z n (R.prngKey seed) i).1, rowsOf fun i => (z n (R.prngKey seed) i).2)

/-- The columns of `w` are those of `v`, shifted to have sum zero, and divided by the standard deviation unless it is below `10 eps`. -/
structure Standardised (eps : ℝ) {n d : ℕ} (v w : Fin n → Fin d → ℝ) : Prop where
  affine : ∃ a b : Fin d → ℝ, (∀ j, 0 < a j) ∧ ∀ i j, w i j = a j * v i j + b j
  centred : ∀ j, ∑ i, w i j = 0
  unit : ∀ j, n * (10 * eps) ^ 2 ≤ ∑ i, (v i j - (∑ i', v i' j) / n) ^ 2 → (∑ i, (w i j) ^ 2) / n = 1
  constant : ∀ j, ∑ i, (v i j - (∑ i', v i' j) / n) ^ 2 < n * (10 * eps) ^ 2 → ∀ i, w i j = v i j - (∑ i', v i' j) / n

/-- The task under the name `i`: its number is that of the sampler, and its samples are the standardised ones. -/
structure IsTask (R : JaxRandom Key) (eps : ℝ) (i : String) {dx : ℕ} (f : (Fin dx → ℝ) → Fin dx → ℝ) (v : Key → ℝ) (z : Draws Key dx)
    (t : String × Task.Task ℝ ℝ (String × W)) : Prop where
  key : t.1 = i
  id : t.2.id = .ok i
  name : t.2.name = .ok i
  dimX : t.2.dimX = .ok dx
  dimY : t.2.dimY = .ok 1
  mi : t.2.mi = .ok (.num (v (R.prngKey 0)))
  sample : ∀ n, 0 < n → ∀ seed : ℤ, ∃ w u, t.2.sample n seed = .ok (.mat n dx w, .mat n 1 u) ∧
    Standardised eps (fun i => f (z n (R.prngKey seed) i).1) w ∧ Standardised eps (fun i => (z n (R.prngKey seed) i).2) u

/-- The height that belongs to what an estimator did: its estimate, if that is a number, and none if it raised. -/
def Shown (o : Outcome (Fl ℝ) V) (h : Option ℝ) : Prop :=
  (∀ res, o = .ret res → ∀ a, h = some a ↔ res.mi = .num a) ∧ ∀ msg out, o = .exc msg out → h = none

/-- The ten points of an estimator over the `k`-th task: at `k`, up to a twentieth of the noise, and at the height of its estimate for the
standardised sample of 5000 points. -/
def Column (R : JaxRandom Key) (E : World V) (eps : ℝ) (e : String) (noise : ℕ → ℝ) (k : ℕ) {dx : ℕ}
    (f : (Fin dx → ℝ) → Fin dx → ℝ) (z : Draws Key dx) (points : List (ℝ × Option ℝ)) : Prop :=
  ∀ s : ℕ, s < 10 → ∃ h w u, points[10 * k + s]? = some ((k : ℝ) + noise (10 * k + s) / 20, h) ∧
    Standardised eps (fun i => f (z 5000 (R.prngKey s) i).1) w ∧ Standardised eps (fun i => (z 5000 (R.prngKey s) i).2) u ∧
    Shown (E.est e (List.ofFn fun i => List.ofFn fun j => E.csv (w i j)) (List.ofFn fun i => List.ofFn fun j => E.csv (u i j))) h

/-- The legend, in the order of the estimators' identifiers. -/
def legend : List (String × String × String × String) :=
  [("CCA", "CCA", "X", "#a65628"), ("Hist-10", "Histogram", "D", "#f781bf"), ("InfoNCE", "InfoNCE", "v", "#ff7f00"),
   ("KSG-10", "KSG", "^", "#4daf4a"), ("MINE", "MINE", "o", "#377eb8")]

/-- Everything is right with what has been loaded. -/
structure IsLoaded (R : JaxRandom Key) (eps : ℝ) (v : Fin 4 → Key → ℝ) (zx za : Draws Key 1) (zw zg : Draws Key 2) (L : Loaded Key W) :
    Prop where
  x : Samples R id (v 0) zx L.x
  ai : Samples R id (v 1) za L.ai
  waves : Samples R ripple (v 2) zw L.waves
  galaxy : Samples R swirl (v 3) zg L.galaxy
  tasks : ∃ a b c d, L.tasks = [a, b, c, d] ∧ IsTask R eps "X" id (v 0) zx a ∧ IsTask R eps "AI" id (v 1) za b ∧
    IsTask R eps "Fence" ripple (v 2) zw c ∧ IsTask R eps "Balls" swirl (v 3) zg d

/-- The estimators do not kill the interpreter, and their results can be written. -/
structure Usable (E : World V) : Prop where
  alive : ∀ e ∈ estimators, ∀ x y, E.est e x y ≠ .abort
  yaml : ∀ d, ∃ d', E.yaml d = .ok d'

/-- What the figure with the results should show: the legend in the order of the identifiers; for each estimator ten points over each of the
tasks; dotted lines at the numbers that the tasks report. -/
structure IsResults (R : JaxRandom Key) (E : World V) (eps : ℝ) (noise : ℕ → ℕ → ℝ) (v : Fin 4 → Key → ℝ) (zx za : Draws Key 1)
    (zw zg : Draws Key 2) (f : Figure) : Prop where
  clouds : List.Forall₂ (fun q c => (c.label, c.marker, c.colour) = q.1.2 ∧ c.points.length = 40 ∧
    Column R E eps q.1.1 (noise q.2) 0 id zx c.points ∧ Column R E eps q.1.1 (noise q.2) 1 id za c.points ∧
    Column R E eps q.1.1 (noise q.2) 2 ripple zw c.points ∧ Column R E eps q.1.1 (noise q.2) 3 swirl zg c.points) legend.zipIdx f.clouds
  truths : f.truths.map (fun d => (d.left, d.right, d.height)) = [(4 / 5, 6 / 5, some (v 1 (R.prngKey 0))), (14 / 5, 16 / 5, some (v 3 (R.prngKey 0))),
    (9 / 5, 11 / 5, some (v 2 (R.prngKey 0))), (-(1 / 5), 1 / 5, some (v 0 (R.prngKey 0)))]
  ticks : f.ticks = [(0, "X"), (1, "AI"), (2, "Waves"), (3, "Galaxy")]
  limits : f.limits = (-(1 / 10), 7 / 5)

end BMI.CoolTasks
