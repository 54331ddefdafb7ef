import Verif.Model.Registry
import Verif.Spec.Samplers
import Verif.Spec.IdealRandom
import Verif.Spec.Student
import Verif.Spec.NormalTasks
import Verif.Spec.Transforms
import Verif.Lemmas.StudentMI

/-!
Specification of the benchmark tasks: the law of each task, written down explicitly; its mutual information in closed form; and
what it means for a task to be honest.
-/

namespace BMI.Registry

open MeasureTheory ProbabilityTheory BMI.Samplers BMI.Student BMI.TaskIds Matrix

/-- A sampler is honest about the law `p`: it has the dimensions of `p`; sampling with one of the seeds `ok` is sampling with the
state made from the seed; for each of the numbers of points `sizes` a random state gives independent draws of `p`; and the reported
number is the mutual information of `p`. -/
structure Honest {K : Type} [MeasurableSpace K] (κ : Measure K) (init : ℤ → K) (ok : Set ℤ) (sizes : Set ℕ) (s : Sampler K)
    (p : Part) : Prop where
  prob : IsProbabilityMeasure p.law
  posX : 0 < p.dx
  posY : 0 < p.dy
  dimX : s.dimX = .ok p.dx
  dimY : s.dimY = .ok p.dy
  seeds : ∀ n, ∀ z ∈ ok, s.sample n (.seed z) = s.sample n (.key (init z))
  law : ∀ n ∈ sizes, ∃ draw : K → Fin n → (Fin p.dx → ℝ) × (Fin p.dy → ℝ), Measurable draw ∧
    (∀ k, s.sample n (.key k) = .ok (rowsOf fun i => (draw k i).1, rowsOf fun i => (draw k i).2)) ∧
    κ.map draw = Measure.pi fun _ => p.law
  nonneg : 0 ≤ s.mi
  mi : mutualInfo p.law = ENNReal.ofReal s.mi

/-- An honest task.  Samplers based on `jax.random` can be used with any seed and any number of points.  Those based on NumPy need
seeds of 32 bits and cannot draw a single point. -/
def HonestTask {Key State : Type} [MeasurableSpace Key] [MeasurableSpace State] (R : JaxRandom Key) (κ : Measure Key)
    (N : NpRandom State) (μ : Measure State) (p : Part) : Built Key State → Prop
  | .jax s => Honest κ R.prngKey Set.univ Set.univ s p
  | .np s => Honest μ N.randomState (Set.Ico 0 (2 ^ 32)) {n | n ≠ 1} s p

/-! ## Laws -/

/-- Every coordinate of X is mapped by `f` and every coordinate of Y by `g`. -/
noncomputable def each (f g : ℝ → ℝ) (p : Part) : Part :=
  ⟨p.dx, p.dy, p.law.map (Prod.map (fun x i => f (x i)) fun y i => g (y i))⟩

/-- The point of the Swiss roll at `x`. -/
noncomputable def rollPoint (x : ℝ) : ℝ × ℝ :=
  (3 / 2 * Real.pi * (1 + 2 * x) * Real.cos (3 / 2 * Real.pi * (1 + 2 * x)) / 21,
    3 / 2 * Real.pi * (1 + 2 * x) * Real.sin (3 / 2 * Real.pi * (1 + 2 * x)) / 21)

/-- The only coordinate of X is replaced by the two coordinates of a point of the Swiss roll. -/
noncomputable def rolled (p : Part) : Part :=
  ⟨p.dx + 1, p.dy,
    p.law.map (Prod.map (fun x i => if i = 0 then (rollPoint (∑ j, x j)).1 else (rollPoint (∑ j, x j)).2) id)⟩

/-- The coordinates with numbers `i` and `j` are turned by an angle proportional to the squared norm. -/
noncomputable def whirl {n : ℕ} (i j : ℕ) (speed : ℝ) (x : Fin n → ℝ) : Fin n → ℝ :=
  if h : i < n ∧ j < n then turn ⟨i, h.1⟩ ⟨j, h.2⟩ (speed * sumSq x) x else x

/-- The first two coordinates of X and the second and third coordinate of Y are turned. -/
noncomputable def whirled (speed : ℝ) (normalize : Bool) (p : Part) : Part :=
  ⟨p.dx, p.dy, p.law.map (Prod.map (whirl 0 1 (if normalize then speed / p.dx else speed))
    (whirl 1 2 (if normalize then speed / p.dy else speed)))⟩

/-- The generator of the rotations turning the coordinate with number `i` towards the one with number `j`. -/
def gen (n i j : ℕ) : Matrix (Fin n) (Fin n) ℝ := Matrix.of fun a b =>
  if (a : ℕ) = j ∧ (b : ℕ) = i then 1 else if (a : ℕ) = i ∧ (b : ℕ) = j then -1 else 0

/-- X and Y are multiplied by the rotations of the rotate task. -/
noncomputable def rotated (p : Part) : Part :=
  ⟨p.dx, p.dy, p.law.map (Prod.map
    (fun x => x ᵥ* NormedSpace.exp ((2 : ℝ) • gen p.dx 0 1 - gen p.dx 1 2 - gen p.dx 0 2))
    fun y => y ᵥ* NormedSpace.exp (gen p.dy 0 1 + (2 : ℝ) • gen p.dy 1 2))⟩

/-- The law a task claims to sample from.  There is none for the tasks which are not treated here. -/
noncomputable def lawOf {F : Type} (val : F → ℝ) : Call F → Part
  | .additive ε => ⟨1, 1, ((uniformLaw 0 1).prod (uniformLaw (-val ε) (val ε))).map fun z =>
      (fun _ => z.1, fun _ => z.1 + z.2)⟩
  | .binormal ρ => ⟨1, 1, (normalLaw 0 !![1, val ρ; val ρ, 1]).map fun z => (fun _ => z 0, fun _ => z 1)⟩
  | .dense dx dy off => ⟨dx, dy, (normalLaw 0 (equicorrelation (dx + dy) (val off))).map (halves dx dy)⟩
  | .sparse dx dy n s => ⟨dx, dy, (normalLaw 0 (pairs dx dy n (val s ^ 2 / (1 + val s ^ 2)))).map (halves dx dy)⟩
  | .studentIdentity dx dy df => ⟨dx, dy, (studentLaw 0 1 df).map (halves dx dy)⟩
  | .studentDense dx dy df off => ⟨dx, dy, (studentLaw 0 (equicorrelation (dx + dy) (val off)) df).map (halves dx dy)⟩
  | .studentSparse dx dy df n s =>
      ⟨dx, dy, (studentLaw 0 (pairs dx dy n (val s ^ 2 / (1 + val s ^ 2))) df).map (halves dx dy)⟩
  | .asinh t => each Real.arsinh Real.arsinh (lawOf val t)
  | .halfCube t => each (fun v => v * √|v|) (fun v => v * √|v|) (lawOf val t)
  | .normalCdf t => each (cdf (gaussianReal 0 1)) (cdf (gaussianReal 0 1)) (lawOf val t)
  | .wiggly t => each (fun x => x + 2 / 5 * Real.sin x + 1 / 5 * Real.sin (17 / 10 * x + 1)
        + 3 / 100 * Real.sin (33 / 10 * x - 5 / 2))
      (fun y => y - 2 / 5 * Real.sin (2 / 5 * y) + 17 / 100 * Real.sin (13 / 10 * y + 7 / 2)
        + 1 / 50 * Real.sin (43 / 10 * y - 5 / 2)) (lawOf val t)
  | .rotate t => rotated (lawOf val t)
  | .swissroll t => rolled (lawOf val t)
  | .power t α => each (fun v => SignType.sign v * |v| ^ val α) (fun v => SignType.sign v * |v| ^ val α) (lawOf val t)
  | .spiral t speed normalize => whirled (val speed) normalize (lawOf val t)
  | _ => ⟨0, 0, 0⟩

/-- The mutual information of a task, in closed form: that of the task at the bottom of the tower of transforms. -/
noncomputable def numberOf {F : Type} (val : F → ℝ) : Call F → ℝ
  | .additive ε => if val ε > 1 / 2 then 1 / (4 * val ε) else val ε - Real.log (2 * val ε)
  | .binormal ρ => -(1 / 2 * Real.log (1 - val ρ ^ 2))
  | .dense dx dy off => 1 / 2 * Real.log ((1 + (dx - 1) * val off) * (1 + (dy - 1) * val off)
      / ((1 - val off) * (1 + (dx + dy - 1) * val off)))
  | .sparse _ _ n s => -(n / 2 * Real.log (1 - (val s ^ 2 / (1 + val s ^ 2)) ^ 2))
  | .studentIdentity dx dy df => studentEntropy dx df + studentEntropy dy df - studentEntropy (dx + dy) df
  | .studentDense dx dy df off => 1 / 2 * Real.log ((1 + (dx - 1) * val off) * (1 + (dy - 1) * val off)
      / ((1 - val off) * (1 + (dx + dy - 1) * val off)))
      + (studentEntropy dx df + studentEntropy dy df - studentEntropy (dx + dy) df)
  | .studentSparse dx dy df n s => -(n / 2 * Real.log (1 - (val s ^ 2 / (1 + val s ^ 2)) ^ 2))
      + (studentEntropy dx df + studentEntropy dy df - studentEntropy (dx + dy) df)
  | .asinh t | .halfCube t | .normalCdf t | .wiggly t | .rotate t | .swissroll t | .power t _ | .spiral t _ _ => numberOf val t
  | _ => 0

/-- The calls treated here: parameters in the range where the law exists, dimensions large enough for the rotations, and the Swiss
roll only over a one-dimensional X in the unit interval. -/
def Valid {F : Type} (val : F → ℝ) : Call F → Prop
  | .additive ε => 0 < val ε
  | .binormal ρ => -1 < val ρ ∧ val ρ < 1
  | .dense dx dy off => 0 < dx ∧ 0 < dy ∧ -1 < ((dx + dy : ℕ) - 1 : ℝ) * val off ∧ val off < 1
  | .sparse dx dy n _ => 0 < dx ∧ 0 < dy ∧ n ≤ dx ∧ n ≤ dy
  | .studentIdentity dx dy df => 0 < dx ∧ 0 < dy ∧ 0 < df
  | .studentDense dx dy df off => 0 < dx ∧ 0 < dy ∧ -1 < ((dx + dy : ℕ) - 1 : ℝ) * val off ∧ val off < 1 ∧ 0 < df
  | .studentSparse dx dy df n _ => 0 < dx ∧ 0 < dy ∧ n ≤ dx ∧ n ≤ dy ∧ 0 < df
  | .asinh t | .halfCube t | .normalCdf t | .wiggly t => Valid val t
  | .rotate t => Valid val t ∧ 3 ≤ (lawOf val t).dx ∧ 3 ≤ (lawOf val t).dy
  | .swissroll t => Valid val t ∧ (lawOf val t).dx = 1 ∧ ∀ᵐ z ∂(lawOf val t).law, ∀ i, z.1 i ∈ Set.Icc (0 : ℝ) 1
  | .power t α => Valid val t ∧ 0 < val α
  | .spiral t _ _ => Valid val t ∧ 2 ≤ (lawOf val t).dx ∧ 3 ≤ (lawOf val t).dy
  | _ => False

/-- The dimensions of X and of Y and the advertised mutual information of the forty tasks of the benchmark, in order. -/
noncomputable def facts : List (ℕ × ℕ × ℝ) :=
  [(1, 1, 1 / 2 * Real.log (16 / 7)), (1, 1, 1 / 2 * Real.log (16 / 7)), (1, 1, 1 / 10 + Real.log 5), (1, 1, 1 / 3),
    (1, 1, 1 / 2 * Real.log (16 / 7)), (1, 1, 1 / 2 * Real.log (16 / 7)), (1, 1, 1 / 2 * Real.log (16 / 7)),
    (1, 1, Real.log (8 * Real.pi) - 3), (1, 1, Real.log (8 * Real.pi) - 3),
    (2, 1, 1 / 2 * Real.log (16 / 7)),
    (2, 2, 1 / 2 * Real.log (9 / 5)), (3, 3, 1 / 2 * Real.log (16 / 7)), (5, 5, 1 / 2 * Real.log (36 / 11)),
    (25, 25, 1 / 2 * Real.log (676 / 51)), (50, 50, 1 / 2 * Real.log (2601 / 101)),
    (2, 2, Real.log (25 / 9)), (3, 3, Real.log (25 / 9)), (5, 5, Real.log (25 / 9)), (25, 25, Real.log (25 / 9)),
    (2, 2, Real.log 3 - 2 / 3), (2, 2, Real.log 2 - 1 / 2), (3, 3, 6 - Real.log (96 * Real.pi)),
    (3, 3, Real.log (3360 * Real.pi) - 318 / 35), (5, 5, 233 / 30 - Real.log (480 * Real.pi)),
    (5, 5, Real.log (147840 * Real.pi) - 44179 / 3465),
    (3, 3, Real.log (25 / 9)), (5, 5, Real.log (25 / 9)), (25, 25, Real.log (25 / 9)),
    (3, 3, Real.log (25 / 9)), (5, 5, Real.log (25 / 9)), (25, 25, Real.log (25 / 9)),
    (3, 3, Real.log (25 / 9)), (5, 5, Real.log (25 / 9)), (25, 25, Real.log (25 / 9)),
    (3, 3, Real.log (25 / 9)), (5, 5, Real.log (25 / 9)), (25, 25, Real.log (25 / 9)),
    (2, 2, Real.log 3 - 2 / 3), (3, 3, 6 - Real.log (96 * Real.pi)), (5, 5, 233 / 30 - Real.log (480 * Real.pi))]

/-- The task advertises more than the mutual information of the law it samples from. -/
def Overstated {Key State : Type} [MeasurableSpace Key] (R : JaxRandom Key) (κ : Measure Key) (b : Built Key State) : Prop :=
  ∃ s, b = .jax s ∧ SeedsAreKeys R s ∧ ∃ Q : Measure ((Fin 1 → ℝ) × (Fin 1 → ℝ)), IsProbabilityMeasure Q ∧ HasLaw κ s Q ∧
    mutualInfo Q < ENNReal.ofReal s.mi

end BMI.Registry
