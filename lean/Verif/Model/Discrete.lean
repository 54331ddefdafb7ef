import Verif.Model.Bmm
import Verif.Model.MatrixUtils

/-!
Model of the example with a binary variable (/repo/workflows/projects/Mixtures/figure_discrete_continuous.smk).  Of the figure the
points with their colours, the numbers in the histogram and the range of the axis are kept.
-/

namespace BMI.Discrete

open BMI.Samplers BMI.Bmm BMI.MatrixUtils

variable {Key : Type}

/-- `construct_bernoulli` (/repo/workflows/projects/Mixtures/figure_discrete_continuous.smk:24-31).  `tfd.Bernoulli` compares uniform
numbers with the probability; its `log_prob` is affine in the event, whether or not it is a bit. -/
noncomputable def constructBernoulli (uniform : Key → (n : ℕ) → Fin n → ℝ) (p : ℝ) : Bmm.Dist Key where
  eventShape := [1]
  sample k n := List.ofFn fun i => [if uniform k n i < p then 1 else 0]
  logProb z := ((z.headD 0 * Real.log p + (1 - z.headD 0) * Real.log (1 - p) : ℝ) : EReal)

/-- `define_distribution` (/repo/workflows/projects/Mixtures/figure_discrete_continuous.smk:34-67). -/
noncomputable def defineDistribution (T : Tfp Key) (uniform : Key → (n : ℕ) → Fin n → ℝ) : Except Err (JointDistribution Key) := do
  let eye := (1 : Matrix (Fin 2) (Fin 2) ℝ)
  let cov ← canonicalCorrelation [0.95] 0
  let x1 := constructStudent T 2 [-1, -1] (rowsOf ((0.2 : ℝ) • eye)) 8
  let x2 := constructNormal T 2 [0, 0] (rowsOf ((0.1 : ℝ) • cov))
  let x3 := constructStudent T 2 [1, 1] (rowsOf ((0.2 : ℝ) • eye)) 5
  let y1 := constructBernoulli uniform 0.95
  let y2 := constructBernoulli uniform 0.5
  let y3 := constructBernoulli uniform 0.05
  let components ← (List.zip [x1, x2, x3] [y1, y2, y3]).mapM fun d => productDistribution T d.1 d.2
  let connectProb : ℝ := 0.5
  let bulkProb : ℝ := 0.5 * (1 - connectProb)
  mixture T [bulkProb, connectProb, bulkProb] components

/-- Rule `estimate_mi` (/repo/workflows/projects/Mixtures/figure_discrete_continuous.smk:75-81): the estimate and its standard error. -/
noncomputable def estimateMi (R : JaxRandom Key) (T : Tfp Key) (uniform : Key → (n : ℕ) → Fin n → ℝ) : Except Err (EReal × ℝ) := do
  let dist ← defineDistribution T uniform
  monteCarloMiEstimate (R.prngKey 121) dist 1000000

/-- Rule `sample_joint` (/repo/workflows/projects/Mixtures/figure_discrete_continuous.smk:83-88). -/
noncomputable def sampleJoint (R : JaxRandom Key) (T : Tfp Key) (uniform : Key → (n : ℕ) → Fin n → ℝ) : Except Err (Arr × Arr) := do
  let dist ← defineDistribution T uniform
  dist.sample 1000 (R.prngKey 1000)

/-- Rule `sample_pmi` (/repo/workflows/projects/Mixtures/figure_discrete_continuous.smk:90-95). -/
noncomputable def samplePmi (R : JaxRandom Key) (T : Tfp Key) (uniform : Key → (n : ℕ) → Fin n → ℝ) : Except Err (List EReal) := do
  let dist ← defineDistribution T uniform
  pmiProfile (R.prngKey 101) dist 1000000

/-- What the figure shows (/repo/workflows/projects/Mixtures/figure_discrete_continuous.smk:98-130): points with two coordinates and
their colours, the numbers in the histogram, and the range of its axis. -/
structure Figure where
  points : List ((ℝ × ℝ) × String)
  histogram : List EReal
  range : ℝ × ℝ

/-- Rule `plot_figure` (/repo/workflows/projects/Mixtures/figure_discrete_continuous.smk:98-130).  `ys.ravel()` lists all entries. -/
noncomputable def plotFigure (samples : Arr × Arr) (pmis : List EReal) : Figure :=
  let colors := samples.2.flatten.map fun y => if y < 0.5 then "blue" else "orange"
  { points := List.zip (samples.1.map fun x => (x.getD 0 0, x.getD 1 0)) colors
    histogram := pmis
    range := (-3, 1) }

end BMI.Discrete
