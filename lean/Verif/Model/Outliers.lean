import Verif.Model.Bmm
import Verif.Model.MatrixUtils
import Verif.Model.Workflow

/-!
Model of the contamination experiment (/repo/workflows/projects/Mixtures/outliers.smk): its distributions, its tasks, the
ground truth made by the Monte Carlo rules, and the choice of the rows for each panel of the figure.

Numbers are real; `repr` is the text of a number in an f-string or made by `expand`, and `parse` is `float` of a wildcard.
A task is represented by its sampler and its number in `task_params`.  Snakemake is as in Workflow.lean.
-/

namespace BMI.Outliers

open BMI.Samplers BMI.Bmm BMI.MatrixUtils BMI.Workflow
open BMI.Run (Dict)

variable {Key : Type}

/-- `dist_signal_gauss` (/repo/workflows/projects/Mixtures/outliers.smk:43-50). -/
noncomputable def signal (R : JaxRandom Key) (T : Tfp Key) : Except Err (JointDistribution Key) := do
  let parametrization ← sparseLVM 2 2 2 0.1 2.0 1 none
  let covMatrix ← parametrization.correlation
  multivariateNormalDistribution R T 2 2 (rowsOf covMatrix) none

/-- `v * jnp.eye(n)` (/repo/workflows/projects/Mixtures/outliers.smk:52,59,95). -/
def scaledEye (n : ℕ) (v : ℝ) : Arr := rowsOf fun i j : Fin n => if i = j then v else 0

/-- `dist_gaussian_inlier`, `dist_gaussian_outlier` and `dist_noise_variance`
(/repo/workflows/projects/Mixtures/outliers.smk:52-63,91-97). -/
noncomputable def noise (T : Tfp Key) (sig : JointDistribution Key) (v : ℝ) : Except Err (JointDistribution Key) :=
  productDistribution T sig.distX
    (constructNormal T sig.dimY (List.replicate sig.dimY 0) (scaledEye sig.dimY v))

/-- `ChangeMixingSetup` (/repo/workflows/projects/Mixtures/outliers.smk:27-30). -/
structure Setup (Key : Type) where
  distTrue : JointDistribution Key
  distNoise : JointDistribution Key

/-- `ChangeMixingSetup.mixture` (/repo/workflows/projects/Mixtures/outliers.smk:32-41). -/
noncomputable def Setup.mixture (T : Tfp Key) (s : Setup Key) (alpha : ℝ) : Except Err (JointDistribution Key) :=
  Bmm.mixture T [1.0 - alpha, alpha] [s.distTrue, s.distNoise]

/-- `CHANGE_MIXING_SETUPS` (/repo/workflows/projects/Mixtures/outliers.smk:43-68). -/
noncomputable def setups (R : JaxRandom Key) (T : Tfp Key) : Except Err (Dict (Setup Key)) := do
  let sig ← signal R T
  let inlier ← noise T sig 1
  let outlier ← noise T sig 25
  .ok [("Gauss-Inlier", ⟨sig, inlier⟩), ("Gauss-Outlier", ⟨sig, outlier⟩)]

/-- `VARIANCES` (/repo/workflows/projects/Mixtures/outliers.smk:71): powers of two, whose exponents are `np.arange(-7, -2, 1)`,
`np.arange(-2, 4, 0.5)` and `np.arange(4, 8, 1)`. -/
noncomputable def variances : List ℝ :=
  ((List.range 5).map (fun i : ℕ => (-7 : ℝ) + i) ++ (List.range 12).map (fun i : ℕ => (-2 : ℝ) + i * 0.5)
    ++ (List.range 4).map fun i : ℕ => (4 : ℝ) + i).map fun e => (2 : ℝ) ^ e

/-- `ALPHAS` (/repo/workflows/projects/Mixtures/outliers.smk:72). -/
def alphas : List ℝ := [0.001, 0.01, 0.05, 0.1, 0.15, 0.2, 0.3, 0.4, 0.5]

/-- `MIXING_TASKS` (/repo/workflows/projects/Mixtures/outliers.smk:74-85); the two loops are written as one. -/
noncomputable def mixingTasks (repr : ℝ → String) (R : JaxRandom Key) (T : Tfp Key) :
    Except Err (Dict (BmmSampler Key × ℝ)) := do
  let ss ← setups R T
  (ss.flatMap fun s => alphas.map fun alpha => (s, alpha)).foldlM (fun d c => do
    let dist ← c.1.2.mixture T c.2
    let sampler ← bmmSampler dist none (.seed 0) 100000
    .ok (d.set ("mixing-" ++ c.1.1 ++ "-" ++ repr c.2) (sampler, c.2))) []

/-- `VARIANCE_TASKS` (/repo/workflows/projects/Mixtures/outliers.smk:88-111), with `VARIANCE_MIXING = 0.2`. -/
noncomputable def varianceTasks (repr : ℝ → String) (R : JaxRandom Key) (T : Tfp Key) :
    Except Err (Dict (BmmSampler Key × ℝ)) := do
  let sig ← signal R T
  variances.foldlM (fun d variance => do
    let distNoise ← noise T sig variance
    let dist ← Bmm.mixture T [1.0 - 0.2, 0.2] [sig, distNoise]
    let sampler ← bmmSampler dist none (.seed 0) 100000
    .ok (d.set ("variance-" ++ repr variance) (sampler, variance))) []

/-- `UNSCALED_TASKS` (/repo/workflows/projects/Mixtures/outliers.smk:113). -/
noncomputable def unscaledTasks (repr : ℝ → String) (R : JaxRandom Key) (T : Tfp Key) :
    Except Err (Dict (BmmSampler Key × ℝ)) := do
  let mixing ← mixingTasks repr R T
  let variance ← varianceTasks repr R T
  .ok (mixing.update variance)

open Classical in
/-- `df["task_id"].str.contains(text)` (/repo/workflows/projects/Mixtures/outliers.smk:215,223,231), for texts in which no
character has a special meaning in regular expressions. -/
noncomputable def contains (text taskId : String) : Bool := decide (text.toList <:+: taskId.toList)

/-- The rows of one panel (/repo/workflows/projects/Mixtures/outliers.smk:215,223,231). -/
noncomputable def panel {W : Type} (text : String) (rows : List (String × W)) : List (String × W) :=
  rows.filter fun r => contains text r.1

/-- The numbers of the dotted line of the third panel (/repo/workflows/projects/Mixtures/outliers.smk:232), made by the
lookup of the tasks by name. -/
noncomputable def varianceLine (repr : ℝ → String) (R : JaxRandom Key) (tasks : Dict (BmmSampler Key × ℝ)) :
    Except Err (List EReal) :=
  variances.mapM fun v =>
    match tasks.get ("variance-" ++ repr v) with
    | none => .error .keyError
    | some t => (t.1.mutualInformation R).1

/-! ## Ground truth -/

/-- `"{setup}/_mixed_ground_truth/seeds/{mixing}-{seed}.json"`
(/repo/workflows/projects/Mixtures/outliers.smk:254,280). -/
def seedPat : List Tok :=
  [.wild, .lit "/_mixed_ground_truth/seeds/".toList, .wild, .lit "-".toList, .wild, .lit ".json".toList]

/-- `"{setup}/_mixed_ground_truth/summaries/{mixing}.json"` (/repo/workflows/projects/Mixtures/outliers.smk:203,204,253). -/
def summaryPat : List Tok :=
  [.wild, .lit "/_mixed_ground_truth/summaries/".toList, .wild, .lit ".json".toList]

/-- Rule `estimate_mi_mixed_one_seed` (/repo/workflows/projects/Mixtures/outliers.smk:277-297): the fields `mi` and `mixing`
of the file made for a path. -/
noncomputable def oneSeed (parse : List Char → Option ℝ) (R : JaxRandom Key) (T : Tfp Key) (path : List Char) :
    Except Fail (EReal × ℝ) :=
  match matchPat seedPat path with
  | some [name, mixing, seed] => do
    let ss ← lift (setups R T)
    let setup ← orRaise .keyError (ss.get (String.ofList name))
    let alpha ← orRaise .valueError (parse mixing)
    let dist ← lift (setup.mixture T alpha)
    let seed ← orRaise .valueError (pyInt seed)
    let r ← lift (monteCarloMiEstimate (R.prngKey seed) dist 100000)
    .ok (r.1, alpha)
  | _ => .error .noRule

/-- Rule `estimate_mi_mixed_all_seeds` (/repo/workflows/projects/Mixtures/outliers.smk:252-275), with `SEEDS = list(range(10))`
(line 136): the fields `mi_mean` and `mixing` of the file made for a path. -/
noncomputable def allSeeds (parse : List Char → Option ℝ) (R : JaxRandom Key) (T : Tfp Key) (path : List Char) :
    Except Fail (EReal × ℝ) :=
  match matchPat summaryPat path with
  | some [name, mixing] => do
    let estimates ← (List.range 10).mapM fun seed : ℕ => oneSeed parse R T (fill seedPat [name, mixing, intStr seed])
    let alpha ← orRaise .valueError (parse mixing)
    .ok (Bmm.mean (estimates.map Prod.fst), alpha)
  | _ => .error .noRule

/-- The points of the dotted line of the first two panels: the files are those of the nine levels
(/repo/workflows/projects/Mixtures/outliers.smk:203-204), put in the order of the levels (lines 179-198). -/
noncomputable def groundTruth (repr : ℝ → String) (parse : List Char → Option ℝ) (R : JaxRandom Key) (T : Tfp Key)
    (name : String) : Except Fail (List (EReal × ℝ)) := do
  let points ← alphas.mapM fun alpha => allSeeds parse R T (fill summaryPat [name.toList, (repr alpha).toList])
  .ok (points.mergeSort fun p q => decide (p.2 ≤ q.2))

end BMI.Outliers
