import Verif.Model.GmmBenchmark

/-!
Model of the figure which compares the mixture model with other estimators
(/repo/workflows/projects/Mixtures/figure_bmm_vs_other.smk).  The two files it reads are those of the benchmark (version 2) and of the
benchmark of the mixture model, as lists of their rows; floats survive being written and read.  Of a figure the points, the error
bars, the lines, the limits of the axes and the ticks of the first panel are kept; colours, sizes and titles are left out.
-/

namespace BMI.CompareFigure

open BMI.Training (Fl)
open BMI.Run (Dict)
open BMI.Workflow (Line)
open BMI.GmmBenchmark (Row)

/-- `YScaler` (/repo/workflows/projects/Mixtures/figure_bmm_vs_other.smk:21-25). -/
structure YScaler where
  ids : List String
  eps : ℝ

open Classical in
/-- The constructor (/repo/workflows/projects/Mixtures/figure_bmm_vs_other.smk:22-25). -/
noncomputable def yScaler (ids : List String) (eps : ℝ) : Except Err YScaler :=
  if eps > 0 then .ok ⟨ids, eps⟩ else .error .assertionError

/-- `n` (/repo/workflows/projects/Mixtures/figure_bmm_vs_other.smk:27-29). -/
def YScaler.n (y : YScaler) : ℕ := y.ids.length

/-- `np.linspace` (/repo/workflows/projects/Mixtures/figure_bmm_vs_other.smk:40); a single number is the first one. -/
noncomputable def linspace (a b : ℝ) (n : ℕ) : List ℝ := (List.range n).map fun i : ℕ => a + (i : ℝ) * ((b - a) / ((n : ℝ) - 1))

/-- `get_y` (/repo/workflows/projects/Mixtures/figure_bmm_vs_other.smk:35-40). -/
noncomputable def YScaler.getY (y : YScaler) (id : String) (nPoints : ℕ) : Except Err (List ℝ) :=
  match y.ids.idxOf? id with
  | none => .error .valueError
  | some index =>
    let y0 := (index : ℝ) / y.n
    let y1 := ((index : ℝ) + 1) / y.n
    .ok (linspace (y0 + y.eps) (y1 - y.eps) nPoints)

/-- `get_tick_locations` (/repo/workflows/projects/Mixtures/figure_bmm_vs_other.smk:42-43). -/
noncomputable def YScaler.ticks (y : YScaler) : List ℝ := (List.range y.n).map fun i : ℕ => ((i : ℝ) + 0.5) / y.n

/-- `TASKS` (/repo/workflows/projects/Mixtures/figure_bmm_vs_other.smk:58-63): identifiers and limits of the horizontal axis. -/
noncomputable def tasks : Dict (ℝ × ℝ) :=
  [("1v1-AI", (0.5, 0.85)), ("mult-sparse-w-inliers-5-5-2-2.0-0.2", (0.4, 0.8)), ("5v1-concentric_gaussians-5", (0.35, 0.75)),
   ("multinormal-sparse-5-5-2-2.0", (0.65, 1.15))]

/-- `N_SAMPLES` (/repo/workflows/projects/Mixtures/figure_bmm_vs_other.smk:95). -/
def nSamples : ℕ := 5000

/-- `POINT_ESTIMATORS` (/repo/workflows/projects/Mixtures/figure_bmm_vs_other.smk:96-99): identifiers and names. -/
def pointEstimators : Dict String := [("KSG-10", "KSG"), ("InfoNCE", "InfoNCE")]

/-- An error bar with its dot (/repo/workflows/projects/Mixtures/figure_bmm_vs_other.smk:134-135). -/
structure Bar where
  x : ℝ
  y : ℝ
  left : ℝ
  right : ℝ

open Classical in
/-- `ax.errorbar` (/repo/workflows/projects/Mixtures/figure_bmm_vs_other.smk:134): a bar reaches from `x - low` to `x + high`; matplotlib
refuses negative errors (`ValueError`). -/
noncomputable def errorbar (x y low high : List ℝ) : Except Err (List Bar) :=
  if (∃ a ∈ low, a < 0) ∨ ∃ a ∈ high, a < 0 then .error .valueError
  else .ok (List.zipWith (fun (p : ℝ × ℝ) (q : ℝ × ℝ) => ⟨p.1, p.2, p.1 - q.1, p.1 + q.2⟩) (x.zip y) (low.zip high))

/-- A panel (/repo/workflows/projects/Mixtures/figure_bmm_vs_other.smk:117-144): the limits of the axes, the place of the dotted line, the
error bars, and the dots of each estimator. -/
structure Panel where
  xlim : ℝ × ℝ
  ylim : ℝ × ℝ
  line : Fl ℝ
  bars : List Bar
  dots : Dict (List (Fl ℝ × ℝ))

/-- The number, if it is one; `mean` leaves out NaN (/repo/workflows/projects/Mixtures/figure_bmm_vs_other.smk:125). -/
def number : Fl ℝ → Option ℝ
  | .nan => none
  | .num a => some a

/-- `groupby("task_id")["mi_true"].mean()[task_id]` (/repo/workflows/projects/Mixtures/figure_bmm_vs_other.smk:125). -/
noncomputable def meanOf (l : List (Fl ℝ)) : Except Err (Fl ℝ) :=
  if l.isEmpty then .error .keyError
  else match l.filterMap number with
    | [] => .ok .nan
    | a :: l => .ok (.num ((a :: l).sum / (a :: l).length))

variable {V P Q : Type}

/-- One panel (/repo/workflows/projects/Mixtures/figure_bmm_vs_other.smk:117-144). -/
noncomputable def panel (s : YScaler) (v2 : List (Line ℝ (Fl ℝ) V P)) (bmm : List (Row Q)) (t : String × (ℝ × ℝ)) : Except Err Panel := do
  let miTrue ← meanOf ((v2.filter fun l => l.result.taskId == t.1).map fun l => l.miTrue)
  let sub := bmm.filter fun r => r.taskId == t.1
  let low := sub.map fun r => r.summary.mean - r.summary.qLow
  let high := sub.map fun r => r.summary.qHigh - r.summary.mean
  let y ← s.getY "BMM" sub.length
  let bars ← errorbar (sub.map fun r => r.summary.mean) y low high
  let dots ← pointEstimators.mapM fun e => do
    let estimates := (v2.filter fun l => l.result.taskId == t.1 && l.result.estimatorId == e.1 && l.result.nSamples == nSamples).map
      fun l => l.result.mi
    let y ← s.getY e.1 estimates.length
    .ok (e.1, estimates.zip y)
  .ok ⟨t.2, (-0.05, 1.01), miTrue, bars, dots⟩

/-- Rule `generate_figure` (/repo/workflows/projects/Mixtures/figure_bmm_vs_other.smk:104-150): the panels and the ticks of the first
one. -/
noncomputable def figure (v2 : List (Line ℝ (Fl ℝ) V P)) (bmm : List (Row Q)) : Except Err (List Panel × List (ℝ × String)) := do
  let s ← yScaler ("BMM" :: pointEstimators.map Prod.fst) 0.12
  let panels ← tasks.mapM (panel s v2 bmm)
  .ok (panels, s.ticks.zip ("BMM" :: pointEstimators.map Prod.snd))

end BMI.CompareFigure
