import Verif.Model.CompareFigure

/-! Specification of the figure which compares the mixture model with other estimators. -/

namespace BMI.CompareFigure

open BMI.Training (Fl)
open BMI.Run (Dict)
open BMI.Workflow (Line)
open BMI.GmmBenchmark (Row)

/-- The heights of the dots of estimator `i` out of `n`: increasing, and at least `eps` inside of the strip from `i / n` to
`(i + 1) / n`; more than one dot are spread evenly around the middle of the strip. -/
structure InStrip (n i : ℕ) (eps : ℝ) (ys : List ℝ) : Prop where
  inside : ∀ y ∈ ys, (i : ℝ) / n + eps ≤ y ∧ y ≤ ((i : ℝ) + 1) / n - eps
  increasing : ys.Pairwise (· < ·)
  middle : ys.length ≠ 1 → ys.sum = ys.length * (((i : ℝ) + 1 / 2) / n)

variable {V P Q : Type}

/-- What the panel of a task should show: the true mutual information; for each run of the mixture model a bar over its interval with a
dot at its mean; and the estimates of KSG and InfoNCE. -/
structure IsPanel (v2 : List (Line ℝ (Fl ℝ) V P)) (bmm : List (Row Q)) (t : String × (ℝ × ℝ)) (p : Panel) : Prop where
  xlim : p.xlim = t.2
  line : ∀ v, (∀ l ∈ v2, l.result.taskId = t.1 → l.miTrue = .num v) → p.line = .num v
  bars : List.Forall₂ (fun (r : Row Q) (b : Bar) => b.x = r.summary.mean ∧ b.left = r.summary.qLow ∧ b.right = r.summary.qHigh)
    (bmm.filter fun r => r.taskId = t.1) p.bars
  heights : InStrip 3 0 (3 / 25) (p.bars.map Bar.y)
  ksg : ∃ d, p.dots.get "KSG-10" = some d ∧ InStrip 3 1 (3 / 25) (d.map Prod.snd) ∧
    d.map Prod.fst = (v2.filter fun l => l.result.taskId = t.1 ∧ l.result.estimatorId = "KSG-10" ∧ l.result.nSamples = 5000).map fun l => l.result.mi
  infonce : ∃ d, p.dots.get "InfoNCE" = some d ∧ InStrip 3 2 (3 / 25) (d.map Prod.snd) ∧
    d.map Prod.fst = (v2.filter fun l => l.result.taskId = t.1 ∧ l.result.estimatorId = "InfoNCE" ∧ l.result.nSamples = 5000).map fun l => l.result.mi

end BMI.CompareFigure
