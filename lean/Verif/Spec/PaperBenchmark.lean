import Verif.Model.PaperBenchmark
import Verif.Props.FigureTables
import Verif.Props.Registry

/-!
Specification of the benchmark workflows of the paper: which tasks they use, which runs count, and what each cell of a figure says.
-/

namespace BMI.Paper

open BMI.Registry BMI.TaskIds BMI.FigureTables
open BMI.Tables (average)

/-- What stands in front of the identifiers of preprocessed tasks. -/
def Prep.inFront : Prep → List Char
  | .rescaled => []
  | .gaussianised => ['g', 'a', 'u', 's', 's', 'i', 'a', 'n', 'i', 's', 'e', '-']
  | .uniformised => ['u', 'n', 'i', 'f', 'o', 'r', 'm', 'i', 's', 'e', '-']

/-- What stands in front of the names of preprocessed tasks. -/
def Prep.heading : Prep → List Char
  | .rescaled => []
  | .gaussianised => ['G', 'a', 'u', 's', 's', 'i', 'a', 'n', 'i', 's', 'e', ' ', '@', ' ']
  | .uniformised => ['U', 'n', 'i', 'f', 'o', 'r', 'm', 'i', 's', 'e', ' ', '@', ' ']

/-- The key, name and mutual information that a task of the benchmark should have after preprocessing. -/
noncomputable def wanted (p : Prep) (e : Entry) : TaskInfo :=
  ⟨String.ofList (p.inFront ++ e.call.id regFormat), String.ofList (p.heading ++ e.name), (factOf e).2.2⟩

/-- What preprocessing does to an array of samples. -/
noncomputable def Prep.apply (L : Scaling.Lib) : Prep → SampleIO.NdArr ℝ → Except Err (SampleIO.NdArr ℝ)
  | .rescaled => Scaling.rescale L.eps
  | .gaussianised => Scaling.quantileTransform L 100 .normal 0
  | .uniformised => Scaling.quantileTransform L 100 .uniform 0

/-- The tasks `es` are those which the workflow asks for, in this order. -/
def Covers (c : Setup) (es : List Entry) : Prop :=
  match c.chosen with
  | none => es = entries
  | some ids => es.map (fun e => e.call.id regFormat) = ids ∧ es.Nodup ∧ ∀ e ∈ es, e ∈ entries

/-- The estimators with a trained critic. -/
def Kind.Trained : Kind → Prop
  | .mine _ | .infoNce _ | .nwj _ | .donsker _ => True
  | .ksg _ | .rKsg .. | .rBnsl _ | .rLnn .. | .juliaHist _ | .juliaKernel _ | .juliaTransfer _ | .juliaKsg .. | .cca => False

/-- The estimator with this key has a trained critic. -/
def IsTrained (c : Setup) (e : String) : Prop := ∃ x ∈ c.ests, String.ofList x.1 = e ∧ x.2.Trained

/-- A run has failed: the estimator has a trained critic, and the estimate is negative or less than a tenth of the estimate for
another seed. -/
def Failed (c : Setup) (run : String → String → ℕ → ℤ → Option ℝ) (e t : String) (n : ℕ) (s : ℤ) : Prop :=
  IsTrained c e ∧ ∃ v, run e t n s = some v ∧ (v < 0 ∨ ∃ s' ∈ c.seeds, ∃ w, run e t n s' = some w ∧ v < w / 10)

open Classical in
/-- The seeds of the runs that have not failed. -/
noncomputable def usable (c : Setup) (run : String → String → ℕ → ℤ → Option ℝ) (e t : String) (n : ℕ) : List ℤ :=
  c.seeds.filter fun s => ¬ Failed c run e t n s

/-- The estimates of the runs that have not failed, without NaN. -/
noncomputable def estimatesOf (c : Setup) (run : String → String → ℕ → ℤ → Option ℝ) (e t : String) (n : ℕ) : List ℝ :=
  (usable c run e t n).filterMap (run e t n)

open Classical in
/-- The estimates are good: none is exactly zero, some are positive, and the geometric mean of the positive ones is within a factor
3/2 of the truth. -/
def GoodAt (c : Setup) (run : String → String → ℕ → ℤ → Option ℝ) (τ : ℝ) (e t : String) (n : ℕ) : Prop :=
  let pos := (estimatesOf c run e t n).filter fun v => 0 < v
  0 ∉ estimatesOf c run e t n ∧ pos ≠ [] ∧ |(pos.map fun v => Real.log (v / τ)).sum / pos.length| < Real.log (3 / 2)

/-- The numbers of samples with a run that has not failed. -/
def Tested (c : Setup) (run : String → String → ℕ → ℤ → Option ℝ) (e t : String) : Set ℕ :=
  {n | n ∈ c.ns ∧ usable c run e t n ≠ []}

/-- What a cell of the figure with the numbers of samples should say: nothing if there are no runs to show; the smallest number of
samples from which on the estimates are good; or that there is none up to the largest number of samples `N`. -/
structure CellSays (c : Setup) (run : String → String → ℕ → ℤ → Option ℝ) (τ : ℝ) (N : ℕ) (e t : String) (text : String) :
    Prop where
  empty : Tested c run e t = ∅ → text = ""
  number : ∀ n, IsLeast {k | k ∈ Tested c run e t ∧ ∀ m ∈ Tested c run e t, k ≤ m → GoodAt c run τ e t m} n →
    text = if n < 1000 then toString n else toString (n / 1000) ++ "k"
  more : ∀ m, IsGreatest (Tested c run e t) m → ¬ GoodAt c run τ e t m → text = ">" ++ toString (N / 1000) ++ "k"

/-- A usable configuration: different keys of estimators, each with a name to show; seeds and numbers of samples. -/
structure Sound (c : Setup) (N : ℕ) : Prop where
  nodup : (c.ests.map Prod.fst).Nodup
  named : ∀ e ∈ c.ests, (nameOf c (String.ofList e.1)).isSome
  seeds : c.seeds ≠ []
  largest : IsGreatest {n | n ∈ c.ns} N
  sizes : c.ns.Nodup

/-- The name shown for an estimator. -/
def shownName (c : Setup) (e : String) : String := (nameOf c e).getD ""

end BMI.Paper
