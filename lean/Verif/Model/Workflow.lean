import Verif.Model.Task
import Verif.Model.RunEstimator
import Verif.Model.TaskIds

/-!
Model of the benchmark workflow (/repo/workflows/benchmark/_common_benchmark_rules.smk and the configurations
/repo/workflows/benchmark/v1/config.py, v2/config.py, demo/config.py).  The rules of
/repo/workflows/projects/Beyond_Normal/_core_rules.smk are the same apart from the column `task_name`.

What is assumed of Snakemake: the files to be made are those produced by `expand`; the rule that makes a file is the one
whose output pattern matches the path, where a pattern is a regular expression in which a wildcard is the greedy `.+`;
jobs run with freshly loaded configurations, so they share no state; if a job fails, nothing depending on it is made.  Files
of earlier runs are not modelled.
-/

namespace BMI.Workflow

open BMI.Training (Fl)
open BMI.Task (Task)
open BMI.Run (Dict RunResult Outcome Ended runEstimator)
open BMI.SampleIO (Csv readSample)

/-- A piece of a path pattern (/repo/workflows/benchmark/_common_benchmark_rules.smk:36,57,68,69): literal text or a
wildcard. -/
inductive Tok where
  | lit (s : List Char)
  | wild

/-- Text followed by something: the rest after the text, part of matching the patterns
(/repo/workflows/benchmark/_common_benchmark_rules.smk:57,68). -/
def stripPrefix : List Char → List Char → Option (List Char)
  | [], s => some s
  | _ :: _, [] => none
  | c :: l, d :: s => if c = d then stripPrefix l s else none

/-- The greedy `.+`: the longest admissible prefix of at most `k` characters, without line break, after which the rest
matches (wildcards, /repo/workflows/benchmark/_common_benchmark_rules.smk:57,68). -/
def tryWild (rest : List Char → Option (List (List Char))) (s : List Char) : ℕ → Option (List (List Char))
  | 0 => none
  | k + 1 =>
    match rest (s.drop (k + 1)) with
    | some vs => if '\n' ∈ s.take (k + 1) then tryWild rest s k else some (s.take (k + 1) :: vs)
    | none => tryWild rest s k

/-- How Snakemake finds the wildcards of a path (output patterns,
/repo/workflows/benchmark/_common_benchmark_rules.smk:57,68). -/
def matchPat : List Tok → List Char → Option (List (List Char))
  | [], s => if s = [] then some [] else none
  | .lit l :: p, s => (stripPrefix l s).bind (matchPat p)
  | .wild :: p, s => tryWild (matchPat p) s s.length

/-- A pattern with its wildcards filled in (input pattern, /repo/workflows/benchmark/_common_benchmark_rules.smk:69, and
`expand`, lines 35-41). -/
def fill : List Tok → List (List Char) → List Char
  | [], _ => []
  | .lit l :: p, vs => l ++ fill p vs
  | .wild :: _, [] => []
  | .wild :: p, v :: vs => v ++ fill p vs

/-- `'results/{estimator_id}/{task_id}/{n_samples}-{seed}.yaml'`
(/repo/workflows/benchmark/_common_benchmark_rules.smk:36,68). -/
def resultPat : List Tok :=
  [.lit ['r', 'e', 's', 'u', 'l', 't', 's', '/'], .wild, .lit ['/'], .wild, .lit ['/'], .wild, .lit ['-'], .wild,
   .lit ['.', 'y', 'a', 'm', 'l']]

/-- `'tasks/{task_id}/{n_samples}-{seed}.csv'` (/repo/workflows/benchmark/_common_benchmark_rules.smk:57,69). -/
def samplePat : List Tok :=
  [.lit ['t', 'a', 's', 'k', 's', '/'], .wild, .lit ['/'], .wild, .lit ['-'], .wild, .lit ['.', 'c', 's', 'v']]

/-- `str` of an integer, used by `expand` (/repo/workflows/benchmark/_common_benchmark_rules.smk:35-41). -/
def intStr : ℤ → List Char
  | .ofNat n => Nat.toDigits 10 n
  | .negSucc n => '-' :: Nat.toDigits 10 (n + 1)

/-- Digits as a number, if there is at least one and nothing else (part of `int`,
/repo/workflows/benchmark/_common_benchmark_rules.smk:60,61,74). -/
def digitsVal (s : List Char) : Option ℕ :=
  if s ≠ [] ∧ s.all Char.isDigit then some (Nat.ofDigitChars 10 s 0) else none

/-- `int(wildcards.seed)` (/repo/workflows/benchmark/_common_benchmark_rules.smk:61,74); `none` is the `ValueError`.
Blanks, underscores and plus signs, which Python accepts too, are left out. -/
def pyInt : List Char → Option ℤ
  | '-' :: s => (digitsVal s).map fun n => -(n : ℤ)
  | s => (digitsVal s).map fun n => (n : ℤ)

/-- `int(wildcards.n_samples)` (/repo/workflows/benchmark/_common_benchmark_rules.smk:60).  Simplification: a negative
number is refused here and not by the sampler. -/
def pyNat (s : List Char) : Option ℕ := digitsVal s

/-- How a job fails (/repo/workflows/benchmark/_common_benchmark_rules.smk:42-53,58-63,70-86): an exception, a terminated
interpreter, or no rule for a file. -/
inductive Fail where
  | raised (e : Err)
  | aborted
  | noRule

/-- A value of `ESTIMATORS_DICT` (/repo/workflows/benchmark/v1/config.py:25-43) as `run_estimator` sees it. A path is a name
together with the contents of the file. -/
structure Est (F V C : Type) where
  external : Bool
  onPath : List Char × Csv C → Outcome F V
  onData : List (List C) → List (List C) → Outcome F V

/-- The configuration (/repo/workflows/benchmark/v1/config.py:25-43,104-124) and the surroundings: NaN, strings as dictionary
values, cells as read back from CSV, dictionaries as read back from YAML (or the exception of the dumper), and the timer
reading of each job. -/
structure Config (α F V C P : Type) where
  estimators : Dict (Est F V C)
  tasks : List (Task α C P)
  ns : List ℕ
  seeds : List ℤ
  nan : F
  str : String → V
  csv : C → C
  yaml : Dict V → Except Err (Dict V)
  measured : List Char → F

/-- One line of results.csv (/repo/workflows/benchmark/_common_benchmark_rules.smk:46-52). -/
structure Line (α F V P : Type) where
  result : RunResult F V
  miTrue : Fl α
  taskName : String
  taskParams : List P

variable {α F V C P : Type} [LinearOrder α] [Zero α]

/-- `{task.id: task for task in TASKS}` (/repo/workflows/benchmark/_common_benchmark_rules.smk:11-13). -/
def tasksDict (ts : List (Task α C P)) : Except Err (Dict (Task α C P)) :=
  ts.foldlM (fun d t => t.id.map fun i => d.set i t) []

/-- Exceptions of a job (/repo/workflows/benchmark/_common_benchmark_rules.smk:42-53,58-63,70-86). -/
def lift {β : Type} : Except Err β → Except Fail β
  | .ok b => .ok b
  | .error e => .error (.raised e)

/-- An option with the exception that its absence stands for, such as a missing key
(/repo/workflows/benchmark/_common_benchmark_rules.smk:47,62,72). -/
def orRaise {β : Type} (e : Err) : Option β → Except Fail β
  | some b => .ok b
  | none => .error (.raised e)

/-- Rule `sample_task` (/repo/workflows/benchmark/_common_benchmark_rules.smk:56-63): the file made for a path. -/
def sampleTask (tasks : Dict (Task α C P)) (path : List Char) : Except Fail (Csv C) :=
  match matchPat samplePat path with
  | some [tid, n, s] => do
    let n ← orRaise .valueError (pyNat n)
    let seed ← orRaise .valueError (pyInt s)
    let t ← orRaise .keyError (tasks.get (String.ofList tid))
    lift (t.saveSample n seed)
  | _ => .error .noRule

/-- The two arrays without their widths, as handed to the estimator (/repo/src/bmi/benchmark/result.py:39). -/
def rowsOnly {C : Type} (p : (ℕ × List (List C)) × (ℕ × List (List C))) : List (List C) × List (List C) :=
  (p.1.2, p.2.2)

/-- `result.dump` followed by `yaml.load` (/repo/workflows/benchmark/_common_benchmark_rules.smk:86,46); only the additional
information can fail to be written or change (see C45 for the dumper). -/
def viaYaml (cfg : Config α F V C P) (r : RunResult F V) : Except Fail (RunResult F V) :=
  (lift (cfg.yaml r.info)).map fun d => { r with info := d }

/-- Rule `apply_estimator` (/repo/workflows/benchmark/_common_benchmark_rules.smk:67-86): the contents of the file made for a
path, as read back. -/
def applyEstimator (cfg : Config α F V C P) (tasks : Dict (Task α C P)) (path : List Char) :
    Except Fail (RunResult F V) :=
  match matchPat resultPat path with
  | some [e, tid, n, s] => do
    let input := fill samplePat [tid, n, s]
    let file ← sampleTask tasks input
    let est ← orRaise .keyError (cfg.estimators.get (String.ofList e))
    let seed ← orRaise .valueError (pyInt s)
    match (runEstimator cfg.nan cfg.str est.external est.onPath est.onData (cfg.measured path) (String.ofList e)
        (input, file) ((readSample cfg.csv file).map rowsOnly) (String.ofList tid) (some seed) none).1 with
    | .result r => viaYaml cfg r
    | .raised e => .error (.raised e)
    | .aborted => .error .aborted
  | _ => .error .noRule

/-- `expand` (/repo/workflows/benchmark/_common_benchmark_rules.smk:35-41): the product of the lists in this order. -/
def expand (es ts : List String) (ns : List ℕ) (seeds : List ℤ) : List (List Char) :=
  es.flatMap fun e => ts.flatMap fun t => ns.flatMap fun (n : ℕ) => seeds.map fun s =>
    fill resultPat [e.toList, t.toList, intStr (n : ℤ), intStr s]

/-- Joining a result with its task (/repo/workflows/benchmark/_common_benchmark_rules.smk:47-51). -/
def join (tasks : Dict (Task α C P)) (r : RunResult F V) : Except Fail (Line α F V P) := do
  let t ← orRaise .keyError (tasks.get r.taskId)
  let mi ← lift t.mi
  let name ← lift t.name
  let params ← lift t.getParams
  .ok ⟨r, mi, name, params⟩

/-- Rule `results` (/repo/workflows/benchmark/_common_benchmark_rules.smk:32-53) together with all the jobs it depends on:
the lines of results.csv. -/
def results (cfg : Config α F V C P) : Except Fail (List (Line α F V P)) := do
  let tasks ← lift (tasksDict cfg.tasks)
  (expand (cfg.estimators.map Prod.fst) (tasks.map Prod.fst) cfg.ns cfg.seeds).mapM fun path => do
    let r ← applyEstimator cfg tasks path
    join tasks r

end BMI.Workflow
