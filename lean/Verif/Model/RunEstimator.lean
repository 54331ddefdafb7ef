import Verif.Model.Basic

/-! Model of `run_estimator` (/repo/src/bmi/benchmark/result.py:30-79). -/

namespace BMI.Run

/-- A Python `dict` with string keys as an insertion-ordered association list
(`additional_information`, /repo/src/bmi/benchmark/result.py:23 and 38). -/
abbrev Dict (V : Type) := List (String × V)

/-- `d[k]` as an option. -/
def Dict.get {V : Type} : Dict V → String → Option V
  | [], _ => none
  | (k', v) :: d, k => if k' = k then some v else Dict.get d k

/-- `d[k] = v`: overwrite in place or append. -/
def Dict.set {V : Type} : Dict V → String → V → Dict V
  | [], k, v => [(k, v)]
  | (k', v') :: d, k, v => if k' = k then (k', v) :: d else (k', v') :: Dict.set d k v

/-- `d |= e` (dict in-place union, /repo/src/bmi/benchmark/result.py:58,65,68): the entries of `e` are
assigned one after another. -/
def Dict.update {V : Type} (d e : Dict V) : Dict V := e.foldl (fun d kv => d.set kv.1 kv.2) d

/-- `EstimateResult` (/repo/src/bmi/interface.py:36-39).  `F` is the type of floats, NaN included. -/
structure EstimateResult (F V : Type) where
  mi : F
  time : Option F
  info : Dict V

/-- What calling the estimator does: return, or raise an `Exception` with message `msg` and possibly an
attribute `output` (/repo/src/bmi/benchmark/result.py:60-68). `BaseException`s that are not `Exception`s
(KeyboardInterrupt, SystemExit) are not caught there and are the case `abort`. -/
inductive Outcome (F V : Type) where
  | ret (r : EstimateResult F V)
  | exc (msg : String) (output : Option String)
  | abort

/-- `RunResult` (/repo/src/bmi/benchmark/result.py:13-23). -/
structure RunResult (F V : Type) where
  mi : F
  time : F
  success : Bool
  estimatorId : String
  taskId : String
  nSamples : Nat
  seed : Option Int
  info : Dict V

/-- How `run_estimator` ends (/repo/src/bmi/benchmark/result.py:30-79):
a result, an exception, or an uncaught `BaseException`. -/
inductive Ended (F V : Type) where
  | result (r : RunResult F V)
  | raised (e : Err)
  | aborted

/-- `run_estimator` (/repo/src/bmi/benchmark/result.py:30-79).

The environment is given by parameters: `nan`; `str : String → V` embeds strings into dictionary values;
`sample` is the outcome of `read_sample(sample_path)` as the two lists of rows (or the exception it raises,
which is outside the `try`); `external` is `isinstance(estimator, ExternalEstimator)`; `onPath` and `onData`
are the estimator called with the path or with the data; `measured` is the timer reading.

Besides the way the function ends, the model returns the contents of the caller's dictionary object
afterwards: line 38, `additional_information or {}`, *aliases* a non-empty dictionary of the caller, so
that `|=` (lines 58, 65, 68) writes into it; for `None` and for an empty dictionary a fresh one is made.
Simplification: pydantic validation of `RunResult` is assumed to succeed. -/
def runEstimator {F V Row Path : Type} (nan : F) (str : String → V)
    (external : Bool) (onPath : Path → Outcome F V) (onData : List Row → List Row → Outcome F V)
    (measured : F)
    (estimatorId : String) (path : Path) (sample : Except Err (List Row × List Row))
    (taskId : String) (seed : Option Int) (callerInfo : Option (Dict V)) :
    Ended F V × Option (Dict V) :=
  -- line 38
  let aliased : Bool := match callerInfo with
    | none => false
    | some d => !d.isEmpty
  let info : Dict V := callerInfo.getD []
  let callerAfter (d : Dict V) : Option (Dict V) := if aliased then some d else callerInfo
  -- lines 39-40
  match sample with
  | .error e => (.raised e, callerInfo)
  | .ok (xs, ys) =>
    -- lines 46-49
    match (if external then onPath path else onData xs ys) with
    | .ret r =>
      -- lines 54-58
      let info' := info.update r.info
      (.result { mi := r.mi, time := r.time.getD measured, success := true,
                 estimatorId, taskId, nSamples := xs.length, seed, info := info' },
       callerAfter info')
    | .exc msg output =>
      -- lines 61-68
      let info1 := info.update [("error", str msg)]
      let info2 := match output with
        | some o => info1.update [("subprocess_output", str o)]
        | none => info1
      (.result { mi := nan, time := nan, success := false,
                 estimatorId, taskId, nSamples := xs.length, seed, info := info2 },
       callerAfter info2)
    | .abort => (.aborted, callerInfo)

end BMI.Run
