import Verif.Model.SampleIO
import Std.Data.String.ToInt

/-!
Model of the estimators that call R and Julia
(/repo/src/bmi/estimators/external/external_estimator.py, r_estimators.py, julia_estimators.py) and of the two scripts
they call (/repo/external/rmi.R, /repo/external/mi_estimator.jl).

Numbers in data files have an arbitrary type `F`.  What is outside the repository is in `World`: the file system, how
numbers are printed and read by Python, R and Julia, and the libraries `rmi`, `BNSL` and `TransferEntropy`.
The argument parsers of R (`argparse`) and Julia (`ArgParse`) are modelled for what the commands use: positional
arguments and options with one value; abbreviated options, `--name=value` and negative numbers are left out.
Python integers only, no coercion of other types by pydantic.
-/

namespace BMI.External

open BMI.SampleIO

/-- Calls of the libraries (/repo/external/rmi.R:45-57, /repo/external/mi_estimator.jl:89-98,141). -/
inductive Call (F : Type) where
  | knnMi (rows : List (List F)) (splits : ℤ × ℤ) (method : String) (k : ℤ)
  | lnnMi (rows : List (List F)) (splits : ℤ × ℤ) (k tr : ℤ)
  | bnslMi (x y : List (List F)) (proc : ℤ)
  | kraskov1 (x y : List (List F)) (k : ℤ)
  | kraskov2 (x y : List (List F)) (k : ℤ)
  | visitationFrequency (x y : List (List F)) (bins : ℤ)
  | transferOperator (x y : List (List F)) (bins : ℤ)
  | naiveKernel (x y : List (List F)) (bandwidth : F)

/-- What surrounds the code (/repo/src/bmi/estimators/external/external_estimator.py:10-15,
/repo/src/bmi/estimators/external/r_estimators.py:36-37, /repo/src/bmi/estimators/external/julia_estimators.py:39-40):
absolute paths, the installed scripts, printing and reading of numbers, files, messages on the error stream, and the
libraries. -/
structure World (F : Type) where
  absolute : String → String
  rScript : String
  juliaScript : String
  positive : F → Bool
  strFloat : F → String
  parseFloatJulia : String → Option F
  readFloat : List Char → Option F
  csvR : F → F
  csvJulia : F → F
  catR : F → List Char
  printJulia : F → List Char
  stderr : List Char
  files : String → Option (Csv F)
  lib : Call F → Option F

/-- Why a call fails: a Python exception, or `CalledProcessError` because the process failed
(/repo/src/bmi/estimators/external/external_estimator.py:11). -/
inductive Fail where
  | exception (e : Err)
  | process
  deriving DecidableEq

/-- The estimators with their validated parameters (/repo/src/bmi/estimators/external/r_estimators.py:13-15,51-53,91-92,
/repo/src/bmi/estimators/external/julia_estimators.py:13-15,54-55,90-91,126-127). -/
inductive Estimator (F : Type) where
  | rKSG (variant neighbors : ℤ)
  | rLNN (k truncation : ℤ)
  | rBNSL (proc : ℤ)
  | juliaKSG (variant neighbors : ℤ)
  | juliaHistogram (bins : ℤ)
  | juliaTransfer (bins : ℤ)
  | juliaKernel (bandwidth : F)

variable {F : Type}

/-- `RKSGEstimator.__init__` (/repo/src/bmi/estimators/external/r_estimators.py:21-30). -/
def rKSG (variant neighbors : ℤ) : Except Err (Estimator F) :=
  if (variant = 1 ∨ variant = 2) ∧ 0 < neighbors then .ok (.rKSG variant neighbors) else .error .validationError

/-- `RLNNEstimator.__init__` (/repo/src/bmi/estimators/external/r_estimators.py:59-68). -/
def rLNN (k truncation : ℤ) : Except Err (Estimator F) :=
  if 0 < k ∧ 0 < truncation then .ok (.rLNN k truncation) else .error .validationError

/-- `RBNSLEstimator.__init__` (/repo/src/bmi/estimators/external/r_estimators.py:98-108). -/
def rBNSL (proc : ℤ) : Except Err (Estimator F) :=
  if 0 < proc then .ok (.rBNSL proc) else .error .validationError

/-- `JuliaKSGEstimator.__init__` (/repo/src/bmi/estimators/external/julia_estimators.py:24-33). -/
def juliaKSG (variant neighbors : ℤ) : Except Err (Estimator F) :=
  if (variant = 1 ∨ variant = 2) ∧ 0 < neighbors then .ok (.juliaKSG variant neighbors) else .error .validationError

/-- `JuliaHistogramEstimator.__init__` (/repo/src/bmi/estimators/external/julia_estimators.py:63-69). -/
def juliaHistogram (bins : ℤ) : Except Err (Estimator F) :=
  if bins < 2 then .error .valueError
  else if 0 < bins then .ok (.juliaHistogram bins) else .error .validationError

/-- `JuliaTransferEstimator.__init__` (/repo/src/bmi/estimators/external/julia_estimators.py:99-105). -/
def juliaTransfer (bins : ℤ) : Except Err (Estimator F) :=
  if bins < 2 then .error .valueError
  else if 0 < bins then .ok (.juliaTransfer bins) else .error .validationError

/-- `JuliaKernelEstimator.__init__` (/repo/src/bmi/estimators/external/julia_estimators.py:136-142).
`ValidationError` is a `ValueError`; NaN, which is not covered here, gives the former. -/
def juliaKernel (W : World F) (bandwidth : F) : Except Err (Estimator F) :=
  if W.positive bandwidth then .ok (.juliaKernel bandwidth) else .error .valueError

/-- `_build_command` (/repo/src/bmi/estimators/external/r_estimators.py:35-48,73-88,113-126,
/repo/src/bmi/estimators/external/julia_estimators.py:38-51,74-87,110-123,147-160). -/
def buildCommand (W : World F) (e : Estimator F) (path : String) (dimX dimY : ℕ) : List String :=
  match e with
  | .rKSG variant neighbors =>
    ["Rscript", W.rScript, W.absolute path, dimX.repr, dimY.repr, "--method", "KSG" ++ variant.repr, "--neighbors",
      neighbors.repr]
  | .rLNN k truncation =>
    ["Rscript", W.rScript, W.absolute path, dimX.repr, dimY.repr, "--method", "LNN", "--neighbors", k.repr,
      "--truncation", truncation.repr]
  | .rBNSL proc =>
    ["Rscript", W.rScript, W.absolute path, dimX.repr, dimY.repr, "--method", "BNSL", "--proc", proc.repr]
  | .juliaKSG variant neighbors =>
    ["julia", W.juliaScript, W.absolute path, dimX.repr, dimY.repr, "--estimator", "KSG" ++ variant.repr,
      "--neighbors", neighbors.repr]
  | .juliaHistogram bins =>
    ["julia", W.juliaScript, W.absolute path, dimX.repr, dimY.repr, "--estimator", "Histogram", "--bins", bins.repr]
  | .juliaTransfer bins =>
    ["julia", W.juliaScript, W.absolute path, dimX.repr, dimY.repr, "--estimator", "Transfer", "--bins", bins.repr]
  | .juliaKernel bandwidth =>
    ["julia", W.juliaScript, W.absolute path, dimX.repr, dimY.repr, "--estimator", "Kernel", "--bandwidth",
      W.strFloat bandwidth]

/-! ### Argument parsing of the scripts -/

/-- Does an argument look like an option (/repo/external/rmi.R:22, /repo/external/mi_estimator.jl:56)? -/
def isOption (a : String) : Bool := a.toList.head? = some '-'

/-- Splitting of a command line into positional arguments and options with values (`parse_args`,
/repo/external/rmi.R:22, /repo/external/mi_estimator.jl:56). -/
def scan (known : List String) : List String → Option (List String × List (String × String))
  | [] => some ([], [])
  | a :: rest =>
    if isOption a then
      if a ∈ known then
        match rest with
        | [] => none
        | v :: rest' =>
          if isOption v then none
          else (scan known rest').map fun r => (r.1, (a, v) :: r.2)
      else none
    else (scan known rest).map fun r => (a :: r.1, r.2)

/-- Value of an option: the last one given, or the default (/repo/external/rmi.R:15-19,
/repo/external/mi_estimator.jl:39-53). -/
def option (opts : List (String × String)) (name default : String) : String :=
  (opts.reverse.lookup name).getD default

/-! ### rmi.R -/

/-- `a:b` in R (/repo/external/rmi.R:57): ascending or descending. -/
def rSeq (a b : ℤ) : List ℤ :=
  if a ≤ b then (List.range (b - a + 1).toNat).map fun (i : ℕ) => a + i
  else (List.range (a - b + 1).toNat).map fun (i : ℕ) => a - i

/-- `m[, a:b]` in R for one row (/repo/external/rmi.R:57): zeros are dropped, indices outside fail. -/
def rCols (row : List F) (a b : ℤ) : Option (List F) :=
  ((rSeq a b).filter fun i => i ≠ 0).mapM fun i => if i < 0 then none else row[(i - 1).toNat]?

/-- The options of rmi.R (/repo/external/rmi.R:15-19). -/
def rOptions : List String := ["--method", "--neighbors", "--alpha", "--truncation", "--proc"]

/-- rmi.R up to the call of the library (/repo/external/rmi.R:10-60); `none` is a non-zero exit status.  The option
`--alpha`, which is not used, is not parsed. -/
def rCall (W : World F) (args : List String) : Option (Call F) := do
  let (positional, opts) ← scan rOptions args
  match positional with
  | [file, dimX, dimY] => do
    let dimX ← dimX.toInt?
    let dimY ← dimY.toInt?
    let method := option opts "--method" "KSG1"
    let neighbors ← (option opts "--neighbors" "10").toInt?
    let truncation ← (option opts "--truncation" "30").toInt?
    let proc ← (option opts "--proc" "0").toInt?
    if (proc > 2 ∧ proc ≠ 10) ∨ proc < 0 then none
    else do
      let csv ← W.files file
      let data := csv.rows.map fun r => r.map W.csvR
      if method = "LNC" then none
      else if method = "KSG1" ∨ method = "KSG2" then some (.knnMi data (dimX, dimY) method neighbors)
      else if method = "LNN" then some (.lnnMi data (dimX, dimY) neighbors truncation)
      else if method = "BNSL" then do
        let idx1 := dimX
        let idx2 := idx1 + 1
        let idx3 := dimX + dimY
        let x ← data.mapM fun r => rCols r 1 idx1
        let y ← data.mapM fun r => rCols r idx2 idx3
        some (.bnslMi x y proc)
      else none
  | _ => none

/-- rmi.R (/repo/external/rmi.R:10-63): what is printed. -/
def rMain (W : World F) (args : List String) : Option (List Char) := do
  let call ← rCall W args
  let mi ← W.lib call
  some (W.catR mi ++ ['\n'])

/-! ### mi_estimator.jl -/

/-- The options of mi_estimator.jl with a value (/repo/external/mi_estimator.jl:39-53); the flag `--verbose` is left
out. -/
def juliaOptions : List String := ["--neighbors", "--estimator", "--bins", "--bandwidth"]

/-- `allowed_estimators` (/repo/external/mi_estimator.jl:20). -/
def allowedEstimators : List String := ["KSG1", "KSG2", "Histogram", "Transfer", "Kernel"]

/-- `df[:, a:b]` for one row and `1 ≤ a` (/repo/external/mi_estimator.jl:114-115): columns outside fail. -/
def juliaCols (row : List F) (a b : ℤ) : Option (List F) :=
  ((List.range (b - a + 1).toNat).map fun (i : ℕ) => a + i).mapM fun i => row[(i - 1).toNat]?

/-- mi_estimator.jl up to the call of the library (/repo/external/mi_estimator.jl:19-102,105-141); `default` is the
bandwidth 1.0. -/
def juliaCall (W : World F) (default : F) (args : List String) : Option (Call F) := do
  let (positional, opts) ← scan juliaOptions args
  match positional with
  | [file, dimX, dimY] => do
    let dimX ← dimX.toInt?
    let dimY ← dimY.toInt?
    let neighbors ← (option opts "--neighbors" "10").toInt?
    let bins ← (option opts "--bins" "10").toInt?
    let bandwidth ← match opts.reverse.lookup "--bandwidth" with
      | some s => W.parseFloatJulia s
      | none => some default
    let name := option opts "--estimator" "KSG1"
    let csv ← W.files file
    if min dimX dimY < 1 then none
    else if neighbors < 1 then none
    else if name ∉ allowedEstimators then none
    else do
      let data := csv.rows.map fun r => r.map W.csvJulia
      let x ← data.mapM fun r => juliaCols r 1 dimX
      let y ← data.mapM fun r => juliaCols r (1 + dimX) (dimX + dimY)
      if name = "KSG1" then some (.kraskov1 x y neighbors)
      else if name = "KSG2" then some (.kraskov2 x y neighbors)
      else if name = "Histogram" then some (.visitationFrequency x y bins)
      else if name = "Transfer" then some (.transferOperator x y bins)
      else if name = "Kernel" then some (.naiveKernel x y bandwidth)
      else none
  | _ => none

/-- mi_estimator.jl (/repo/external/mi_estimator.jl:125-148): what is printed. -/
def juliaMain (W : World F) (default : F) (args : List String) : Option (List Char) := do
  let call ← juliaCall W default args
  let mi ← W.lib call
  some (W.printJulia mi ++ ['\n'])

/-! ### The Python side -/

/-- `str.strip` (/repo/src/bmi/estimators/external/external_estimator.py:12). -/
def strip (s : List Char) : List Char :=
  (((s.dropWhile Char.isWhitespace).reverse).dropWhile Char.isWhitespace).reverse

/-- `_run_command_and_read_mi` (/repo/src/bmi/estimators/external/external_estimator.py:10-19): the error stream is part
of the output. -/
def runCommandAndReadMi (W : World F) (default : F) (args : List String) : Except Fail F :=
  let run : Option (List Char) := match args with
    | program :: script :: rest =>
      if program = "Rscript" ∧ script = W.rScript then rMain W rest
      else if program = "julia" ∧ script = W.juliaScript then juliaMain W default rest
      else none
    | _ => none
  match run with
  | none => .error .process
  | some out =>
    match W.readFloat (strip (W.stderr ++ out)) with
    | none => .error (.exception .valueError)
    | some mi => .ok mi

/-- `estimate_with_info_from_path` (/repo/src/bmi/estimators/external/external_estimator.py:26-30); the file of a path is
that of the absolute path. -/
def estimateFromPath (W : World F) (default : F) (e : Estimator F) (path : String) : Except Fail F :=
  match W.files (W.absolute path) with
  | none => .error (.exception .valueError)
  | some csv =>
    match readSampleDims csv with
    | .error er => .error (.exception er)
    | .ok (dimX, dimY) => runCommandAndReadMi W default (buildCommand W e path dimX dimY)

/-- `estimate` and `estimate_with_info` (/repo/src/bmi/estimators/external/external_estimator.py:32-39); `tmp` is the
name of the temporary file. -/
def estimate (W : World F) (default : F) (e : Estimator F) (tmp : String) (x y : NdArr F) : Except Fail F :=
  match saveSample x y with
  | .error er => .error (.exception er)
  | .ok csv =>
    estimateFromPath { W with files := fun p => if p = W.absolute tmp then some csv else W.files p } default e tmp

end BMI.External
