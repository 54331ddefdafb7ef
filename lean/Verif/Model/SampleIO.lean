import Verif.Model.Basic
import Mathlib.Data.Fin.Tuple.Basic
import Mathlib.Data.List.OfFn

/-!
Model of `save_sample`, `read_sample`, `read_sample_dims` (/repo/src/bmi/utils.py:34-79).

The CSV layer of pandas is not modelled character by character: a file is the list of its column names and
the list of its rows, and a cell read back is `rt` of the cell written, where `rt : F → F` is an arbitrary
function (pandas' default float parser may change the last bit).  The file exists only when it has at least one
column: `pd.read_csv` raises `EmptyDataError` (a `ValueError`) otherwise.
-/

namespace BMI.SampleIO

/-- What `np.asarray` returns (/repo/src/bmi/utils.py:35-36): a matrix, or an array of a rank other than
two, of which only the existence matters (lines 38-39 refuse it). -/
inductive NdArr (F : Type) where
  | mat (n d : ℕ) (v : Fin n → Fin d → F)
  | otherRank

/-- A CSV file (/repo/src/bmi/utils.py:45-49): header and rows of cells. -/
structure Csv (F : Type) where
  columns : List String
  rows : List (List F)

/-- `f"X{i}"`, `f"Y{i}"` (/repo/src/bmi/utils.py:47). -/
def colName (c : Char) (i : ℕ) : String := String.ofList (c :: Nat.toDigits 10 i)

/-- `save_sample` (/repo/src/bmi/utils.py:34-49). -/
def saveSample {F : Type} (x y : NdArr F) : Except Err (Csv F) :=
  match x, y with
  | .mat n dx vx, .mat m dy vy =>
    if h : n = m then
      .ok { columns := (List.range dx).map (colName 'X') ++ (List.range dy).map (colName 'Y'),
            rows := List.ofFn fun i : Fin n =>
              List.ofFn (vx i) ++ List.ofFn (vy (Fin.cast h i)) }
    else .error .assertionError
  | _, _ => .error .assertionError

/-- `"X" in col` for a one-letter needle (/repo/src/bmi/utils.py:55-56). -/
def hasChar (c : Char) (s : String) : Bool := s.toList.contains c

/-- `[col for col in data.columns if "X" in col]` (/repo/src/bmi/utils.py:55-56, 73-74). -/
def colsWith (c : Char) (columns : List String) : List String := columns.filter (hasChar c)

/-- `data[cols]` for one row (/repo/src/bmi/utils.py:64-65): for each requested name the cells of the
columns having that name, in file order. -/
def selectCols {F : Type} (columns : List String) (row : List F) (cols : List String) : List F :=
  cols.flatMap fun c => ((columns.zip row).filter fun p => p.1 = c).map Prod.snd

/-- `read_sample` (/repo/src/bmi/utils.py:52-67); the two arrays are lists of rows together with their
number of columns. -/
def readSample {F : Type} (rt : F → F) (f : Csv F) :
    Except Err ((ℕ × List (List F)) × (ℕ × List (List F))) :=
  if f.columns = [] then .error .valueError else
  let colsX := colsWith 'X' f.columns
  let colsY := colsWith 'Y' f.columns
  if colsX.length + colsY.length = f.columns.length then
    .ok ((colsX.length, f.rows.map fun r => selectCols f.columns (r.map rt) colsX),
         (colsY.length, f.rows.map fun r => selectCols f.columns (r.map rt) colsY))
  else .error .assertionError

/-- `read_sample_dims` (/repo/src/bmi/utils.py:70-79). -/
def readSampleDims {F : Type} (f : Csv F) : Except Err (ℕ × ℕ) :=
  if f.columns = [] then .error .valueError
  else .ok ((colsWith 'X' f.columns).length, (colsWith 'Y' f.columns).length)

end BMI.SampleIO
