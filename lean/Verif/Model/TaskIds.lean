import Mathlib.Data.Nat.Digits.Defs

/-!
Model of the identifiers produced by the task constructors (/repo/src/bmi/benchmark/tasks/*.py) and of the
benchmark registry (/repo/src/bmi/benchmark/task_list.py, /repo/src/bmi/benchmark/__init__.py:6).

A task is represented by the call that makes it.  Formatting of floats is a parameter: `repr` is `f"{x}"` and `fix5`
is `f"{x:.5f}"`.  Integers are natural numbers printed in decimal.  The accuracy parameter
`mi_estimate_sample` of the mixtures and `random_seed` of the quantile transforms are not represented.
-/

namespace BMI.TaskIds

/-- The two ways floats are printed (e.g. /repo/src/bmi/benchmark/tasks/multinormal.py:40,67). -/
structure Format (F : Type) where
  repr : F → List Char
  fix5 : F → List Char

/-- Calls of task constructors. One constructor per Python function:
additive_noise.py:5, bivariate_normal.py:5, bimodal_gaussians.py:8, multinormal.py:10,51,76, student.py:9,33,61,
mixtures.py:12,42,106,143,187,220, and the transformations asinh.py:9, half_cube.py:8, normal_cdf.py:8,
wiggly.py:19, rotate.py:10, embeddings.py:6, scaling.py:19,55,88, power.py:9, spiral.py:8
(all in /repo/src/bmi/benchmark/tasks). -/
inductive Call (F : Type) where
  | additive (ε : F)
  | binormal (ρ : F)
  | bimodal (ρ : F)
  | lvm (dx dy n : ℕ) (α l β η : F)
  | dense (dx dy : ℕ) (off : F)
  | sparse (dx dy n : ℕ) (s : F)
  | studentIdentity (dx dy df : ℕ)
  | studentDense (dx dy df : ℕ) (off : F)
  | studentSparse (dx dy df n : ℕ) (s : F)
  | mixX (ρ : F)
  | mixAI
  | galaxy (speed dist : F)
  | waves (n : ℕ) (a f : F)
  | concentric (d n : ℕ)
  | inliers (dx dy n : ℕ) (s fr : F)
  | asinh (t : Call F)
  | halfCube (t : Call F)
  | normalCdf (t : Call F)
  | wiggly (t : Call F)
  | rotate (t : Call F)
  | swissroll (t : Call F)
  | rescale (t : Call F)
  | uniformise (t : Call F) (nq : ℕ)
  | gaussianise (t : Call F) (nq : ℕ)
  | power (t : Call F) (α : F)
  | spiral (t : Call F) (speed : F) (normalize : Bool)
  deriving DecidableEq

/-- `f"{n}"` of an integer. -/
def nat (n : ℕ) : List Char := Nat.toDigits 10 n

/-- The `task_id` given to `Task` by each constructor; lines in /repo/src/bmi/benchmark/tasks:
additive_noise.py:12, bivariate_normal.py:12, bimodal_gaussians.py:26, multinormal.py:38-41,67,93,
student.py:22,51,86, mixtures.py:34,101,134,177,212,259, asinh.py:23, half_cube.py:22, normal_cdf.py:22,
wiggly.py:33, rotate.py:47, embeddings.py:20, scaling.py:35,82,109, power.py:30, spiral.py:40.
(`transform_rescale` can also be given an explicit id, scaling.py:22,35; not represented.) -/
def Call.id {F : Type} (fm : Format F) : Call F → List Char
  | .additive ε => ['1', 'v', '1', '-', 'a', 'd', 'd', 'i', 't', 'i', 'v', 'e', '-'] ++ fm.repr ε
  | .binormal ρ => ['1', 'v', '1', '-', 'n', 'o', 'r', 'm', 'a', 'l', '-'] ++ fm.repr ρ
  | .bimodal ρ => ['1', 'v', '1', '-', 'b', 'i', 'm', 'o', 'd', 'a', 'l', '-'] ++ fm.repr ρ
  | .lvm dx dy n α l β η => ['m', 'u', 'l', 't', 'i', 'n', 'o', 'r', 'm', 'a', 'l', '-', 'l', 'v', 'm', '-'] ++
      (nat dx ++ '-' :: (nat dy ++ '-' ::
      (nat n ++ '-' :: (fm.fix5 α ++ '-' :: (fm.fix5 l ++ '-' :: (fm.fix5 β ++ '-' :: fm.fix5 η))))))
  | .dense dx dy off => ['m', 'u', 'l', 't', 'i', 'n', 'o', 'r', 'm', 'a', 'l', '-', 'd', 'e', 'n', 's', 'e', '-'] ++
      (nat dx ++ '-' :: (nat dy ++ '-' :: fm.repr off))
  | .sparse dx dy n s => ['m', 'u', 'l', 't', 'i', 'n', 'o', 'r', 'm', 'a', 'l', '-', 's', 'p', 'a', 'r', 's', 'e', '-'] ++
      (nat dx ++ '-' :: (nat dy ++ '-' ::
      (nat n ++ '-' :: fm.repr s)))
  | .studentIdentity dx dy df => ['s', 't', 'u', 'd', 'e', 'n', 't', '-', 'i', 'd', 'e', 'n', 't', 'i', 't', 'y', '-'] ++
      (nat dx ++ '-' :: (nat dy ++ '-' :: nat df))
  | .studentDense dx dy df off => ['s', 't', 'u', 'd', 'e', 'n', 't', '-', 'd', 'e', 'n', 's', 'e', '-'] ++
      (nat dx ++ '-' :: (nat dy ++ '-' ::
      (nat df ++ '-' :: fm.repr off)))
  | .studentSparse dx dy df n s => ['s', 't', 'u', 'd', 'e', 'n', 't', '-', 's', 'p', 'a', 'r', 's', 'e', '-'] ++
      (nat dx ++ '-' :: (nat dy ++ '-' ::
      (nat df ++ '-' :: (nat n ++ '-' :: fm.repr s))))
  | .mixX ρ => ['1', 'v', '1', '-', 'X', '-'] ++ fm.repr ρ
  | .mixAI => ['1', 'v', '1', '-', 'A', 'I']
  | .galaxy s d => ['2', 'v', '1', '-', 'g', 'a', 'l', 'a', 'x', 'y', '-'] ++ (fm.repr s ++ '-' :: fm.repr d)
  | .waves n a f => ['2', 'v', '1', '-', 'w', 'a', 'v', 'e', 's', '-'] ++
      (nat n ++ '-' :: (fm.repr a ++ '-' :: fm.repr f))
  | .concentric d n => nat d ++ (['v', '1', '-', 'c', 'o', 'n', 'c', 'e', 'n', 't', 'r', 'i', 'c', '_', 'g', 'a', 'u', 's', 's', 'i', 'a', 'n', 's', '-'] ++
      nat n)
  | .inliers dx dy n s fr => ['m', 'u', 'l', 't', '-', 's', 'p', 'a', 'r', 's', 'e', '-', 'w', '-', 'i', 'n', 'l', 'i', 'e', 'r', 's', '-'] ++
      (nat dx ++ '-' :: (nat dy ++ '-' ::
      (nat n ++ '-' :: (fm.repr s ++ '-' :: fm.repr fr))))
  | .asinh t => ['a', 's', 'i', 'n', 'h', '-'] ++ t.id fm
  | .halfCube t => ['h', 'a', 'l', 'f', '_', 'c', 'u', 'b', 'e', '-'] ++ t.id fm
  | .normalCdf t => ['n', 'o', 'r', 'm', 'a', 'l', '_', 'c', 'd', 'f', '-'] ++ t.id fm
  | .wiggly t => ['w', 'i', 'g', 'g', 'l', 'y', '-'] ++ t.id fm
  | .rotate t => ['r', 'o', 't', 'a', 't', 'e', '-'] ++ t.id fm
  | .swissroll t => ['s', 'w', 'i', 's', 's', 'r', 'o', 'l', 'l', '_', 'x', '-'] ++ t.id fm
  | .rescale t => ['r', 'e', 's', 'c', 'a', 'l', 'e', '-'] ++ t.id fm
  | .uniformise t _ => ['u', 'n', 'i', 'f', 'o', 'r', 'm', 'i', 's', 'e', '-'] ++ t.id fm
  | .gaussianise t _ => ['g', 'a', 'u', 's', 's', 'i', 'a', 'n', 'i', 's', 'e', '-'] ++ t.id fm
  | .power t α => ['p', 'o', 'w', 'e', 'r', '_'] ++ (fm.fix5 α ++ '-' :: t.id fm)
  | .spiral t _ _ => ['s', 'p', 'i', 'r', 'a', 'l', '-'] ++ t.id fm

/-- The floats occurring in the registry (/repo/src/bmi/benchmark/task_list.py:13,22-23 and the defaults
`off_diag=0.5`, `strength=2.0`, `speed=1.0`). -/
inductive RegF where
  | f0_1 | f0_5 | f0_75 | f1_0 | f2_0
  deriving DecidableEq

/-- Their Python `repr` and `.5f` renderings. -/
def regFormat : Format RegF where
  repr
    | .f0_1 => ['0', '.', '1']
    | .f0_5 => ['0', '.', '5']
    | .f0_75 => ['0', '.', '7', '5']
    | .f1_0 => ['1', '.', '0']
    | .f2_0 => ['2', '.', '0']
  fix5
    | .f0_1 => ['0', '.', '1', '0', '0', '0', '0']
    | .f0_5 => ['0', '.', '5', '0', '0', '0', '0']
    | .f0_75 => ['0', '.', '7', '5', '0', '0', '0']
    | .f1_0 => ['1', '.', '0', '0', '0', '0', '0']
    | .f2_0 => ['2', '.', '0', '0', '0', '0', '0']

/-- `task_multinormal_2pair` (/repo/src/bmi/benchmark/tasks/multinormal.py:106-119) with default strength. -/
def twoPair (dx dy : ℕ) : Call RegF := .sparse dx dy 2 .f2_0

/-- `BENCHMARK_TASKS_LIST` (/repo/src/bmi/benchmark/task_list.py:13-81). -/
def registry : List (Call RegF) :=
  let binormalBase : Call RegF := .binormal .f0_75
  let uniformBase : Call RegF := .normalCdf binormalBase
  let bistudentBase : Call RegF := .studentIdentity 1 1 1
  let spir (t : Call RegF) : Call RegF := .spiral t .f1_0 true
  -- ONE_DIM_TASKS, lines 19-29
  [binormalBase, uniformBase, .additive .f0_1, .additive .f0_75, .bimodal .f0_75,
   .wiggly binormalBase, .halfCube binormalBase, bistudentBase, .asinh bistudentBase] ++
  -- EMBEDDINGS_TASKS, lines 31-33
  [.swissroll uniformBase] ++
  -- MULTINORMAL_TASKS, lines 35-45
  [.dense 2 2 .f0_5, .dense 3 3 .f0_5, .dense 5 5 .f0_5, .dense 25 25 .f0_5, .dense 50 50 .f0_5,
   twoPair 2 2, twoPair 3 3, twoPair 5 5, twoPair 25 25] ++
  -- STUDENT_TASKS, lines 47-54
  [.studentIdentity 2 2 1, .studentIdentity 2 2 2, .studentIdentity 3 3 2, .studentIdentity 3 3 3,
   .studentIdentity 5 5 2, .studentIdentity 5 5 3] ++
  -- TRANSFORMED_TASKS, lines 60-76
  [.normalCdf (twoPair 3 3), .normalCdf (twoPair 5 5), .normalCdf (twoPair 25 25),
   .halfCube (twoPair 3 3), .halfCube (twoPair 5 5), .halfCube (twoPair 25 25),
   spir (twoPair 3 3), spir (twoPair 5 5), spir (twoPair 25 25),
   spir (.normalCdf (twoPair 3 3)), spir (.normalCdf (twoPair 5 5)), spir (.normalCdf (twoPair 25 25)),
   .asinh (.studentIdentity 2 2 1), .asinh (.studentIdentity 3 3 2), .asinh (.studentIdentity 5 5 2)]

/-- `{task.id: task for task in _BENCHMARK_LIST}` (/repo/src/bmi/benchmark/__init__.py:6): a later task
overwrites an earlier one with the same id. -/
def insertTask {F : Type} (fm : Format F) (d : List (List Char × Call F)) (t : Call F) :
    List (List Char × Call F) :=
  if d.any (fun e => e.1 = t.id fm) then d.map fun e => if e.1 = t.id fm then (e.1, t) else e
  else d ++ [(t.id fm, t)]

/-- `BENCHMARK_TASKS` (/repo/src/bmi/benchmark/__init__.py:6). -/
def benchmarkTasks {F : Type} (fm : Format F) (l : List (Call F)) : List (List Char × Call F) :=
  l.foldl (insertTask fm) []

end BMI.TaskIds
