import Verif.Lemmas.PmiFigure
import Verif.Props.CriticPlots
import Verif.Props.NormalTasks
import Verif.Props.Student
import Verif.Lemmas.StudentWitness
import Mathlib.Algebra.Polynomial.Roots
import Mathlib.Algebra.Polynomial.Degree.SmallDegree

/-! C89: the figure of pointwise mutual information and trained critics. -/

namespace BMI.PmiFigure

open MeasureTheory ProbabilityTheory BMI.Samplers BMI.Profiles BMI.Student BMI.Integration
open BMI.NeuralEstimator (Lib Point)
open BMI.NeuralData (IdealRng)
open BMI.Mine (Formula)
open BMI.CriticPlots (linspace matOf rowsOf_one ofFn_one matOf_n)

/-- The critic `f` comes from at most 10000 steps of gradient descent of rate 1/10, each on a batch of 256 different pairs out of 5000
which have been chosen from the 10000 pairs `w` after standardisation. -/
def Trained {Key Θ O : Type} [NormedAddCommGroup Θ] [NormedSpace ℝ Θ] (lib : Lib Key Θ O) (ε : ℝ)
    (objective : Formula (List ℝ) (List ℝ)) (w : Fin 10000 → ℝ × ℝ) (f : Critic) : Prop :=
  ∃ (k : Key) (θ : Θ) (training : List (List ℝ × List ℝ)) (batches : List (List (List ℝ) × List (List ℝ))),
    lib.factory k 1 1 = .ok θ ∧ training.length = 5000 ∧
    training.Subperm (List.ofFn fun i => ([standard ε (fun i => (w i).1) (w i).1], [standard ε (fun i => (w i).2) (w i).2])) ∧
    batches.length ≤ 10000 ∧
    (∀ b ∈ batches, b.1.length = 256 ∧ b.2.length = 256 ∧ (b.1.zip b.2).Subperm training) ∧
    f = lib.call (NeuralEstimator.basicRun (lib.adam 0.1) lib.call objective (θ, (lib.adam 0.1).init θ) batches).1

/-- A column of the figure: the title, the first thousand points, above the function `r`, below the critic, which is shown in the
coordinates of the points although it has been trained in standardised ones. -/
structure IsColumn {Key Θ O : Type} [NormedAddCommGroup Θ] [NormedSpace ℝ Θ] (lib : Lib Key Θ O) (ε : ℝ)
    (objective : Formula (List ℝ) (List ℝ)) (title : String) (w : Fin 10000 → ℝ × ℝ) (r : ℝ → ℝ → ℝ) (c : Column) : Prop where
  title : c.title = title
  points : c.points = (List.ofFn w).take 1000
  pmi : Shows c.pmi r
  critic : ∃ f, Trained lib ε objective w f ∧ Shows c.critic fun x y => f [x] [y]

/-! ## The functions shown -/

theorem zeroVec {d : ℕ} : (fun _ : Fin d => (0.0 : ℝ)) = 0 := by
  funext i
  norm_num

theorem oneByOne_posDef : (oneByOne 1).PosDef := by
  have : oneByOne 1 = 1 := by
    ext i j
    rw [Subsingleton.elim i j]
    simp [oneByOne]
  rw [this]
  exact Matrix.PosDef.one

theorem tPdf_eq {P : SciPy} (hP : IdealPdf P) {d : ℕ} {S : Matrix (Fin d) (Fin d) ℝ} (hS : S.PosDef) {ν : ℝ} (hν : 0 < ν)
    (z : Fin d → ℝ) : P.tPdf d 0 S ν z = Real.exp (studentLog 0 S ν z) := by
  obtain ⟨h1, h2, h3⟩ := hP.student d 0 S ν hS hν
  haveI := studentLaw_prob 0 S hν
  exact congrFun (density_unique h1 h2 (continuous_studentLog 0 hS hν) h3 (studentLaw_density 0 hS hν)) z

theorem normalPdf_eq {P : SciPy} (hP : IdealPdf P) {d : ℕ} {S : Matrix (Fin d) (Fin d) ℝ} (hS : S.PosDef) (z : Fin d → ℝ) :
    P.normalPdf d 0 S z = Real.exp (logDensity 0 S z) := by
  obtain ⟨h1, h2, h3⟩ := hP.normal d 0 S hS
  haveI : IsProbabilityMeasure (normalLaw 0 S) := inferInstance
  exact congrFun (density_unique h1 h2 (continuous_logDensity 0 S) h3 (normalLaw_density 0 hS)) z

/-- **C89**: the functions of the workflow are the pointwise mutual information of the two families. -/
theorem student_logpdfratio {P : SciPy} (hP : IdealPdf P) {ν : ℝ} (hν : 0 < ν) (x y : ℝ) :
    studentLogpdfratio P x y ν half = studentPmi ν (1 / 2) x y := by
  unfold studentLogpdfratio
  have h0 : half 0 0 = 1 := rfl
  have h1 : half 1 1 = 1 := rfl
  simp only [h0, h1, zeroVec]
  have hz : (fun _ : Fin 2 => (0 : ℝ)) = 0 := rfl
  rw [hz, tPdf_eq hP half_posDef hν, tPdf_eq hP oneByOne_posDef hν, tPdf_eq hP oneByOne_posDef hν, Real.log_exp, Real.log_exp,
    Real.log_exp]
  exact studentPmi_logs _ _ rfl rfl x y

theorem gaussian_logpdfratio {P : SciPy} (hP : IdealPdf P) (x y : ℝ) : gaussianLogpdfratio P x y half = normalPmi (1 / 2) x y := by
  unfold gaussianLogpdfratio
  have h0 : half 0 0 = 1 := rfl
  have h1 : half 1 1 = 1 := rfl
  simp only [h0, h1, zeroVec]
  have hz : (fun _ : Fin 2 => (0 : ℝ)) = 0 := rfl
  rw [hz, normalPdf_eq hP half_posDef, normalPdf_eq hP oneByOne_posDef, normalPdf_eq hP oneByOne_posDef, Real.log_exp, Real.log_exp,
    Real.log_exp]
  exact normalPmi_logs _ _ rfl rfl x y

/-! ## The grid -/

theorem nodes_eq : linspace (-radius) radius 71 = List.ofFn node := by
  unfold linspace radius node
  refine List.ext_getElem (by simp) fun i h1 h2 => ?_
  simp only [List.getElem_map, List.getElem_range, List.getElem_ofFn]
  push_cast
  ring

/-- An image of a function on the grid, with the edges of the figure. -/
theorem shows_grid (f : ℝ → ℝ → ℝ) : Shows ⟨(linspace (-radius) radius 71).map fun y => (linspace (-radius) radius 71).map fun x => f x y,
    -radius, radius, radius, -radius⟩ f := by
  refine ⟨⟨?_, ?_⟩, ?_, fun i j => ⟨?_, ?_⟩⟩
  · rw [Set.uIcc_of_le (by norm_num [radius])]
    rfl
  · rw [Set.uIcc_of_ge (by norm_num [radius])]
    rfl
  · rw [nodes_eq]
    simp only [List.map_ofFn]
    rfl
  · have h0 : (0 : ℝ) ≤ (j : ℕ) := Nat.cast_nonneg _
    have h1 : ((j : ℕ) : ℝ) ≤ 70 := by exact_mod_cast Nat.lt_succ_iff.1 j.2
    unfold pixelX node radius
    rw [Set.uIcc_of_le (by push_cast; linarith)]
    constructor <;> push_cast <;> linarith
  · have h0 : (0 : ℝ) ≤ (i : ℕ) := Nat.cast_nonneg _
    have h1 : ((i : ℕ) : ℝ) ≤ 70 := by exact_mod_cast Nat.lt_succ_iff.1 i.2
    unfold pixelY node radius
    rw [Set.uIcc_of_le (by push_cast; linarith)]
    constructor <;> push_cast <;> linarith

/-! ## Training -/

theorem mean_eq {n : ℕ} (c : Fin n → ℝ) : PSpace.colMean c = mean c := rfl

theorem deviation_sq {n : ℕ} (c : Fin n → ℝ) : deviation c ^ 2 = PSpace.colVar c := Real.sq_sqrt (PSpace.colVar_nonneg c)

theorem scaleCol_eq {n : ℕ} (ε : ℝ) (c : Fin n → ℝ) (i : Fin n) : PSpace.scaleCol ε c i = standard ε c (c i) := by
  unfold PSpace.scaleCol standard unit PSpace.flagged
  rw [deviation_sq]
  rfl

theorem rows_standard {n : ℕ} (v : Fin n → ℝ) (ε : ℝ) :
    NeuralEstimator.xRows ε params (matOf 1 (List.ofFn fun i => [v i])) = List.ofFn fun i => [standard ε v (v i)] := by
  have hn : (matOf 1 (List.ofFn fun i => [v i])).n = n := List.length_ofFn
  unfold NeuralEstimator.xRows NeuralEstimator.rows PSpace.stored
  rw [if_pos (show params.standardize = true from rfl)]
  have : ∀ (N : ℕ) (u : Fin N → Fin 1 → ℝ) (e : N = n), (∀ i, u i 0 = v (Fin.cast e i)) →
      (List.ofFn fun i => List.ofFn fun j => PSpace.scaleCol ε (fun i' => u i' j) i) = List.ofFn fun i => [standard ε v (v i)] := by
    rintro N u rfl hu
    congr 1
    funext i
    rw [ofFn_one, scaleCol_eq]
    have : (fun i' => u i' 0) = v := funext hu
    rw [this, hu i]
    rfl
  refine this _ (matOf 1 (List.ofFn fun i => [v i])).v hn fun i => ?_
  have hi : (i : ℕ) < n := lt_of_lt_of_eq i.2 hn
  simp [matOf, hi]
  rfl

theorem matOf_len {n : ℕ} (u : Fin n → ℝ) : (matOf 1 (List.ofFn fun i => [u i])).n = n := List.length_ofFn

/-- **C89**, training: the critic is trained on half of the points, after all of them have been standardised. -/
theorem trained {Key Θ O : Type} [NormedAddCommGroup Θ] [NormedSpace ℝ Θ] {lib : Lib Key Θ O} (hr : IdealRng lib.rng)
    (hfac : ∀ k, ∃ θ, lib.factory k 1 1 = .ok θ) (ε : ℝ) (F FT : Formula Point Point) (w : Fin 10000 → ℝ × ℝ) :
    ∃ f, trainedCritic lib ε F FT (List.ofFn fun i => [(w i).1]) (List.ofFn fun i => [(w i).2]) = .ok f ∧ Trained lib ε F w f := by
  have hmk : NeuralEstimator.mk (Θ := Θ) params = .ok ⟨params, none⟩ := by
    obtain ⟨est, he⟩ := (NeuralEstimator.mk_accepts_iff (Θ := Θ) params).1.2 (by norm_num [params])
    rw [he]
    unfold NeuralEstimator.mk at he
    cases hv : NeuralEstimator.validate params with
    | error e => rw [hv] at he; cases he
    | ok u => rw [hv] at he; exact he.symm
  have hl : ∀ u : Fin 10000 → ℝ, (matOf 1 (List.ofFn fun i => [u i])).n = 10000 := fun u => matOf_len u
  have hfl : ⌊(0.5 : ℝ) * (10000 : ℕ)⌋₊ = 5000 := by rw [Nat.floor_eq_iff] <;> norm_num
  obtain ⟨xTr, xTe, yTr, yTe, θ, log, bs, h1, ⟨k, h2⟩, h3, -, h5, h6, -⟩ := NeuralEstimator.estimate_spec hr ε F FT ⟨params, none⟩
    (matOf 1 (List.ofFn fun i => [(w i).1])) (matOf 1 (List.ofFn fun i => [(w i).2]))
    (by rw [hl fun i => (w i).1, hl fun i => (w i).2])
    (by rw [hl fun i => (w i).1]; exact ⟨by norm_num, one_pos, one_pos⟩)
    (fun g hg => by
      rw [hl fun i => (w i).1]
      cases hg
      norm_num)
    ⟨by norm_num [params], by
      rw [hl fun i => (w i).1]
      simp only [params, NeuralEstimator.trainSize]
      rw [hfl]
      norm_num⟩ (by norm_num [params]) hfac
  rw [rows_standard fun i => (w i).1, rows_standard fun i => (w i).2] at h1
  obtain ⟨s1, s2, s3, s4⟩ := h1
  rw [List.length_ofFn, hfl] at s4
  refine ⟨_, ?_, k, θ, xTr.zip yTr, bs, h2, by rw [List.length_zip, ← s1, s4, min_self], ?_, by simpa [params] using h5, fun b hb => ?_, rfl⟩
  · unfold trainedCritic
    rw [hmk]
    simp only [bind, Except.bind]
    rw [h3]
    rfl
  · have : (List.zip (List.ofFn fun i => [standard ε (fun i => (w i).1) (w i).1])
        (List.ofFn fun i => [standard ε (fun i => (w i).2) (w i).2]))
        = List.ofFn fun i => ([standard ε (fun i => (w i).1) (w i).1], [standard ε (fun i => (w i).2) (w i).2]) :=
      CriticPlots.zipWith_ofFn' Prod.mk _ _
    rw [this] at s3
    exact (List.sublist_append_left _ _).subperm.trans s3.subperm
  · obtain ⟨b1, b2, b3⟩ := h6 b hb
    simp only [params] at b1 b2
    exact ⟨by exact_mod_cast b1, by exact_mod_cast b2, b3⟩

/-! ## The figure -/

section
variable {Key Θ O : Type} [NormedAddCommGroup Θ] [NormedSpace ℝ Θ]

theorem flatten_singles {n m : ℕ} (v : Fin n → ℝ) : ((List.ofFn fun i => [v i]).take m).flatten = (List.ofFn v).take m := by
  have : (List.ofFn fun i => [v i]) = (List.ofFn v).map fun x => [x] := by rw [List.map_ofFn]; rfl
  rw [this, ← List.map_take]
  generalize (List.ofFn v).take m = l
  induction l with
  | nil => rfl
  | cons a l ih => simpa using ih

theorem points_of {n m : ℕ} (w : Fin n → ℝ × ℝ) : ((List.ofFn fun i => [(w i).1]).take m).flatten.zip
    ((List.ofFn fun i => [(w i).2]).take m).flatten = (List.ofFn w).take m := by
  rw [flatten_singles fun i => (w i).1, flatten_singles fun i => (w i).2]
  simp only [List.zip]
  rw [← List.take_zipWith]
  congr 1
  exact CriticPlots.zipWith_ofFn' Prod.mk _ _

theorem column_points {n m : ℕ} (w : Fin n → ℝ × ℝ) (name : String) (A B : List (List ℝ)) :
    (column (name, ⟨(List.ofFn fun i => [(w i).1]).take m, (List.ofFn fun i => [(w i).2]).take m, A, B⟩)).points = (List.ofFn w).take m :=
  points_of w

/-- A file and its column. -/
theorem column_of {State : Type} {lib : Lib Key Θ O} (hr : IdealRng lib.rng) (hfac : ∀ k, ∃ θ, lib.factory k 1 1 = .ok θ) (ε : ℝ)
    (nce : Formula Point Point × Formula Point Point) {s : Sampler State} {w : Fin 10000 → ℝ × ℝ}
    (hs : s.sample 10000 (.seed 42) = .ok (List.ofFn fun i => [(w i).1], List.ofFn fun i => [(w i).2])) (r : ℝ → ℝ → ℝ)
    (name title : String) (ht : titleOf name = title) :
    ∃ data, getData lib ε nce s r = .ok data ∧ IsColumn lib ε nce.1 title w r (column (name, data)) := by
  obtain ⟨f, h1, h2⟩ := trained hr hfac ε nce.1 nce.2 w
  refine ⟨⟨(List.ofFn fun i => [(w i).1]).take 1000, (List.ofFn fun i => [(w i).2]).take 1000,
    (linspace (-radius) radius 71).map fun y => (linspace (-radius) radius 71).map fun x => r x y,
    (linspace (-radius) radius 71).map fun y => (linspace (-radius) radius 71).map fun x => f [x] [y]⟩, ?_,
    ht, column_points w name _ _, shows_grid r, f, h2, shows_grid fun x y => f [x] [y]⟩
  unfold getData
  rw [hs]
  simp only [bind, Except.bind]
  rw [h1]

theorem dense_half : denseMatrix 1 1 0.5 = .ok (rowsOf half) := by
  have h := denseMatrix_eq 1 1 0.5
  have e : rowsOf (equicorrelation (1 + 1) 0.5) = rowsOf half := by
    congr 1
    funext i j
    fin_cases i <;> fin_cases j <;> norm_num [equicorrelation, half]
  rw [e] at h
  exact_mod_cast h

/-- The points of the normal pair for a key of `jax.random`. -/
noncomputable def normalPoints {K : Type} (R : JaxRandom K) (k : K) (i : Fin 10000) : ℝ × ℝ :=
  (R.multivariateNormal k 10000 2 0 half i 0, R.multivariateNormal k 10000 2 0 half i 1)

/-- The points of the Student-t pair for a random state. -/
noncomputable def studentPoints {State : Type} (N : NpRandom State) (ν : ℝ) (s : State) (i : Fin 10000) : ℝ × ℝ :=
  (N.multivariateT s 10000 2 0 half ν i 0, N.multivariateT s 10000 2 0 half ν i 1)

theorem rows_split {n : ℕ} (v : Fin n → Fin 2 → ℝ) : (rowsOf v).map (·.take 1) = (List.ofFn fun i => [v i 0]) ∧
    (rowsOf v).map (·.drop 1) = List.ofFn fun i => [v i 1] := by
  unfold rowsOf
  rw [List.map_ofFn, List.map_ofFn]
  constructor <;> congr 1 <;> funext i <;> simp [List.ofFn_succ]

theorem toVec_replicate : toVec 2 (List.replicate 2 (0 : ℝ)) = 0 := by
  funext i
  fin_cases i <;> rfl

theorem gauss_sample {K : Type} (R : JaxRandom K) : ∃ s, taskMultinormalDense R 1 1 0.5 = .ok s ∧
    ∀ n rng, s.sample n rng = .ok (List.ofFn fun i => [R.multivariateNormal (castToRng R rng) n 2 0 half i 0],
      List.ofFn fun i => [R.multivariateNormal (castToRng R rng) n 2 0 half i 1]) := by
  have h := splitMultinormal_of R 1 1 one_pos one_pos (rowsOf half) none (by simp) (hasShape_rowsOf (n := 2) (d := 2) half)
    (by rw [toMatrix_rowsOf]; exact half_posDef)
  have ht : taskMultinormalDense R 1 1 0.5 = splitMultinormal R (1 : ℕ) (1 : ℕ) (rowsOf half) none := by
    unfold taskMultinormalDense
    rw [dense_half]
    rfl
  rw [h] at ht
  refine ⟨_, ht, fun n rng => ?_⟩
  obtain ⟨a, b⟩ := rows_split (R.multivariateNormal (castToRng R rng) n 2 0 half)
  rw [← a, ← b]
  have e : toVec (1 + 1) (List.replicate (1 + 1) (0 : ℝ)) = 0 := toVec_replicate
  simp only [Option.getD_none, toMatrix_rowsOf, e]

theorem student_sample {K State : Type} (R : JaxRandom K) (N : NpRandom State) {ν : ℝ} (hν : 0 < ν) :
    ∃ t, taskStudentDense R N 1 1 ν 0.5 = .ok t ∧ ∀ n, n ≠ 1 →
    t.sampler.sample n (.seed 42) = .ok (List.ofFn fun i => [N.multivariateT (N.randomState 42) n 2 0 half ν i 0],
      List.ofFn fun i => [N.multivariateT (N.randomState 42) n 2 0 half ν i 1]) := by
  have h := splitMultinormal_of R 1 1 one_pos one_pos (rowsOf half) (some (List.replicate 2 0)) (by simp)
    (hasShape_rowsOf (n := 2) (d := 2) half) (by rw [toMatrix_rowsOf]; exact half_posDef)
  have ht := splitStudentT_of R N 1 1 one_pos one_pos ν (rowsOf half) none h
  rw [if_neg (not_le.2 hν)] at ht
  have ht' : taskStudentDense R N 1 1 ν 0.5 = splitStudentT R N (1 : ℕ) (1 : ℕ) ν (rowsOf half) none := by
    unfold taskStudentDense
    rw [dense_half]
    rfl
  rw [ht] at ht'
  refine ⟨_, ht', fun n hn => ?_⟩
  have hc : checkRandomState N (.seed 42) = .ok (N.randomState 42) := by
    show (if (0 : ℤ) ≤ 42 ∧ (42 : ℤ) < 2 ^ 32 then Except.ok (N.randomState 42) else Except.error Err.valueError) = _
    rw [if_pos (by norm_num)]
  obtain ⟨a, b⟩ := rows_split (N.multivariateT (N.randomState 42) n 2 0 half ν)
  rw [← a, ← b]
  have e : toVec (1 + 1) (List.replicate (1 + 1) (0 : ℝ)) = 0 := toVec_replicate
  simp only [hc, bind, Except.bind, Option.getD_none, toMatrix_rowsOf, e, if_neg hn]

/-- **C89**, the titles: the word `Bivariate` is removed and nothing else. -/
theorem titles : titleOf "Bivariate normal" = "Normal" ∧
    ∀ df ∈ [1, 2, 3, 5, 10], titleOf ("Bivariate Student, $\\nu=" ++ toString df ++ "$") = "Student, $\\nu=" ++ toString df ++ "$" := by
  decide

/-- **C89**, the figure: it is made without an exception; from the left to the right the columns show Student-t pairs with 1, 2, 3, 5 and
10 degrees of freedom and a normal pair, all with dispersion one half between the coordinates. -/
theorem figure_spec {K State : Type} {P : SciPy} (hP : IdealPdf P) (R : JaxRandom K) (N : NpRandom State) {lib : Lib Key Θ O}
    (hr : IdealRng lib.rng) (hfac : ∀ k, ∃ θ, lib.factory k 1 1 = .ok θ) (ε : ℝ) (nce : Formula Point Point × Formula Point Point) :
    ∃ students gauss, figure P R N lib ε nce = .ok (students ++ [gauss]) ∧
      List.Forall₂ (fun (df : ℕ) c => IsColumn lib ε nce.1 ("Student, $\\nu=" ++ toString df ++ "$")
        (studentPoints N df (N.randomState 42)) (studentPmi df (1 / 2)) c) [1, 2, 3, 5, 10] students ∧
      IsColumn lib ε nce.1 "Normal" (normalPoints R (R.prngKey 42)) (normalPmi (1 / 2)) gauss := by
  have key : ∀ df ∈ [1, 2, 3, 5, 10], ∃ file, studentArrays P R N lib ε nce df = .ok file ∧
      IsColumn lib ε nce.1 ("Student, $\\nu=" ++ toString df ++ "$") (studentPoints N df (N.randomState 42)) (studentPmi df (1 / 2))
        (column file) := by
    intro df hdf
    have h0 : (0 : ℝ) < df := by
      have : 0 < df := by
        exact (by decide : ∀ df ∈ [1, 2, 3, 5, 10], 0 < df) df hdf
      exact_mod_cast this
    obtain ⟨t, t1, t2⟩ := student_sample R N h0
    obtain ⟨data, d1, d2⟩ := column_of hr hfac ε nce (w := studentPoints N df (N.randomState 42)) (t2 10000 (by norm_num)) (studentPmi df (1 / 2)) _ _ (titles.2 df hdf)
    refine ⟨_, ?_, d2⟩
    unfold studentArrays
    simp only [t1, dense_half, bind, Except.bind, toMatrix_rowsOf, student_logpdfratio hP h0, d1]
  obtain ⟨s, s1, s2⟩ := gauss_sample R
  obtain ⟨data, d1, d2⟩ := column_of hr hfac ε nce (w := normalPoints R (R.prngKey 42)) (s2 10000 (.seed 42)) (normalPmi (1 / 2)) _ _ titles.1
  have hg : gaussArrays P R lib ε nce = .ok ("Bivariate normal", data) := by
    unfold gaussArrays
    simp only [s1, dense_half, bind, Except.bind, toMatrix_rowsOf, gaussian_logpdfratio hP, d1]
  have hm : ∀ l : List ℕ, (∀ df ∈ l, ∃ file, studentArrays P R N lib ε nce df = .ok file ∧
      IsColumn lib ε nce.1 ("Student, $\\nu=" ++ toString df ++ "$") (studentPoints N df (N.randomState 42)) (studentPmi df (1 / 2))
        (column file)) → ∃ files, l.mapM (studentArrays P R N lib ε nce) = .ok files ∧
      List.Forall₂ (fun (df : ℕ) c => IsColumn lib ε nce.1 ("Student, $\\nu=" ++ toString df ++ "$")
        (studentPoints N df (N.randomState 42)) (studentPmi df (1 / 2)) c) l (files.map column) := by
    intro l
    induction l with
    | nil => exact fun _ => ⟨[], rfl, .nil⟩
    | cons a l ih =>
      intro h
      obtain ⟨x, x1, x2⟩ := h a (by simp)
      obtain ⟨xs, y1, y2⟩ := ih fun df hdf => h df (by simp [hdf])
      refine ⟨x :: xs, ?_, .cons x2 y2⟩
      rw [List.mapM_cons, x1]
      simp only [bind, Except.bind, y1]
      rfl
  obtain ⟨files, f1, f2⟩ := hm _ key
  refine ⟨files.map column, column ("Bivariate normal", data), ?_, f2, d2⟩
  unfold figure
  simp only [f1, hg, bind, Except.bind, List.map_append, List.map_cons, List.map_nil]

end

/-! ## The points -/

theorem map_coordinates {Ω : Type} [MeasurableSpace Ω] {κ : Measure Ω} {μ : Measure (Fin 2 → ℝ)} [IsProbabilityMeasure μ] {n : ℕ}
    {g : Ω → Fin n → Fin 2 → ℝ} (hg : Measurable g) (hm : κ.map g = Measure.pi fun _ => μ) :
    MeasurePreserving (fun k i => (g k i 0, g k i 1)) κ (Measure.pi fun _ => coordinates μ) := by
  have hc : Measurable fun z : Fin 2 → ℝ => (z 0, z 1) := (measurable_pi_apply 0).prodMk (measurable_pi_apply 1)
  have h1 : MeasurePreserving g κ (Measure.pi fun _ => μ) := ⟨hg, hm⟩
  haveI : IsProbabilityMeasure (coordinates μ) := Measure.isProbabilityMeasure_map hc.aemeasurable
  have h2 := measurePreserving_pi (fun _ : Fin n => μ) (fun _ => coordinates μ) (fun _ => (⟨hc, rfl⟩ : MeasurePreserving _ μ (coordinates μ)))
  exact h2.comp h1

/-- **C89**: the points in the figure are independent and have the law whose pointwise mutual information is shown. -/
theorem normalPoints_law {K : Type} [MeasurableSpace K] {R : JaxRandom K} {κ : Measure K} (hR : IdealRandom R κ) :
    MeasurePreserving (normalPoints R) κ (Measure.pi fun _ => coordinates (normalLaw 0 half)) ∧
      IsThePmi (coordinates (normalLaw 0 half)) (normalPmi (1 / 2)) := by
  obtain ⟨h1, h2⟩ := hR.normal 10000 2 0 half half_posDef
  exact ⟨map_coordinates h1 h2, normal_pmi⟩

theorem studentPoints_law {State : Type} [MeasurableSpace State] {N : NpRandom State} {κ : Measure State} (hN : IdealStudent N κ)
    {ν : ℝ} (hν : 0 < ν) : MeasurePreserving (studentPoints N ν) κ (Measure.pi fun _ => coordinates (studentLaw 0 half ν)) ∧
      IsThePmi (coordinates (studentLaw 0 half ν)) (studentPmi ν (1 / 2)) := by
  obtain ⟨h1, h2⟩ := hN.2 10000 2 0 half ν half_posDef hν
  haveI := studentLaw_prob 0 half hν
  exact ⟨map_coordinates h1 h2, student_pmi hν⟩

/-! ## The critic is shown in the wrong coordinates -/

theorem unit_pos {n : ℕ} (ε : ℝ) (c : Fin n → ℝ) : 0 < unit ε c := by
  unfold unit
  split_ifs with h
  · exact one_pos
  · refine lt_of_le_of_ne (Real.sqrt_nonneg _) fun h0 => h ?_
    rw [← h0]
    simp only [ne_eq, OfNat.ofNat_ne_zero, not_false_eq_true, zero_pow, mul_zero, zero_add]
    positivity

/-- A critic which is right in the coordinates it has been trained in shows in the panel the pointwise mutual information of other
points. -/
theorem right_value {ε : ℝ} {n : ℕ} {w : Fin n → ℝ × ℝ} {r : ℝ → ℝ → ℝ} {f : Critic} (hf : Right ε w r f) :
    ∃ a : ℝ → ℝ, ∀ x y, f [x] [y] = r (mean (fun i => (w i).1) + unit ε (fun i => (w i).1) * x)
      (mean (fun i => (w i).2) + unit ε (fun i => (w i).2) * y) + a x := by
  obtain ⟨a, ha⟩ := hf
  refine ⟨fun x => a (mean (fun i => (w i).1) + unit ε (fun i => (w i).1) * x), fun x y => ?_⟩
  have h1 := (unit_pos ε fun i => (w i).1).ne'
  have h2 := (unit_pos ε fun i => (w i).2).ne'
  rw [← ha]
  unfold standard
  congr 2 <;> field_simp <;> ring

theorem getD_ofFn {α : Type} {n : ℕ} (g : Fin n → α) (i : Fin n) (d : α) : (List.ofFn g).getD i d = g i := by
  simp [List.getD_eq_getElem?_getD]

theorem shows_pixel {im : Image} {f : ℝ → ℝ → ℝ} (h : Shows im f) (i j : Fin 71) :
    (im.rows.getD i []).getD j 0 = f (node j) (node i) := by
  rw [h.rows, getD_ofFn, getD_ofFn]

theorem agree_iff {im im' : Image} {f g : ℝ → ℝ → ℝ} (h : Shows im f) (h' : Shows im' g) :
    Agree im im' ↔ ∃ b : Fin 71 → ℝ, ∀ i j, f (node j) (node i) = g (node j) (node i) + b j := by
  unfold Agree
  simp only [shows_pixel h, shows_pixel h']

theorem node35 : node 35 = 0 := by norm_num [node]
theorem node42 : node 42 = 1 := by norm_num [node]
theorem node28 : node 28 = -1 := by norm_num [node]

theorem node_injective : Function.Injective node := by
  intro i j h
  unfold node at h
  have : ((i : ℕ) : ℝ) = (j : ℕ) := by linarith
  exact Fin.ext (by exact_mod_cast this)

/-- **C89**, the normal column: with a critic which is right in the coordinates it has been trained in, the two panels agree (up to what
InfoNCE leaves open) only if the points have unit deviations and their first mean is half the second one. -/
theorem normal_agree_iff {ε : ℝ} {n : ℕ} {w : Fin n → ℝ × ℝ} {f : Critic} (hf : Right ε w (normalPmi (1 / 2)) f) {im im' : Image}
    (h : Shows im fun x y => f [x] [y]) (h' : Shows im' (normalPmi (1 / 2))) :
    Agree im im' ↔ unit ε (fun i => (w i).1) = 1 ∧ unit ε (fun i => (w i).2) = 1 ∧
      mean (fun i => (w i).1) = mean (fun i => (w i).2) / 2 := by
  obtain ⟨a, ha⟩ := right_value hf
  have hs := unit_pos ε fun i => (w i).1
  have ht := unit_pos ε fun i => (w i).2
  rw [agree_iff h h']
  simp only [ha]
  generalize unit ε (fun i => (w i).1) = s at *
  generalize unit ε (fun i => (w i).2) = t at *
  generalize mean (fun i => (w i).1) = p at *
  generalize mean (fun i => (w i).2) = q at *
  unfold normalPmi
  constructor
  · rintro ⟨b, hb⟩
    have x0 := hb 35 35
    have x1 := hb 42 35
    have x2 := hb 28 35
    have y0 := hb 35 42
    have y1 := hb 42 42
    simp only [node35, node42, node28] at x0 x1 x2 y0 y1
    ring_nf at x0 x1 x2 y0 y1
    have e1 : t ^ 2 = 1 := by linarith
    have e2 : t = 1 := by nlinarith
    subst e2
    have e3 : p = q / 2 := by linarith
    refine ⟨?_, rfl, e3⟩
    linarith
  · rintro ⟨rfl, rfl, rfl⟩
    refine ⟨fun j => normalPmi (1 / 2) (q / 2 + 1 * node j) q - normalPmi (1 / 2) (node j) 0 + a (node j), fun i j => ?_⟩
    unfold normalPmi
    ring

/-- The density ratio of the Student-t pair as a ratio of powers. -/
theorem studentPmi_exp {ν : ℕ} (hν : 0 < ν) (x y x' y' c : ℝ)
    (h : studentPmi ν (1 / 2) x' y' = studentPmi ν (1 / 2) x y + c) :
    (1 + x' ^ 2 / ν) ^ (ν + 1) * (1 + y' ^ 2 / ν) ^ (ν + 1) * (1 + (x ^ 2 - x * y + y ^ 2) / (3 / 4) / ν) ^ (ν + 2)
      = Real.exp (2 * c) * ((1 + x ^ 2 / ν) ^ (ν + 1) * (1 + y ^ 2 / ν) ^ (ν + 1) *
        (1 + (x' ^ 2 - x' * y' + y' ^ 2) / (3 / 4) / ν) ^ (ν + 2)) := by
  have h0 : (0 : ℝ) < ν := by exact_mod_cast hν
  have p1 : ∀ u : ℝ, 0 < 1 + u ^ 2 / ν := fun u => by positivity
  have p2 : ∀ u v : ℝ, 0 < 1 + (u ^ 2 - u * v + v ^ 2) / (3 / 4) / ν := fun u v => by
    have : 0 ≤ u ^ 2 - u * v + v ^ 2 := by nlinarith [sq_nonneg (u - v), sq_nonneg (u + v)]
    positivity
  refine Real.log_injOn_pos (Set.mem_Ioi.2 (mul_pos (mul_pos (pow_pos (p1 _) _) (pow_pos (p1 _) _)) (pow_pos (p2 _ _) _)))
    (Set.mem_Ioi.2 (mul_pos (Real.exp_pos _) (mul_pos (mul_pos (pow_pos (p1 _) _) (pow_pos (p1 _) _)) (pow_pos (p2 _ _) _)))) ?_
  rw [Real.log_mul (Real.exp_pos _).ne' (mul_pos (mul_pos (pow_pos (p1 _) _) (pow_pos (p1 _) _)) (pow_pos (p2 _ _) _)).ne']
  have hl : ∀ u v u' v' : ℝ, Real.log ((1 + u ^ 2 / ν) ^ (ν + 1) * (1 + v ^ 2 / ν) ^ (ν + 1) *
      (1 + (u' ^ 2 - u' * v' + v' ^ 2) / (3 / 4) / ν) ^ (ν + 2)) = (ν + 1) * (Real.log (1 + u ^ 2 / ν) + Real.log (1 + v ^ 2 / ν))
      + (ν + 2) * Real.log (1 + (u' ^ 2 - u' * v' + v' ^ 2) / (3 / 4) / ν) := fun u v u' v' => by
    rw [Real.log_mul (mul_pos (pow_pos (p1 _) _) (pow_pos (p1 _) _)).ne' (pow_pos (p2 _ _) _).ne',
      Real.log_mul (pow_pos (p1 _) _).ne' (pow_pos (p1 _) _).ne', Real.log_pow, Real.log_pow, Real.log_pow]
    push_cast
    ring
  rw [hl, hl, Real.log_exp]
  unfold studentPmi at h
  have q : ∀ u v : ℝ, (u ^ 2 - 2 * (1 / 2) * u * v + v ^ 2) / (1 - (1 / 2 : ℝ) ^ 2) = (u ^ 2 - u * v + v ^ 2) / (3 / 4) := fun u v => by
    norm_num
  rw [q, q] at h
  linarith

open Polynomial in
/-- Two products of powers of quadratic polynomials which agree at the nodes agree at complex numbers. -/
theorem quadratics {ν : ℕ} (hν : 4 * ν + 6 < 71) (P Q P' Q' : ℝ[X]) (hP : P.natDegree ≤ 2) (hQ : Q.natDegree ≤ 2) (hP' : P'.natDegree ≤ 2)
    (hQ' : Q'.natDegree ≤ 2) (k k' : ℝ) (h : ∀ i, k * (P.eval (node i)) ^ (ν + 1) * (Q.eval (node i)) ^ (ν + 2)
      = k' * (P'.eval (node i)) ^ (ν + 1) * (Q'.eval (node i)) ^ (ν + 2)) (z : ℂ) :
    (k : ℂ) * aeval z P ^ (ν + 1) * aeval z Q ^ (ν + 2) = k' * aeval z P' ^ (ν + 1) * aeval z Q' ^ (ν + 2) := by
  have deg : ∀ (U V : ℝ[X]) (c : ℝ), U.natDegree ≤ 2 → V.natDegree ≤ 2 → (C c * U ^ (ν + 1) * V ^ (ν + 2)).natDegree ≤ 4 * ν + 6 := by
    intro U V c hU hV
    have h1 : (C c * U ^ (ν + 1)).natDegree ≤ (ν + 1) * 2 :=
      (natDegree_C_mul_le _ _).trans (natDegree_pow_le_of_le _ hU)
    have h2 : (V ^ (ν + 2)).natDegree ≤ (ν + 2) * 2 := natDegree_pow_le_of_le _ hV
    refine natDegree_mul_le.trans ?_
    omega
  have e : C k * P ^ (ν + 1) * Q ^ (ν + 2) = C k' * P' ^ (ν + 1) * Q' ^ (ν + 2) := by
    refine eq_of_natDegree_lt_card_of_eval_eq _ _ node_injective (fun i => ?_) ?_
    · simpa using h i
    · rw [Fintype.card_fin]
      exact (max_le (deg _ _ _ hP hQ) (deg _ _ _ hP' hQ')).trans_lt hν
  have := congrArg (aeval z) e
  simpa using this

theorem re_im (u v : ℝ) (h : (u : ℂ) + v * Complex.I = 0) : u = 0 ∧ v = 0 := by
  have h1 := congrArg Complex.re h
  have h2 := congrArg Complex.im h
  simp at h1 h2
  exact ⟨h1, h2⟩

/-- The discriminant: the joint and the marginal quadratic form have no complex zero in common. -/
theorem no_common_zero {ν : ℝ} (hν : 0 < ν) (x : ℝ) (z : ℂ) (h : 1 + z ^ 2 / (ν : ℂ) = 0) :
    1 + ((x : ℂ) ^ 2 - x * z + z ^ 2) / (3 / 4) / (ν : ℂ) ≠ 0 := by
  intro h'
  have hc : (ν : ℂ) ≠ 0 := by exact_mod_cast hν.ne'
  have e1 : z ^ 2 = -ν := by
    field_simp at h
    linear_combination h
  have e2 : (x : ℂ) ^ 2 - x * z + z ^ 2 = -(3 / 4) * ν := by
    field_simp at h'
    linear_combination h' / 4
  have e3 : (x : ℂ) * z = ((x ^ 2 - ν / 4 : ℝ) : ℂ) := by
    push_cast
    linear_combination e1 - e2
  have e4 : ((x : ℂ) * z) ^ 2 = ((x ^ 2 - ν / 4 : ℝ) : ℂ) ^ 2 := by rw [e3]
  rw [mul_pow, e1] at e4
  have e5 : x ^ 2 * (-ν) = (x ^ 2 - ν / 4) ^ 2 := by exact_mod_cast e4
  have e6 : x ^ 2 * ν = 0 := le_antisymm (by nlinarith [sq_nonneg (x ^ 2 - ν / 4)]) (by positivity)
  have e7 : x ^ 2 = 0 := by
    rcases mul_eq_zero.1 e6 with h | h
    · exact h
    · exact absurd h hν.ne'
  rw [e7] at e5
  nlinarith

/-- **C89**, the columns of the Student-t pairs: with a critic which is right in the coordinates it has been trained in, the two panels
agree only if the points happen to be standardised already. -/
theorem student_agree_iff {ε : ℝ} {n ν : ℕ} (h0 : 0 < ν) (hν : 4 * ν + 6 < 71) {w : Fin n → ℝ × ℝ} {f : Critic}
    (hf : Right ε w (studentPmi ν (1 / 2)) f) {im im' : Image} (h : Shows im fun x y => f [x] [y])
    (h' : Shows im' (studentPmi ν (1 / 2))) :
    Agree im im' ↔ unit ε (fun i => (w i).1) = 1 ∧ unit ε (fun i => (w i).2) = 1 ∧
      mean (fun i => (w i).1) = 0 ∧ mean (fun i => (w i).2) = 0 := by
  obtain ⟨a, ha⟩ := right_value hf
  have hs := unit_pos ε fun i => (w i).1
  have ht := unit_pos ε fun i => (w i).2
  rw [agree_iff h h']
  simp only [ha]
  generalize unit ε (fun i => (w i).1) = s at *
  generalize unit ε (fun i => (w i).2) = t at *
  generalize mean (fun i => (w i).1) = p at *
  generalize mean (fun i => (w i).2) = q at *
  constructor
  swap
  · rintro ⟨rfl, rfl, rfl, rfl⟩
    exact ⟨fun j => a (node j), fun i j => by rw [one_mul, one_mul, zero_add, zero_add]⟩
  rintro ⟨b, hb⟩
  have hn : (0 : ℝ) < ν := by exact_mod_cast h0
  have hc : (ν : ℂ) ≠ 0 := by exact_mod_cast h0.ne'
  have key : ∀ (j : Fin 71) (z : ℂ), ((1 + (p + s * node j) ^ 2 / ν : ℝ) ^ (ν + 1) : ℝ) * (1 + (q + t * z) ^ 2 / (ν : ℂ)) ^ (ν + 1) *
      (1 + ((node j : ℂ) ^ 2 - node j * z + z ^ 2) / (3 / 4) / (ν : ℂ)) ^ (ν + 2)
      = ((Real.exp (2 * (b j - a (node j))) * (1 + node j ^ 2 / ν : ℝ) ^ (ν + 1) : ℝ) : ℂ) * (1 + z ^ 2 / (ν : ℂ)) ^ (ν + 1) *
      (1 + (((p + s * node j : ℝ) : ℂ) ^ 2 - ((p + s * node j : ℝ) : ℂ) * (q + t * z) + (q + t * z) ^ 2) / (3 / 4) / (ν : ℂ)) ^ (ν + 2) := by
    intro j z
    open Polynomial in
    have hq := quadratics hν (1 + C (ν : ℝ)⁻¹ * (C q + C t * X) ^ 2)
      (1 + C ((3 / 4)⁻¹ * (ν : ℝ)⁻¹) * (C (node j ^ 2) - C (node j) * X + X ^ 2)) (1 + C (ν : ℝ)⁻¹ * X ^ 2)
      (1 + C ((3 / 4)⁻¹ * (ν : ℝ)⁻¹) * (C ((p + s * node j) ^ 2) - C (p + s * node j) * (C q + C t * X) + (C q + C t * X) ^ 2))
      (by compute_degree) (by compute_degree) (by compute_degree) (by compute_degree)
      ((1 + (p + s * node j) ^ 2 / ν : ℝ) ^ (ν + 1)) (Real.exp (2 * (b j - a (node j))) * (1 + node j ^ 2 / ν : ℝ) ^ (ν + 1))
      (fun i => by
        have := studentPmi_exp h0 (node j) (node i) (p + s * node j) (q + t * node i) (b j - a (node j)) (by linarith [hb i j])
        simp only [eval_add, eval_one, eval_mul, eval_C, eval_pow, eval_X, eval_sub]
        have e1 : 1 + (ν : ℝ)⁻¹ * (q + t * node i) ^ 2 = 1 + (q + t * node i) ^ 2 / ν := by ring
        have e2 : 1 + (3 / 4)⁻¹ * (ν : ℝ)⁻¹ * (node j ^ 2 - node j * node i + node i ^ 2)
            = 1 + (node j ^ 2 - node j * node i + node i ^ 2) / (3 / 4) / ν := by ring
        have e3 : 1 + (ν : ℝ)⁻¹ * node i ^ 2 = 1 + node i ^ 2 / ν := by ring
        have e4 : 1 + (3 / 4)⁻¹ * (ν : ℝ)⁻¹ * ((p + s * node j) ^ 2 - (p + s * node j) * (q + t * node i) + (q + t * node i) ^ 2)
            = 1 + ((p + s * node j) ^ 2 - (p + s * node j) * (q + t * node i) + (q + t * node i) ^ 2) / (3 / 4) / ν := by ring
        rw [e1, e2, e3, e4, this]
        ring) z
    simp only [map_add, map_one, map_mul, aeval_C, map_pow, aeval_X, map_sub, Complex.coe_algebraMap] at hq
    have f1 : 1 + ((ν : ℝ)⁻¹ : ℝ) * ((q : ℂ) + t * z) ^ 2 = 1 + (q + t * z) ^ 2 / (ν : ℂ) := by push_cast; ring
    have f2 : 1 + (((3 / 4 : ℝ)⁻¹ : ℝ) : ℂ) * ((ν : ℝ)⁻¹ : ℝ) * ((node j : ℂ) ^ 2 - node j * z + z ^ 2)
        = 1 + ((node j : ℂ) ^ 2 - node j * z + z ^ 2) / (3 / 4) / (ν : ℂ) := by push_cast; ring
    have f3 : 1 + ((ν : ℝ)⁻¹ : ℝ) * z ^ 2 = 1 + z ^ 2 / (ν : ℂ) := by push_cast; ring
    have f4 : 1 + (((3 / 4 : ℝ)⁻¹ : ℝ) : ℂ) * ((ν : ℝ)⁻¹ : ℝ) * (((p : ℂ) + s * node j) ^ 2 - (p + s * node j) * (q + t * z) + (q + t * z) ^ 2)
        = 1 + (((p : ℂ) + s * node j) ^ 2 - (p + s * node j) * (q + t * z) + (q + t * z) ^ 2) / (3 / 4) / (ν : ℂ) := by push_cast; ring
    push_cast at hq f1 f2 f3 f4 ⊢
    rw [f1, f2, f3, f4] at hq
    exact hq
  have k1 : ∀ j, (((1 + (p + s * node j) ^ 2 / ν : ℝ) ^ (ν + 1) : ℝ) : ℂ) ≠ 0 := fun j => by
    exact_mod_cast (show ((1 + (p + s * node j) ^ 2 / ν : ℝ) ^ (ν + 1) : ℝ) ≠ 0 by positivity)
  have hqt : q = 0 ∧ t = 1 := by
    set z : ℂ := (√(ν : ℝ) : ℝ) * Complex.I with hz
    have hz2 : z ^ 2 = -(ν : ℂ) := by
      rw [hz, mul_pow, Complex.I_sq, ← Complex.ofReal_pow, Real.sq_sqrt hn.le]
      push_cast
      ring
    have hr : 1 + z ^ 2 / (ν : ℂ) = 0 := by
      rw [hz2]
      field_simp
      ring
    have hk := key 35 z
    rw [hr, zero_pow (by omega), mul_zero, zero_mul, mul_eq_zero, mul_eq_zero] at hk
    have hB := no_common_zero hn (node 35) z (by exact_mod_cast hr)
    have hA : 1 + (q + t * z) ^ 2 / (ν : ℂ) = 0 := by
      rcases hk with (hk | hk) | hk
      · exact absurd hk (k1 35)
      · exact pow_eq_zero_iff (by omega) |>.1 hk
      · exact absurd (pow_eq_zero_iff (by omega) |>.1 hk) (by exact_mod_cast hB)
    have hA' : ((q : ℂ) + t * z) ^ 2 = -(ν : ℂ) := by
      field_simp at hA
      linear_combination hA
    obtain ⟨hre, him⟩ := re_im (q ^ 2 - t ^ 2 * ν + ν) (2 * q * t * √(ν : ℝ)) (by
      push_cast
      linear_combination hA' - (t : ℂ) ^ 2 * hz2 - 2 * q * t * hz)
    replace him : q * t * √(ν : ℝ) = 0 := by linarith
    have hq : q = 0 := by
      have := Real.sqrt_pos.2 hn
      rcases mul_eq_zero.1 him with h | h
      · rcases mul_eq_zero.1 h with h | h
        · exact h
        · exact absurd h ht.ne'
      · exact absurd h this.ne'
    refine ⟨hq, ?_⟩
    rw [hq] at hre
    have : t ^ 2 = 1 := by
      have : (t ^ 2 - 1) * ν = 0 := by linarith
      rcases mul_eq_zero.1 this with h | h
      · linarith
      · exact absurd h hn.ne'
    nlinarith
  obtain ⟨rfl, rfl⟩ := hqt
  have hx : ∀ j, p + s * node j = node j := by
    intro j
    set x' := p + s * node j with hx'
    -- a zero of the joint form at `x'`
    obtain ⟨z, hz⟩ : ∃ z : ℂ, z = ((x' / 2 : ℝ) : ℂ) + ((√((3 / 4) * (x' ^ 2 + ν)) : ℝ) : ℂ) * Complex.I := ⟨_, rfl⟩
    have hpos : 0 < (3 / 4) * (x' ^ 2 + ν) := by positivity
    have hD : (x' : ℂ) ^ 2 - x' * z + z ^ 2 = -(3 / 4) * ν := by
      have hsq : ((√((3 / 4) * (x' ^ 2 + ν)) : ℝ) : ℂ) ^ 2 = (3 / 4) * (x' ^ 2 + ν) := by
        rw [← Complex.ofReal_pow, Real.sq_sqrt hpos.le]
        push_cast
        ring
      have hI : (((√((3 / 4) * (x' ^ 2 + ν)) : ℝ) : ℂ) * Complex.I) ^ 2 = -((3 / 4) * (x' ^ 2 + ν)) := by
        rw [mul_pow, Complex.I_sq, hsq]
        ring
      rw [hz]
      push_cast
      linear_combination hI
    have hk := key j z
    have hD' : 1 + ((x' : ℂ) ^ 2 - x' * ((0 : ℝ) + (1 : ℝ) * z) + ((0 : ℝ) + (1 : ℝ) * z) ^ 2) / (3 / 4) / (ν : ℂ) = 0 := by
      push_cast
      rw [zero_add, one_mul, hD]
      field_simp
      ring
    rw [hD', zero_pow (by omega), mul_zero, mul_eq_zero, mul_eq_zero] at hk
    have hB : 1 + ((node j : ℂ) ^ 2 - node j * z + z ^ 2) / (3 / 4) / (ν : ℂ) = 0 := by
      rcases hk with (hk | hk) | hk
      · exact absurd hk (k1 j)
      · have hC := pow_eq_zero_iff (by omega) |>.1 hk
        push_cast at hC
        rw [zero_add, one_mul] at hC
        refine absurd ?_ (no_common_zero hn x' z (by exact_mod_cast hC))
        push_cast
        rw [hD]
        field_simp
        ring
      · exact pow_eq_zero_iff (by omega) |>.1 hk
    have hB' : (node j : ℂ) ^ 2 - node j * z + z ^ 2 = -(3 / 4) * ν := by
      field_simp at hB
      linear_combination hB / 4
    have e : (x' - node j : ℂ) * z = ((x' ^ 2 - node j ^ 2 : ℝ) : ℂ) := by
      push_cast
      linear_combination hB' - hD
    obtain ⟨-, ei⟩ := re_im ((x' - node j) * (x' / 2) - (x' ^ 2 - node j ^ 2)) ((x' - node j) * √((3 / 4) * (x' ^ 2 + ν))) (by
      rw [hz] at e
      push_cast at e ⊢
      linear_combination e)
    rcases mul_eq_zero.1 ei with h | h
    · linarith
    · exact absurd h (Real.sqrt_pos.2 hpos).ne'
  have x0 := hx 35
  have x1 := hx 42
  rw [node35] at x0
  rw [node42] at x1
  refine ⟨by linarith, rfl, by linarith, rfl⟩

/-! ## Points are almost never standardised -/

theorem line_null (c : ℝ) (μ : Measure (Fin 2 → ℝ)) (hμ : μ ≪ volume) : coordinates μ {z | z.1 - z.2 / 2 = c} = 0 := by
  have hm : MeasurableSet {z : ℝ × ℝ | z.1 - z.2 / 2 = c} :=
    measurableSet_eq_fun (measurable_fst.sub (measurable_snd.div_const 2)) measurable_const
  have hc : Measurable fun z : Fin 2 → ℝ => (z 0, z 1) := (measurable_pi_apply 0).prodMk (measurable_pi_apply 1)
  unfold coordinates
  rw [Measure.map_apply hc hm]
  refine hμ ?_
  have h2 := (volume_preserving_finTwoArrow ℝ).measure_preimage hm.nullMeasurableSet
  have h3 : (volume : Measure (ℝ × ℝ)) {z | z.1 - z.2 / 2 = c} = 0 := by
    rw [Measure.volume_eq_prod, Measure.prod_apply_symm hm]
    simp only [lintegral_eq_zero_iff (measurable_measure_prodMk_right hm)]
    refine Filter.Eventually.of_forall fun y => ?_
    have : (fun x : ℝ => (x, y)) ⁻¹' {z : ℝ × ℝ | z.1 - z.2 / 2 = c} = {c + y / 2} := by
      ext x
      simp only [Set.mem_preimage, Set.mem_setOf_eq, Set.mem_singleton_iff]
      constructor <;> intro h <;> linarith
    beta_reduce
    rw [this]
    simp
  rw [h3] at h2
  exact h2

/-- Sums of independent numbers without atoms have none. -/
theorem sum_null {α : Type} [MeasurableSpace α] (μ : Measure α) [IsProbabilityMeasure μ] {h : α → ℝ} (hh : Measurable h)
    (h0 : ∀ c, μ {a | h a = c} = 0) (n : ℕ) (hn : 0 < n) : (Measure.pi fun _ : Fin n => μ) {w | ∑ i, h (w i) = 0} = 0 := by
  obtain ⟨m, rfl⟩ := Nat.exists_eq_succ_of_ne_zero hn.ne'
  have hp := measurePreserving_piFinSuccAbove (fun _ : Fin (m + 1) => μ) 0
  have hm : MeasurableSet {p : α × (Fin m → α) | h p.1 + ∑ i, h (p.2 i) = 0} :=
    measurableSet_eq_fun ((hh.comp measurable_fst).add
      (Finset.measurable_sum _ fun i _ => hh.comp ((measurable_pi_apply i).comp measurable_snd))) measurable_const
  have h2 := hp.measure_preimage hm.nullMeasurableSet
  have e : (MeasurableEquiv.piFinSuccAbove (fun _ : Fin (m + 1) => α) 0) ⁻¹' {p : α × (Fin m → α) | h p.1 + ∑ i, h (p.2 i) = 0}
      = {w | ∑ i, h (w i) = 0} := by
    ext w
    simp only [Set.mem_preimage, Set.mem_setOf_eq, Fin.sum_univ_succ]
    rfl
  rw [e] at h2
  refine h2.trans ?_
  rw [Measure.prod_apply_symm hm, lintegral_eq_zero_iff (measurable_measure_prodMk_right hm)]
  refine Filter.Eventually.of_forall fun y => ?_
  have : (fun x : α => (x, y)) ⁻¹' {p : α × (Fin m → α) | h p.1 + ∑ i, h (p.2 i) = 0} = {a | h a = -∑ i, h (y i)} := by
    ext x
    simp only [Set.mem_preimage, Set.mem_setOf_eq]
    constructor <;> intro h <;> linarith
  beta_reduce
  rw [this]
  exact h0 _

theorem means_ne {Ω : Type} [MeasurableSpace Ω] {κ : Measure Ω} {μ : Measure (Fin 2 → ℝ)} [IsProbabilityMeasure μ] (hμ : μ ≪ volume)
    {n : ℕ} (hn : 0 < n) {g : Ω → Fin n → ℝ × ℝ} (hg : MeasurePreserving g κ (Measure.pi fun _ => coordinates μ)) :
    ∀ᵐ k ∂κ, mean (fun i => (g k i).1) ≠ mean (fun i => (g k i).2) / 2 := by
  have hc : Measurable fun z : Fin 2 → ℝ => (z 0, z 1) := (measurable_pi_apply 0).prodMk (measurable_pi_apply 1)
  haveI : IsProbabilityMeasure (coordinates μ) := Measure.isProbabilityMeasure_map hc.aemeasurable
  have h := sum_null (coordinates μ) (h := fun z => z.1 - z.2 / 2) (measurable_fst.sub (measurable_snd.div_const 2))
    (fun c => line_null c μ hμ) n hn
  have h' : ∀ᵐ w ∂(Measure.pi fun _ : Fin n => coordinates μ), ∑ i, ((w i).1 - (w i).2 / 2) ≠ 0 := by
    rw [ae_iff]
    simpa using h
  filter_upwards [hg.quasiMeasurePreserving.ae h'] with k hk he
  refine hk ?_
  unfold mean at he
  have hn' : (n : ℝ) ≠ 0 := by exact_mod_cast hn.ne'
  rw [Finset.sum_sub_distrib, ← Finset.sum_div]
  field_simp at he
  linarith

theorem normalLaw_ac : normalLaw 0 half ≪ volume := by
  rw [normalLaw_density 0 half_posDef]
  exact withDensity_absolutelyContinuous _ _

theorem studentLaw_ac {ν : ℝ} (hν : 0 < ν) : studentLaw 0 half ν ≪ volume := by
  rw [studentLaw_density 0 half_posDef hν]
  exact withDensity_absolutelyContinuous _ _

/-- **C89**, the negation for the normal column: almost surely the lower panel disagrees with the upper one if the critic is right. -/
theorem normal_disagree {K : Type} [MeasurableSpace K] {R : JaxRandom K} {κ : Measure K} (hR : IdealRandom R κ) (ε : ℝ) :
    ∀ᵐ k ∂κ, ∀ (f : Critic) (im im' : Image), Right ε (normalPoints R k) (normalPmi (1 / 2)) f → (Shows im fun x y => f [x] [y]) →
      Shows im' (normalPmi (1 / 2)) → ¬Agree im im' := by
  filter_upwards [means_ne normalLaw_ac (by norm_num) (normalPoints_law hR).1] with k hk f im im' hf h h' ha
  exact hk ((normal_agree_iff hf h h').1 ha).2.2

/-- **C89**, the negation for the columns of the Student-t pairs. -/
theorem student_disagree {State : Type} [MeasurableSpace State] {N : NpRandom State} {κ : Measure State} (hN : IdealStudent N κ)
    (ε : ℝ) (df : ℕ) (hdf : df ∈ [1, 2, 3, 5, 10]) :
    ∀ᵐ s ∂κ, ∀ (f : Critic) (im im' : Image), Right ε (studentPoints N df s) (studentPmi df (1 / 2)) f →
      (Shows im fun x y => f [x] [y]) → Shows im' (studentPmi df (1 / 2)) → ¬Agree im im' := by
  obtain ⟨h0, h1⟩ : 0 < df ∧ 4 * df + 6 < 71 := (by decide : ∀ df ∈ [1, 2, 3, 5, 10], 0 < df ∧ 4 * df + 6 < 71) df hdf
  have h0' : (0 : ℝ) < df := by exact_mod_cast h0
  haveI := studentLaw_prob 0 half h0'
  filter_upwards [means_ne (studentLaw_ac h0') (by norm_num) (studentPoints_law hN h0').1] with s hs f im im' hf h h' ha
  obtain ⟨-, -, e1, e2⟩ := (student_agree_iff h0 h1 hf h h').1 ha
  exact hs (by rw [e1, e2, zero_div])

/-- A critic which is right exists, whatever the points are. -/
theorem right_exists (ε : ℝ) {n : ℕ} (w : Fin n → ℝ × ℝ) (r : ℝ → ℝ → ℝ) : ∃ f, Right ε w r f := by
  refine ⟨fun x y => r (mean (fun i => (w i).1) + unit ε (fun i => (w i).1) * x.headD 0)
    (mean (fun i => (w i).2) + unit ε (fun i => (w i).2) * y.headD 0), 0, fun x y => ?_⟩
  have h1 := (unit_pos ε fun i => (w i).1).ne'
  have h2 := (unit_pos ε fun i => (w i).2).ne'
  simp only [List.headD_cons, standard, Pi.zero_apply, add_zero]
  congr 1 <;> field_simp <;> ring

/-- Densities as documented by SciPy. -/
noncomputable def scipy : SciPy where
  tPdf _ loc S ν z := Real.exp (studentLog loc S ν z)
  normalPdf _ loc S z := Real.exp (logDensity loc S z)

theorem scipy_ideal : IdealPdf scipy where
  student _ loc _ _ hS hν := ⟨Real.continuous_exp.comp (continuous_studentLog loc hS hν), fun _ => (Real.exp_pos _).le,
    studentLaw_density loc hS hν⟩
  normal _ loc S hS := ⟨Real.continuous_exp.comp (continuous_logDensity loc S), fun _ => (Real.exp_pos _).le, normalLaw_density loc hS⟩

example : studentLogpdfratio scipy 0 0 1 half = studentPmi 1 (1 / 2) 0 0 ∧ gaussianLogpdfratio scipy 1 2 half = normalPmi (1 / 2) 1 2 :=
  ⟨student_logpdfratio scipy_ideal one_pos 0 0, gaussian_logpdfratio scipy_ideal 1 2⟩

/-- The hypotheses of `figure_spec` hold for a plain library and any randomness. -/
example {State : Type} (N : NpRandom State) : ∃ columns, figure scipy pathRandom N CriticPlots.pathLib 0
    (fun _ _ _ => .num 0, fun _ _ _ => .num 0) = .ok columns ∧ columns.length = 6 := by
  obtain ⟨students, gauss, h, h1, -⟩ := figure_spec scipy_ideal pathRandom N (lib := CriticPlots.pathLib)
    { split_length := fun _ n => List.length_replicate
      indices_length := fun _ _ b _ => List.length_range
      indices_lt := fun _ _ b h i hi => (List.mem_range.1 hi).trans_le h
      indices_nodup := fun _ _ _ _ => List.nodup_range
      permutation := fun _ _ => List.reverse_perm _
      shuffle := fun _ _ => List.reverse_perm _ } (fun _ => ⟨0, rfl⟩) 0 (fun _ _ _ => .num 0, fun _ _ _ => .num 0)
  refine ⟨_, h, ?_⟩
  rw [List.length_append, ← h1.length_eq]
  rfl

/-- The randomness of the negations exists, so do the right critics, and panels showing them. -/
example (ε : ℝ) : ∀ᵐ s ∂tableLaw, ∃ (f : Critic) (im im' : Image),
    Right ε (studentPoints table ((3 : ℕ) : ℝ) s) (studentPmi ((3 : ℕ) : ℝ) (1 / 2)) f ∧
      Shows im (fun x y => f [x] [y]) ∧ Shows im' (studentPmi ((3 : ℕ) : ℝ) (1 / 2)) ∧ ¬Agree im im' := by
  filter_upwards [student_disagree table_ideal ε 3 (by decide)] with s hs
  obtain ⟨f, hf⟩ := right_exists ε (studentPoints table ((3 : ℕ) : ℝ) s) (studentPmi ((3 : ℕ) : ℝ) (1 / 2))
  exact ⟨f, _, _, hf, shows_grid fun x y => f [x] [y], shows_grid _, hs f _ _ hf (shows_grid fun x y => f [x] [y]) (shows_grid _)⟩

example (ε : ℝ) {K : Type} [MeasurableSpace K] {R : JaxRandom K} {κ : Measure K} (hR : IdealRandom R κ) :
    ∀ᵐ k ∂κ, ∃ (f : Critic) (im im' : Image), Right ε (normalPoints R k) (normalPmi (1 / 2)) f ∧
      Shows im (fun x y => f [x] [y]) ∧ Shows im' (normalPmi (1 / 2)) ∧ ¬Agree im im' := by
  filter_upwards [normal_disagree hR ε] with k hk
  obtain ⟨f, hf⟩ := right_exists ε (normalPoints R k) (normalPmi (1 / 2))
  exact ⟨f, _, _, hf, shows_grid fun x y => f [x] [y], shows_grid _, hk f _ _ hf (shows_grid fun x y => f [x] [y]) (shows_grid _)⟩

/-- Points which happen to be standardised: the panels can agree. -/
example : unit 0 (fun i : Fin 2 => if i = 0 then (-1 : ℝ) else 1) = 1 ∧ mean (fun i : Fin 2 => if i = 0 then (-1 : ℝ) else 1) = 0 := by
  have hm : mean (fun i : Fin 2 => if i = 0 then (-1 : ℝ) else 1) = 0 := by norm_num [mean, Fin.sum_univ_two]
  have hd : deviation (fun i : Fin 2 => if i = 0 then (-1 : ℝ) else 1) = 1 := by
    unfold deviation
    rw [hm]
    norm_num [Fin.sum_univ_two]
  refine ⟨?_, hm⟩
  unfold unit
  rw [hd, hm]
  simp

end BMI.PmiFigure
