import Verif.Lemmas.Digamma
import Verif.Lemmas.StudentCov
import Verif.Lemmas.StudentWitness
import Verif.Props.Multinormal
import Mathlib.Data.Nat.Factorial.Basic

/-! Properties C11, C12, C55 and C56 (Student-t sampler), over /repo/src/bmi/samplers/_split_student_t.py. -/

namespace BMI.Student

open MeasureTheory ProbabilityTheory BMI.Samplers

variable {Key State : Type}

theorem differentialEntropy_real (k : ℕ) (ν : ℝ) : differentialEntropy realFns k ν = studentEntropy k ν := by
  unfold differentialEntropy studentEntropy
  simp only [realFns, id]
  rw [show (0.5 : ℝ) * (ν + k) = (ν + k) / 2 by ring, show (0.5 : ℝ) * ν = ν / 2 by ring]
  ring

theorem correction_real (ν : ℝ) (dx dy : ℕ) : miCorrectionFunction realFns ν dx dy
    = studentEntropy dx ν + studentEntropy dy ν - studentEntropy (dx + dy) ν := by
  unfold miCorrectionFunction
  simp only [differentialEntropy_real]
  rfl

/-- The constructor, once the multinormal constructor has succeeded. -/
theorem splitStudentT_of (R : JaxRandom Key) (N : NpRandom State) (dx dy : ℕ) (hx : 0 < dx) (hy : 0 < dy) (df : ℝ)
    (disp : Arr) (mean : Option (List ℝ)) {s : Sampler Key}
    (hs : splitMultinormal R dx dy disp (some (mean.getD (List.replicate (dx + dy) 0))) = .ok s) :
    splitStudentT R N dx dy df disp mean = if df ≤ 0 then .error .valueError else .ok
      { sampler :=
          { dimX := .ok dx
            dimY := .ok dy
            sample := fun n rng => do
              let state ← checkRandomState N rng
              let xy := rowsOf (N.multivariateT state n (dx + dy) (toVec (dx + dy) (mean.getD (List.replicate (dx + dy) 0)))
                (toMatrix (dx + dy) disp) df)
              if n = 1 then .error .assertionError
              else .ok (xy.map (·.take dx), xy.map (·.drop dx))
            mi := s.mi + miCorrectionFunction realFns df dx dy }
        df := df
        covariance := if df ≤ 2 then .error .valueError
          else .ok (disp.map (·.map fun x => df * x / (df - 2.0)))
        miNormal := s.mi
        miCorrection := miCorrectionFunction realFns df dx dy } := by
  unfold splitStudentT
  show (Except.bind (validateDimensions dx dy) fun _ => _) = _
  rw [validateDimensions_of (by omega) (by omega)]
  simp only [Except.bind, Int.toNat_natCast]
  rw [hs]
  show (Except.bind (checkDf realFns df) fun _ => _) = _
  unfold checkDf
  by_cases h : df ≤ 0
  · rw [if_pos h, if_pos (show realFns.nonpos df from h)]
    rfl
  · rw [if_neg h, if_neg (show ¬ realFns.nonpos df from h)]
    rfl

/-! ## C11 -/

/-- **C11**: for every location, positive-definite dispersion and `df > 0`, the two parts of a multivariate Student-t vector
have the mutual information that the sampler reports, which is positive; and unless a single point is asked for, `sample`
draws independent pairs from that law. -/
theorem splitStudentT_correct [MeasurableSpace State] (R : JaxRandom Key) (N : NpRandom State) (κ : Measure State)
    (hN : IdealStudent N κ) (dx dy : ℕ) (hx : 0 < dx) (hy : 0 < dy) (loc : Fin (dx + dy) → ℝ)
    (S : Matrix (Fin (dx + dy)) (Fin (dx + dy)) ℝ) (hS : S.PosDef) (df : ℝ) (hdf : 0 < df) :
    ∃ t, splitStudentT R N dx dy df (rowsOf S) (some (List.ofFn loc)) = .ok t ∧
      t.sampler.dimX = .ok dx ∧ t.sampler.dimY = .ok dy ∧ t.df = df ∧ 0 < t.sampler.mi ∧
      mutualInfo ((studentLaw loc S df).map fun z =>
        ((fun i => z (Fin.castAdd dy i), fun i => z (Fin.natAdd dx i)) : (Fin dx → ℝ) × (Fin dy → ℝ)))
          = ENNReal.ofReal t.sampler.mi ∧
      ∀ n, n ≠ 1 → ∃ draw : State → Fin n → (Fin dx → ℝ) × (Fin dy → ℝ), Measurable draw ∧
        (∀ k, t.sampler.sample n (.key k) = .ok (rowsOf fun i => (draw k i).1, rowsOf fun i => (draw k i).2)) ∧
        κ.map draw = Measure.pi fun _ => (studentLaw loc S df).map fun z =>
          ((fun i => z (Fin.castAdd dy i), fun i => z (Fin.natAdd dx i)) : (Fin dx → ℝ) × (Fin dy → ℝ)) := by
  obtain ⟨s, hs, hmi⟩ := splitMultinormal_number R dx dy hx hy loc S hS
  have ht := splitStudentT_of R N dx dy hx hy df (rowsOf S) (some (List.ofFn loc)) (s := s) (by simpa using hs)
  rw [if_neg (not_le.2 hdf)] at ht
  obtain ⟨h1, h2⟩ := splitStudent_mi (dx := dx) (dy := dy) loc hS hdf
  have h0 := (splitNormal_mi loc hS).2
  refine ⟨_, ht, rfl, rfl, rfl, ?_, ?_, fun n hn => ?_⟩
  · show 0 < s.mi + _
    rw [correction_real, hmi]
    have := studentEntropy_lt (dx := dx) (dy := dy) hx hy hdf
    linarith
  · refine Eq.trans h1 ?_
    show _ = ENNReal.ofReal (s.mi + _)
    rw [correction_real, hmi]
  · obtain ⟨hm, hl⟩ := hN.2 n (dx + dy) loc S df hS hdf
    have hp : Measurable fun (z : Fin n → Fin (dx + dy) → ℝ) i => (parts (z i) : (Fin dx → ℝ) × (Fin dy → ℝ)) :=
      measurable_pi_lambda _ fun i => (measurable_parts dx dy).comp (measurable_pi_apply i)
    refine ⟨fun k i => parts (N.multivariateT k n (dx + dy) loc S df i), hp.comp hm, fun k => ?_, ?_⟩
    · show (Except.bind (checkRandomState N (.key k)) fun _ => _) = _
      simp only [checkRandomState, Except.bind, if_neg hn, Option.getD_some, toVec_ofFn, toMatrix_rowsOf]
      show Except.ok _ = _
      rw [rowsOf_map _ (fun r => r.take dx) (fun z => (parts z).1) take_ofFn,
        rowsOf_map _ (fun r => r.drop dx) (fun z => (parts z).2) drop_ofFn]
    · haveI := splitStudent_prob (dx := dx) (dy := dy) loc S hdf
      have h3 := Measure.pi_map_pi (μ := fun _ : Fin n => studentLaw loc S df)
        (f := fun _ z => (parts z : (Fin dx → ℝ) × (Fin dy → ℝ)))
        (hμ := fun _ => inferInstanceAs (SigmaFinite (splitStudent dx dy loc S df)))
        (fun _ => (measurable_parts dx dy).aemeasurable)
      rw [← hl, Measure.map_map hp hm] at h3
      exact h3

example : ∃ t, splitStudentT tree table 1 2 3 (rowsOf (1 : Matrix (Fin 3) (Fin 3) ℝ)) (some (List.ofFn ![1, 2, 3])) = .ok t ∧
    0 < t.sampler.mi := by
  obtain ⟨t, h1, -, -, -, h2, -⟩ := splitStudentT_correct tree table tableLaw table_ideal 1 2 one_pos two_pos ![1, 2, 3] 1
    Matrix.PosDef.one 3 (by norm_num)
  exact ⟨t, h1, h2⟩

/-- **C11**: the reported number is that of the multinormal sampler with the dispersion as covariance, plus a correction
which is the same for all locations and dispersions, positive, and symmetric in the dimensions. -/
theorem splitStudentT_decomposes (R : JaxRandom Key) (N : NpRandom State) (dx dy : ℕ) (hx : 0 < dx) (hy : 0 < dy) (df : ℝ)
    (hdf : 0 < df) : ∃ c : ℝ, 0 < c ∧
      (∀ (loc : Fin (dx + dy) → ℝ) (S : Matrix (Fin (dx + dy)) (Fin (dx + dy)) ℝ), S.PosDef →
        ∃ s t, splitMultinormal R dx dy (rowsOf S) (some (List.ofFn loc)) = .ok s ∧
          splitStudentT R N dx dy df (rowsOf S) (some (List.ofFn loc)) = .ok t ∧
          t.miNormal = s.mi ∧ t.miCorrection = c ∧ t.sampler.mi = s.mi + c) ∧
      (∀ (loc : Fin (dy + dx) → ℝ) (S : Matrix (Fin (dy + dx)) (Fin (dy + dx)) ℝ), S.PosDef →
        ∃ t, splitStudentT R N dy dx df (rowsOf S) (some (List.ofFn loc)) = .ok t ∧ t.miCorrection = c) := by
  refine ⟨miCorrectionFunction realFns df dx dy, ?_, fun loc S hS => ?_, fun loc S hS => ?_⟩
  · rw [correction_real]
    exact studentEntropy_lt hx hy hdf
  · obtain ⟨s, hs, -⟩ := splitMultinormal_number R dx dy hx hy loc S hS
    have ht := splitStudentT_of R N dx dy hx hy df (rowsOf S) (some (List.ofFn loc)) (s := s) (by simpa using hs)
    rw [if_neg (not_le.2 hdf)] at ht
    exact ⟨s, _, hs, ht, rfl, rfl, rfl⟩
  · obtain ⟨s, hs, -⟩ := splitMultinormal_number R dy dx hy hx loc S hS
    have ht := splitStudentT_of R N dy dx hy hx df (rowsOf S) (some (List.ofFn loc)) (s := s) (by simpa using hs)
    rw [if_neg (not_le.2 hdf)] at ht
    refine ⟨_, ht, ?_⟩
    show miCorrectionFunction realFns df dy dx = _
    rw [correction_real, correction_real, add_comm dy dx]
    ring

/-- **C11**: `covariance()` raises `ValueError` exactly for `df ≤ 2`, when no coordinate has a finite variance; otherwise it
returns the covariance matrix of the law that is sampled. -/
theorem splitStudentT_covariance (R : JaxRandom Key) (N : NpRandom State) (dx dy : ℕ) (hx : 0 < dx) (hy : 0 < dy)
    (loc : Fin (dx + dy) → ℝ) (S : Matrix (Fin (dx + dy)) (Fin (dx + dy)) ℝ) (hS : S.PosDef) (df : ℝ) (hdf : 0 < df) :
    ∃ t, splitStudentT R N dx dy df (rowsOf S) (some (List.ofFn loc)) = .ok t ∧
      (df ≤ 2 → t.covariance = .error .valueError ∧
        ∀ i, ¬ MemLp (fun z : Fin (dx + dy) → ℝ => z i) 2 (studentLaw loc S df)) ∧
      (2 < df → t.covariance = .ok (rowsOf fun i j => cov[fun z => z i, fun z => z j; studentLaw loc S df]) ∧
        ∀ i, MemLp (fun z : Fin (dx + dy) → ℝ => z i) 2 (studentLaw loc S df) ∧ ∫ z, z i ∂(studentLaw loc S df) = loc i) := by
  obtain ⟨s, hs, -⟩ := splitMultinormal_number R dx dy hx hy loc S hS
  have ht := splitStudentT_of R N dx dy hx hy df (rowsOf S) (some (List.ofFn loc)) (s := s) (by simpa using hs)
  rw [if_neg (not_le.2 hdf)] at ht
  refine ⟨_, ht, fun h => ⟨if_pos h, studentLaw_not_memLp loc hS hdf h⟩, fun h => ⟨?_, fun i =>
    ⟨studentLaw_memLp loc h i, studentLaw_mean loc h i⟩⟩⟩
  refine (if_neg (not_le.2 h)).trans ?_
  congr 1
  simp only [rowsOf, List.map_ofFn]
  congr 1
  funext i
  simp only [Function.comp_apply, List.map_ofFn]
  congr 1
  funext j
  rw [studentLaw_covariance loc hS.posSemidef h]
  simp only [Function.comp_apply]
  norm_num
  ring

example : ∃ t, splitStudentT tree table 1 1 3 (rowsOf (1 : Matrix (Fin 2) (Fin 2) ℝ)) (some (List.ofFn ![1, 2])) = .ok t ∧
    t.covariance = .ok (rowsOf fun i j =>
      cov[fun z => z i, fun z => z j; studentLaw ![1, 2] (1 : Matrix (Fin 2) (Fin 2) ℝ) 3]) := by
  obtain ⟨t, h1, -, h2⟩ := splitStudentT_covariance tree table 1 1 one_pos one_pos ![1, 2] 1 Matrix.PosDef.one 3 (by norm_num)
  exact ⟨t, h1, (h2 (by norm_num)).1⟩

/-- **C11**: the constructor accepts exactly what the multinormal constructor accepts, with `df > 0`; otherwise it raises
`ValueError`. -/
theorem splitStudentT_accepts_iff (R : JaxRandom Key) (N : NpRandom State) (dimX dimY : ℤ) (df : ℝ) (disp : Arr)
    (mean : Option (List ℝ)) :
    ((∃ t, splitStudentT R N dimX dimY df disp mean = .ok t) ↔
      (∃ s, splitMultinormal R dimX dimY disp mean = .ok s) ∧ 0 < df) ∧
    ((¬ ∃ t, splitStudentT R N dimX dimY df disp mean = .ok t) →
      splitStudentT R N dimX dimY df disp mean = .error .valueError) := by
  rcases validateDimensions_cases dimX dimY with hv | hv
  · obtain ⟨h1, h2⟩ := validateDimensions_ok hv
    obtain ⟨dx, rfl⟩ : ∃ n : ℕ, dimX = n := ⟨dimX.toNat, by omega⟩
    obtain ⟨dy, rfl⟩ : ∃ n : ℕ, dimY = n := ⟨dimY.toNat, by omega⟩
    have e : splitMultinormal R dx dy disp mean
        = splitMultinormal R dx dy disp (some (mean.getD (List.replicate (dx + dy) 0))) := by
      unfold splitMultinormal
      simp
    rw [e]
    rcases splitMultinormal_checks R dx dy disp (some (mean.getD (List.replicate (dx + dy) 0))) with ⟨s, hs, -⟩ | hs
    · rw [splitStudentT_of R N dx dy (by omega) (by omega) df disp mean hs]
      by_cases h : df ≤ 0
      · simp [h, not_lt.2 h]
      · simp [h, hs, not_le.1 h]
    · have : splitStudentT R N dx dy df disp mean = .error .valueError := by
        unfold splitStudentT
        show (Except.bind (validateDimensions dx dy) fun _ => _) = _
        rw [hv]
        simp only [Except.bind, Int.toNat_natCast]
        rw [hs]
        rfl
      rw [this, hs]
      simp
  · have a : splitStudentT R N dimX dimY df disp mean = .error .valueError := by
      unfold splitStudentT
      show (Except.bind (validateDimensions dimX dimY) fun _ => _) = _
      rw [hv]
      rfl
    have b : splitMultinormal R dimX dimY disp mean = .error .valueError := by
      unfold splitMultinormal
      show (Except.bind (validateDimensions dimX dimY) fun _ => _) = _
      rw [hv]
      rfl
    rw [a, b]
    simp

/-! ## C12 -/

/-- **C12** fails as documented: `df = inf` is accepted, and the reported number is NaN whatever the dimensions and the
dispersion. -/
theorem infinite_df_is_nan (miNormal : Ext) (dx dy : ℕ) :
    checkDf Ext.fns .pinf = .ok () ∧ mutualInformation Ext.fns miNormal .pinf dx dy = .nan := by
  refine ⟨if_neg id, ?_⟩
  have hd : ∀ k, differentialEntropy Ext.fns k .pinf = .nan := by
    intro k
    have h : (0 : ℝ) < 0.5 := by norm_num
    simp only [differentialEntropy, Ext.fns, Ext.add, Ext.mul, Ext.digamma, Ext.neg, Ext.gamma, Ext.log, if_pos h]
  unfold mutualInformation miCorrectionFunction
  simp only [hd]
  cases miNormal <;> rfl

/-- **C12** for what the number should be: with finite `df → ∞` the reported number tends to the mutual information of the
Gaussian with the dispersion as covariance.

The full property is about `df = inf` itself, and is false, see `infinite_df_is_nan`. -/
theorem student_tends_to_gaussian_partial (R : JaxRandom Key) (N : NpRandom State) (dx dy : ℕ) (hx : 0 < dx) (hy : 0 < dy)
    (loc : Fin (dx + dy) → ℝ) (S : Matrix (Fin (dx + dy)) (Fin (dx + dy)) ℝ) (hS : S.PosDef) :
    ∃ (s : Sampler Key) (t : ℝ → StudentT State), splitMultinormal R dx dy (rowsOf S) (some (List.ofFn loc)) = .ok s ∧
      (∀ df, 0 < df → splitStudentT R N dx dy df (rowsOf S) (some (List.ofFn loc)) = .ok (t df)) ∧
      Filter.Tendsto (fun df => (t df).sampler.mi) Filter.atTop (nhds s.mi) := by
  obtain ⟨s, hs, -⟩ := splitMultinormal_number R dx dy hx hy loc S hS
  have ht := fun df => splitStudentT_of R N dx dy hx hy df (rowsOf S) (some (List.ofFn loc)) (s := s) (by simpa using hs)
  refine ⟨s, _, hs, fun df hdf => (ht df).trans (if_neg (not_le.2 hdf)), ?_⟩
  show Filter.Tendsto (fun df => s.mi + miCorrectionFunction realFns df dx dy) _ _
  simp only [correction_real]
  simpa using (tendsto_correction dx dy).const_add s.mi

example : ∃ (s : Sampler TreeKey) (t : ℝ → StudentT TableState),
    splitMultinormal tree 1 1 (rowsOf (bivariateCov 0.5 1 1)) (some (List.ofFn ![0, 0])) = .ok s ∧
      (∀ df, 0 < df → splitStudentT tree table 1 1 df (rowsOf (bivariateCov 0.5 1 1)) (some (List.ofFn ![0, 0])) = .ok (t df)) ∧
      Filter.Tendsto (fun df => (t df).sampler.mi) Filter.atTop (nhds s.mi) :=
  student_tends_to_gaussian_partial tree table 1 1 one_pos one_pos ![0, 0] (bivariateCov 0.5 1 1)
    (bivariateCov_posDef _ _ _ one_pos one_pos (by norm_num) (by norm_num))

/-! ## C55 -/

set_option exponentiation.threshold 2000 in
theorem maxDouble_lt_factorial : maxDouble < (Nat.factorial 171 : ℕ) := by
  have h : (2 : ℕ) ^ 1024 < Nat.factorial 171 := by
    norm_num [Nat.factorial]
  have h' : (2 : ℝ) ^ 1024 < (Nat.factorial 171 : ℕ) := by exact_mod_cast h
  unfold maxDouble
  have : (0 : ℝ) < 2 ^ 970 := by positivity
  linarith

theorem gamma_large {x : ℝ} (hx : 172 ≤ x) : maxDouble < Real.Gamma x := by
  refine maxDouble_lt_factorial.trans_le ?_
  rw [← Real.Gamma_nat_eq_factorial]
  have := Real.Gamma_strictMonoOn_Ici.monotoneOn (a := (171 : ℕ) + 1) (b := x) (by norm_num) (by
    show (2 : ℝ) ≤ x
    linarith) (by push_cast; linarith)
  exact this

theorem ext_gamma_large {x : ℝ} (hx : 172 ≤ x) : Ext.gamma (.fin x) = .pinf := by
  show (if 0 < x then (if Real.Gamma x ≤ maxDouble then Ext.fin (Real.Gamma x) else Ext.pinf) else Ext.nan) = _
  rw [if_pos (by linarith), if_neg (not_le.2 (gamma_large hx))]

/-- **C55** fails: for every `df ≥ 344`, which is accepted, the gamma function overflows and the reported number is NaN. -/
theorem large_df_is_nan (miNormal : Ext) (df : ℝ) (hdf : 344 ≤ df) (dx dy : ℕ) :
    checkDf Ext.fns (.fin df) = .ok () ∧ mutualInformation Ext.fns miNormal (.fin df) dx dy = .nan := by
  refine ⟨if_neg (show ¬ df ≤ 0 by linarith), ?_⟩
  have hd : ∀ k : ℕ, differentialEntropy Ext.fns k (.fin df) = .nan := by
    intro k
    have hk : (0 : ℝ) ≤ k := Nat.cast_nonneg k
    have h1 := ext_gamma_large (x := 0.5 * (df + k)) (by linarith)
    have h2 := ext_gamma_large (x := 0.5 * df) (by linarith)
    simp only [differentialEntropy, Ext.fns, Ext.add, Ext.mul, h1, h2, Ext.log, Ext.neg]
  unfold mutualInformation miCorrectionFunction
  simp only [hd]
  cases miNormal <;> rfl

example : mutualInformation Ext.fns (.fin 0.25) (.fin 1000) 2 2 = .nan := (large_df_is_nan _ 1000 (by norm_num) 2 2).2

set_option exponentiation.threshold 2000 in
theorem gamma_small {x : ℝ} (h1 : 1 / 2 ≤ x) (h2 : x ≤ 343 / 2) : Real.Gamma x ≤ maxDouble := by
  have hbig : Real.Gamma (343 / 2) ≤ maxDouble := by
    have hc := Real.Gamma_mul_add_mul_le_rpow_Gamma_mul_rpow_Gamma (s := 171) (t := 172) (a := 1 / 2) (b := 1 / 2)
      (by norm_num) (by norm_num) (by norm_num) (by norm_num) (by norm_num)
    have e1 : Real.Gamma 171 = (Nat.factorial 170 : ℕ) := by
      rw [← Real.Gamma_nat_eq_factorial]; norm_num
    have e2 : Real.Gamma 172 = (Nat.factorial 171 : ℕ) := by
      rw [← Real.Gamma_nat_eq_factorial]; norm_num
    rw [e1, e2, ← Real.sqrt_eq_rpow, ← Real.sqrt_eq_rpow, ← Real.sqrt_mul (by positivity)] at hc
    have e3 : (1 / 2 : ℝ) * 171 + 1 / 2 * 172 = 343 / 2 := by norm_num
    rw [e3] at hc
    refine hc.trans ?_
    have hN : Nat.factorial 170 * Nat.factorial 171 ≤ (2 ^ 1024 - 2 ^ 970) ^ 2 := by
      norm_num [Nat.factorial]
    have hR : ((Nat.factorial 170 : ℕ) : ℝ) * (Nat.factorial 171 : ℕ) ≤ maxDouble ^ 2 := by
      have h := (Nat.cast_le (α := ℝ)).2 hN
      rw [Nat.cast_mul, Nat.cast_pow, Nat.cast_sub (Nat.pow_le_pow_right (by norm_num) (by norm_num)), Nat.cast_pow,
        Nat.cast_pow, Nat.cast_ofNat] at h
      exact h
    have h0 : 0 ≤ maxDouble := by
      unfold maxDouble
      have : (2 : ℝ) ^ 970 ≤ 2 ^ 1024 := pow_le_pow_right₀ (by norm_num) (by norm_num)
      linarith
    exact Real.sqrt_le_iff.2 ⟨h0, hR⟩
  have hhalf : Real.Gamma (1 / 2) ≤ maxDouble := by
    rw [Real.Gamma_one_half_eq]
    have h4 : √Real.pi ≤ 2 := Real.sqrt_le_iff.2 ⟨by norm_num, by linarith [Real.pi_le_four]⟩
    have : (2 : ℝ) ≤ maxDouble := by
      unfold maxDouble
      norm_num
    linarith
  have hm := Real.convexOn_Gamma.le_max_of_mem_Icc (x := 1 / 2) (y := 343 / 2) (z := x) (by norm_num) (by norm_num) ⟨h1, h2⟩
  exact hm.trans (max_le hhalf hbig)

theorem ext_gamma_small {x : ℝ} (h1 : 1 / 2 ≤ x) (h2 : x ≤ 343 / 2) : Ext.gamma (.fin x) = .fin (Real.Gamma x) := by
  show (if 0 < x then (if Real.Gamma x ≤ maxDouble then Ext.fin (Real.Gamma x) else Ext.pinf) else Ext.nan) = _
  rw [if_pos (by linarith), if_pos (gamma_small h1 h2)]

theorem ext_log {x : ℝ} (h : 0 < x) : Ext.log (.fin x) = .fin (Real.log x) := if_pos h

theorem ext_digamma {x : ℝ} (h : 0 < x) : Ext.digamma (.fin x) = .fin (logDeriv Real.Gamma x) := if_pos h

/-- **C55** for moderate degrees of freedom: if `1 ≤ df` and `df + dim_x + dim_y ≤ 343` nothing overflows and the reported
number is the finite number of `splitStudentT_correct`.

The full property is about every `df > 0`, and is false, see `large_df_is_nan`.  What is missing is `df < 1` and the values
between the two ranges. -/
theorem moderate_df_is_finite_partial (miNormal df : ℝ) (dx dy : ℕ) (h1 : 1 ≤ df) (h2 : df + dx + dy ≤ 343) :
    mutualInformation Ext.fns (.fin miNormal) (.fin df) dx dy
      = .fin (mutualInformation realFns miNormal df dx dy) := by
  have hd : ∀ k : ℕ, df + k ≤ 343 →
      differentialEntropy Ext.fns k (.fin df) = .fin (differentialEntropy realFns k df) := by
    intro k hk
    have hk0 : (0 : ℝ) ≤ k := Nat.cast_nonneg k
    have p1 : (0 : ℝ) < 0.5 * (df + k) := by linarith
    have p2 : (0 : ℝ) < 0.5 * df := by linarith
    have g1 := ext_gamma_small (x := 0.5 * (df + k)) (by linarith) (by linarith)
    have g2 := ext_gamma_small (x := 0.5 * df) (by linarith) (by linarith)
    have l1 := ext_log (Real.Gamma_pos_of_pos p1)
    have l2 := ext_log (Real.Gamma_pos_of_pos p2)
    have l3 := ext_log (x := df * Real.pi) (by have := Real.pi_pos; positivity)
    simp only [differentialEntropy, Ext.fns, Ext.add, Ext.mul, Ext.neg, g1, g2, l1, l2, l3, ext_digamma p1, ext_digamma p2,
      realFns, id, sub_eq_add_neg]
  have hx0 : (0 : ℝ) ≤ dx := Nat.cast_nonneg dx
  have hy0 : (0 : ℝ) ≤ dy := Nat.cast_nonneg dy
  unfold mutualInformation miCorrectionFunction
  rw [hd dx (by linarith), hd dy (by linarith), hd (dx + dy) (by push_cast; linarith)]
  simp only [Ext.fns, Ext.add, Ext.neg, realFns, sub_eq_add_neg]

example : mutualInformation Ext.fns (.fin 0.25) (.fin 3) 2 2 = .fin (mutualInformation realFns 0.25 3 2 2) :=
  moderate_df_is_finite_partial 0.25 3 2 2 (by norm_num) (by norm_num)

/-! ## C56 -/

/-- **C56** fails for one point: SciPy squeezes the array and the shape assertion of `sample` fires, for every sampler that
can be built and every usable seed. -/
theorem sample_one_point_fails (R : JaxRandom Key) (N : NpRandom State) (dimX dimY : ℤ) (df : ℝ) (disp : Arr)
    (mean : Option (List ℝ)) (t : StudentT State) (ht : splitStudentT R N dimX dimY df disp mean = .ok t) (k : State) :
    t.sampler.sample 1 (.key k) = .error .assertionError := by
  obtain ⟨⟨s, hs⟩, hdf⟩ := (splitStudentT_accepts_iff R N dimX dimY df disp mean).1.1 ⟨t, ht⟩
  rcases splitMultinormal_checks R dimX dimY disp mean with ⟨s', -, h1, h2, -⟩ | hc
  swap
  · rw [hc] at hs
    exact absurd hs (by nofun)
  obtain ⟨dx, rfl⟩ : ∃ n : ℕ, dimX = n := ⟨dimX.toNat, by omega⟩
  obtain ⟨dy, rfl⟩ : ∃ n : ℕ, dimY = n := ⟨dimY.toNat, by omega⟩
  have e : splitMultinormal R dx dy disp (some (mean.getD (List.replicate (dx + dy) 0))) = .ok s := by
    rw [← hs]
    unfold splitMultinormal
    simp
  rw [splitStudentT_of R N dx dy (by omega) (by omega) df disp mean e, if_neg (not_le.2 hdf)] at ht
  rw [← Except.ok.inj ht]
  rfl

/-- **C56** for other numbers of points: `sample` returns arrays of the advertised shapes for every random state and every
seed from 0 to 2³² - 1; other seeds raise `ValueError`.

The full property includes `n = 1`, for which it is false, see `sample_one_point_fails`. -/
theorem sample_shapes_partial (R : JaxRandom Key) (N : NpRandom State) (dx dy : ℕ) (hx : 0 < dx) (hy : 0 < dy)
    (loc : Fin (dx + dy) → ℝ) (S : Matrix (Fin (dx + dy)) (Fin (dx + dy)) ℝ) (hS : S.PosDef) (df : ℝ) (hdf : 0 < df) :
    ∃ t, splitStudentT R N dx dy df (rowsOf S) (some (List.ofFn loc)) = .ok t ∧
      (∀ n rng, n ≠ 1 → (∀ z, rng = .seed z → 0 ≤ z ∧ z < 2 ^ 32) → ∃ x y, t.sampler.sample n rng = .ok (x, y) ∧
        x.length = n ∧ y.length = n ∧ (∀ r ∈ x, r.length = dx) ∧ (∀ r ∈ y, r.length = dy)) ∧
      (∀ n z, ¬ (0 ≤ z ∧ z < 2 ^ 32) → t.sampler.sample n (.seed z) = .error .valueError) := by
  obtain ⟨s, hs, -⟩ := splitMultinormal_number R dx dy hx hy loc S hS
  have ht := splitStudentT_of R N dx dy hx hy df (rowsOf S) (some (List.ofFn loc)) (s := s) (by simpa using hs)
  rw [if_neg (not_le.2 hdf)] at ht
  refine ⟨_, ht, fun n rng hn hr => ?_, fun n z hz => ?_⟩
  · obtain ⟨state, hstate⟩ : ∃ state, checkRandomState N rng = .ok state := by
      cases rng with
      | seed z => exact ⟨_, if_pos (hr z rfl)⟩
      | key k => exact ⟨k, rfl⟩
    let xy := rowsOf (N.multivariateT state n (dx + dy) (toVec (dx + dy) (List.ofFn loc)) (toMatrix (dx + dy) (rowsOf S)) df)
    refine ⟨xy.map (·.take dx), xy.map (·.drop dx), ?_, ?_⟩
    · show (Except.bind (checkRandomState N rng) fun _ => _) = _
      rw [hstate]
      simp only [Except.bind, if_neg hn]
      rfl
    · refine ⟨by simp [xy, rowsOf], by simp [xy, rowsOf], fun r hr => ?_, fun r hr => ?_⟩
      · obtain ⟨r', h', rfl⟩ := List.mem_map.1 hr
        rw [List.length_take, length_of_mem_rowsOf _ r' h']
        omega
      · obtain ⟨r', h', rfl⟩ := List.mem_map.1 hr
        rw [List.length_drop, length_of_mem_rowsOf _ r' h']
        omega
  · show (Except.bind (checkRandomState N (.seed z)) fun _ => _) = _
    have hc : checkRandomState N (.seed z) = .error .valueError := if_neg hz
    rw [hc]
    rfl

example : ∃ t, splitStudentT tree table 1 1 3 (rowsOf (1 : Matrix (Fin 2) (Fin 2) ℝ)) (some (List.ofFn ![1, 2])) = .ok t ∧
    (∃ x y, t.sampler.sample 5 (.seed 42) = .ok (x, y) ∧ x.length = 5) ∧
    t.sampler.sample 5 (.seed (-1)) = .error .valueError := by
  obtain ⟨t, h1, h2, h3⟩ := sample_shapes_partial tree table 1 1 one_pos one_pos ![1, 2] 1 Matrix.PosDef.one 3 (by norm_num)
  obtain ⟨x, y, h4, h5, -⟩ := h2 5 (.seed 42) (by norm_num) (by
    rintro z ⟨⟩
    norm_num)
  exact ⟨t, h1, ⟨x, y, h4, h5⟩, h3 5 (-1) (by norm_num)⟩

end BMI.Student
