import Verif.Spec.NormalTasks
import Verif.Props.Student
import Verif.Props.Covariance
import Verif.Props.LVM
import Verif.Props.MatrixUtils
import Mathlib.Algebra.Order.Chebyshev

/-! Property C57 (Gaussian and Student-t benchmark tasks), over /repo/src/bmi/benchmark/tasks/multinormal.py and
/repo/src/bmi/benchmark/tasks/student.py. -/

namespace BMI.Student

open MeasureTheory ProbabilityTheory BMI.Samplers BMI.MatrixUtils Matrix

variable {Key State : Type}

/-! ## The equicorrelation matrix -/

theorem equicorrelation_apply (n : ℕ) (ρ : ℝ) (i j : Fin n) : equicorrelation n ρ i j = if i = j then 1 else ρ := rfl

theorem equicorrelation_quad (n : ℕ) (ρ : ℝ) (x : Fin n → ℝ) :
    x ⬝ᵥ equicorrelation n ρ *ᵥ x = (1 - ρ) * ∑ i, x i ^ 2 + ρ * (∑ i, x i) ^ 2 := by
  have e : equicorrelation n ρ *ᵥ x = fun i => (1 - ρ) * x i + ρ * ∑ j, x j := by
    funext i
    simp only [mulVec, dotProduct, equicorrelation_apply]
    have : ∀ j, (if i = j then (1 : ℝ) else ρ) * x j = (if i = j then (1 - ρ) * x j else 0) + ρ * x j := by
      intro j
      split_ifs <;> ring
    simp only [this, Finset.sum_add_distrib, Finset.sum_ite_eq, Finset.mem_univ, if_true, Finset.mul_sum]
  rw [e]
  simp only [dotProduct, mul_add, Finset.sum_add_distrib]
  congr 1
  · rw [Finset.mul_sum]
    exact Finset.sum_congr rfl fun i _ => by ring
  · rw [← Finset.sum_mul]
    ring

theorem equicorrelation_isHermitian (n : ℕ) (ρ : ℝ) : (equicorrelation n ρ).IsHermitian := by
  ext i j
  simp [equicorrelation_apply, eq_comm]

/-- The matrix is positive-definite exactly for `-1 < (n - 1) ρ` and `ρ < 1`. -/
theorem equicorrelation_posDef_iff {n : ℕ} (hn : 2 ≤ n) (ρ : ℝ) :
    (equicorrelation n ρ).PosDef ↔ -1 < (n - 1) * ρ ∧ ρ < 1 := by
  have hn' : (2 : ℝ) ≤ n := by exact_mod_cast hn
  constructor
  · intro h
    constructor
    · have := h.dotProduct_mulVec_pos (x := fun _ => 1) (by
        intro h0
        have := congrFun h0 ⟨0, by omega⟩
        simp at this)
      rw [star_trivial, equicorrelation_quad] at this
      simp at this
      nlinarith
    · let v : Fin n → ℝ := fun i => if (i : ℕ) = 0 then 1 else if (i : ℕ) = 1 then -1 else 0
      have h0 : v ⟨0, by omega⟩ = 1 := by simp [v]
      have := h.dotProduct_mulVec_pos (x := v) (by
        intro hv
        rw [hv] at h0
        simp at h0)
      rw [star_trivial, equicorrelation_quad] at this
      obtain ⟨k, rfl⟩ : ∃ k, n = k + 2 := ⟨n - 2, by omega⟩
      have e1 : ∑ i, v i = 0 := by
        rw [Fin.sum_univ_succ, Fin.sum_univ_succ]
        simp [v]
      have e2 : ∑ i, v i ^ 2 = 2 := by
        rw [Fin.sum_univ_succ, Fin.sum_univ_succ]
        simp [v]
        norm_num
      rw [e1, e2] at this
      linarith
  · rintro ⟨h1, h2⟩
    refine PosDef.of_dotProduct_mulVec_pos (equicorrelation_isHermitian n ρ) fun x hx => ?_
    rw [star_trivial, equicorrelation_quad]
    have hs : 0 < ∑ i, x i ^ 2 := by
      obtain ⟨i, hi⟩ := Function.ne_iff.1 hx
      exact Finset.sum_pos' (fun j _ => sq_nonneg _) ⟨i, Finset.mem_univ i, sq_pos_of_ne_zero hi⟩
    have hc : (∑ i, x i) ^ 2 ≤ n * ∑ i, x i ^ 2 := by
      have := sq_sum_le_card_mul_sum_sq (s := Finset.univ) (f := x)
      simpa using this
    rcases le_or_gt 0 ρ with hρ | hρ
    · have := mul_nonneg hρ (sq_nonneg (∑ i, x i))
      have := mul_pos (sub_pos.2 h2) hs
      linarith
    · have a := mul_le_mul_of_nonpos_left hc hρ.le
      have b : 0 < (1 + (n - 1) * ρ) * ∑ i, x i ^ 2 := mul_pos (by linarith) hs
      nlinarith

theorem equicorrelation_det (n : ℕ) {ρ : ℝ} (hρ : ρ < 1) :
    (equicorrelation n ρ).det = (1 - ρ) ^ n * (1 + n * ρ / (1 - ρ)) := by
  have h1 : (1 - ρ) ≠ 0 := by linarith
  have e : equicorrelation n ρ = (1 - ρ) • (1 + replicateCol Unit (fun _ : Fin n => ρ / (1 - ρ)) * replicateRow Unit fun _ : Fin n => (1 : ℝ)) := by
    ext i j
    simp only [equicorrelation_apply, Matrix.smul_apply, Matrix.add_apply, mul_apply, replicateCol_apply, replicateRow_apply, one_apply,
      smul_eq_mul, Finset.univ_unique, Finset.sum_singleton, mul_one]
    split_ifs <;> field_simp <;> ring
  rw [e, det_smul, det_one_add_replicateCol_mul_replicateRow]
  simp [dotProduct]
  left
  ring

theorem equicorrelation_blocks (dx dy : ℕ) (ρ : ℝ) :
    blockX (equicorrelation (dx + dy) ρ) = equicorrelation dx ρ ∧ blockY (equicorrelation (dx + dy) ρ) = equicorrelation dy ρ := by
  constructor <;> ext i j <;> simp [blockX, blockY, equicorrelation_apply]

/-- The number for an equicorrelation matrix. -/
theorem equicorrelation_number (dx dy : ℕ) (hx : 0 < dx) (hy : 0 < dy) {ρ : ℝ} (h1 : -1 < ((dx + dy : ℕ) - 1 : ℝ) * ρ)
    (h2 : ρ < 1) :
    (Real.log (blockX (equicorrelation (dx + dy) ρ)).det + Real.log (blockY (equicorrelation (dx + dy) ρ)).det
        - Real.log (equicorrelation (dx + dy) ρ).det) / 2
      = 1 / 2 * Real.log ((1 + (dx - 1) * ρ) * (1 + (dy - 1) * ρ) / ((1 - ρ) * (1 + (dx + dy - 1) * ρ))) := by
  have hx' : (1 : ℝ) ≤ dx := by exact_mod_cast hx
  have hy' : (1 : ℝ) ≤ dy := by exact_mod_cast hy
  push_cast at h1
  have h3 : 0 < 1 - ρ := by linarith
  have pos : ∀ a : ℝ, 0 ≤ a → a ≤ dx + dy - 1 → 0 < 1 + a * ρ := by
    intro a ha ha'
    rcases le_or_gt 0 ρ with h | h
    · positivity
    · nlinarith
  have px := pos (dx - 1) (by linarith) (by linarith)
  have py := pos (dy - 1) (by linarith) (by linarith)
  have pxy := pos (dx + dy - 1) (by linarith) le_rfl
  have key : ∀ n : ℕ, 0 < 1 + ((n : ℝ) - 1) * ρ → Real.log (equicorrelation n ρ).det
      = (n - 1) * Real.log (1 - ρ) + Real.log (1 + (n - 1) * ρ) := by
    intro n hn
    have e : 1 + n * ρ / (1 - ρ) = (1 + (n - 1) * ρ) / (1 - ρ) := by
      field_simp
      ring
    rw [equicorrelation_det n h2, e, Real.log_mul (by positivity) (by positivity), Real.log_div hn.ne' h3.ne', Real.log_pow]
    ring
  rw [(equicorrelation_blocks dx dy ρ).1, (equicorrelation_blocks dx dy ρ).2, key dx px, key dy py,
    key (dx + dy) (by push_cast; exact pxy), Real.log_div (by positivity) (by positivity), Real.log_mul px.ne' py.ne',
    Real.log_mul h3.ne' pxy.ne']
  push_cast
  ring

theorem denseMatrix_eq (dx dy : ℕ) (ρ : ℝ) : denseMatrix dx dy ρ = .ok (rowsOf (equicorrelation (dx + dy) ρ)) := by
  unfold denseMatrix
  rw [if_neg (by omega)]
  have : ((dx : ℤ) + dy).toNat = dx + dy := by omega
  dsimp only
  congr 1
  rw [this]
  congr 1
  funext i j
  rw [equicorrelation_apply]
  split_ifs <;> ring

theorem denseMatrix_cases (dimX dimY : ℤ) (ρ : ℝ) : (∃ a, denseMatrix dimX dimY ρ = .ok a) ∨
    denseMatrix dimX dimY ρ = .error .valueError := by
  unfold denseMatrix
  by_cases h : dimX + dimY < 0
  · rw [if_pos h]
    exact .inr rfl
  · rw [if_neg h]
    exact .inl ⟨_, rfl⟩

/-! ## Dense tasks -/

/-- **C57**: the dense Gaussian task: unit variances, all correlations equal to `off_diag`, and the closed form of its mutual
information. -/
theorem taskMultinormalDense_correct [MeasurableSpace Key] (R : JaxRandom Key) (κ : Measure Key) (hR : IdealRandom R κ)
    (dx dy : ℕ) (hx : 0 < dx) (hy : 0 < dy) (ρ : ℝ) (h1 : -1 < ((dx + dy : ℕ) - 1 : ℝ) * ρ) (h2 : ρ < 1) :
    ∃ s, taskMultinormalDense R dx dy ρ = .ok s ∧
      Correct R κ s dx dy ((normalLaw 0 (equicorrelation (dx + dy) ρ)).map (halves dx dy)) ∧
      s.mi = 1 / 2 * Real.log ((1 + (dx - 1) * ρ) * (1 + (dy - 1) * ρ) / ((1 - ρ) * (1 + (dx + dy - 1) * ρ))) := by
  have hp := (equicorrelation_posDef_iff (n := dx + dy) (by omega) ρ).2 ⟨h1, h2⟩
  obtain ⟨s, hs, hc⟩ := splitMultinormal_correct R κ hR dx dy hx hy 0 _ hp
  obtain ⟨s', hs', hn⟩ := splitMultinormal_number R dx dy hx hy 0 _ hp
  obtain rfl : s = s' := Except.ok.inj (hs.symm.trans hs')
  refine ⟨s, ?_, hc, hn.trans (equicorrelation_number dx dy hx hy h1 h2)⟩
  unfold taskMultinormalDense
  rw [denseMatrix_eq]
  exact (splitMultinormal_default_mean R dx dy _).trans hs

/-- **C57**: the dense Gaussian task is refused with `ValueError` exactly when a dimension is not positive or the matrix is not
positive-definite. -/
theorem taskMultinormalDense_accepts_iff (R : JaxRandom Key) (dimX dimY : ℤ) (ρ : ℝ) :
    ((∃ s, taskMultinormalDense R dimX dimY ρ = .ok s) ↔ 0 < dimX ∧ 0 < dimY ∧ -1 < (dimX + dimY - 1) * ρ ∧ ρ < 1) ∧
    ((¬ ∃ s, taskMultinormalDense R dimX dimY ρ = .ok s) → taskMultinormalDense R dimX dimY ρ = .error .valueError) := by
  by_cases hd : 0 < dimX ∧ 0 < dimY
  · obtain ⟨dx, rfl⟩ : ∃ n : ℕ, dimX = n := ⟨dimX.toNat, by omega⟩
    obtain ⟨dy, rfl⟩ : ∃ n : ℕ, dimY = n := ⟨dimY.toNat, by omega⟩
    have e : taskMultinormalDense R dx dy ρ = splitMultinormal R dx dy (rowsOf (equicorrelation (dx + dy) ρ)) none := by
      unfold taskMultinormalDense
      rw [denseMatrix_eq]
      rfl
    have hm : entries (dx + dy) (rowsOf (equicorrelation (dx + dy) ρ)) = equicorrelation (dx + dy) ρ :=
      toMatrix_rowsOf _
    have := splitMultinormal_accepts_iff_partial R dx dy (rowsOf (equicorrelation (dx + dy) ρ)) none (by
      simp only [Int.toNat_natCast]
      rw [hm]
      have h := equicorrelation_isHermitian (dx + dy) ρ
      rwa [Matrix.IsHermitian, conjTranspose_eq_transpose_of_trivial] at h)
    rw [e]
    refine ⟨this.1.trans ?_, this.2⟩
    simp only [Int.toNat_natCast]
    rw [hm, equicorrelation_posDef_iff (by omega)]
    have hs := hasShape_rowsOf (equicorrelation (dx + dy) ρ)
    push_cast
    constructor
    · rintro ⟨a, b, -, -, -, c, d⟩
      exact ⟨a, b, c, d⟩
    · rintro ⟨a, b, c, d⟩
      exact ⟨a, b, by simp, by rw [hs.1]; push_cast; rfl, fun r hr => by rw [hs.2 r hr]; push_cast; rfl, c, d⟩
  · have hv : taskMultinormalDense R dimX dimY ρ = .error .valueError := by
      unfold taskMultinormalDense
      rcases denseMatrix_cases dimX dimY ρ with ⟨a, ha⟩ | ha
      · rw [ha]
        show splitMultinormal R dimX dimY a none = _
        rcases splitMultinormal_checks R dimX dimY a none with ⟨s, -, h1, h2, -⟩ | h
        · exact absurd ⟨by omega, by omega⟩ hd
        · exact h
      · rw [ha]
        rfl
    rw [hv]
    refine ⟨⟨fun h => absurd h (by simp), fun h => absurd ⟨h.1, h.2.1⟩ hd⟩, fun _ => rfl⟩

example : ∃ s, taskMultinormalDense tree 2 3 0.5 = .ok s ∧ s.mi = 1 / 2 * Real.log 2 := by
  obtain ⟨s, h1, -, h2⟩ := taskMultinormalDense_correct tree treeLaw tree_ideal 2 3 two_pos (by norm_num) 0.5 (by norm_num)
    (by norm_num)
  refine ⟨s, h1, h2.trans ?_⟩
  norm_num

/-! ## Student-t tasks in general -/

theorem splitStudentT_default_mean (R : JaxRandom Key) (N : NpRandom State) (dx dy : ℕ) (df : ℝ) (disp : Arr) :
    splitStudentT R N dx dy df disp none
      = splitStudentT R N dx dy df disp (some (List.ofFn fun _ : Fin (dx + dy) => 0)) := by
  unfold splitStudentT
  simp [List.ofFn_const]

/-- A Student-t sampler with zero mean. -/
theorem splitStudentT_zero_mean [MeasurableSpace State] (R : JaxRandom Key) (N : NpRandom State) (κ : Measure State)
    (hN : IdealStudent N κ) (dx dy : ℕ) (hx : 0 < dx) (hy : 0 < dy) (S : Matrix (Fin (dx + dy)) (Fin (dx + dy)) ℝ)
    (hS : S.PosDef) (df : ℝ) (hdf : 0 < df) :
    ∃ t, splitStudentT R N dx dy df (rowsOf S) none = .ok t ∧
      CorrectStudent κ t.sampler dx dy ((studentLaw 0 S df).map (halves dx dy)) ∧
      t.sampler.mi = (Real.log (blockX S).det + Real.log (blockY S).det - Real.log S.det) / 2
        + (studentEntropy dx df + studentEntropy dy df - studentEntropy (dx + dy) df) ∧
      t.miNormal = (Real.log (blockX S).det + Real.log (blockY S).det - Real.log S.det) / 2 := by
  obtain ⟨t, h1, h2, h3, -, h4, h5, h6⟩ := splitStudentT_correct R N κ hN dx dy hx hy 0 S hS df hdf
  obtain ⟨s, hs, hn⟩ := splitMultinormal_number R dx dy hx hy 0 S hS
  have h7 := splitStudentT_of R N dx dy hx hy df (rowsOf S) (some (List.ofFn (0 : Fin (dx + dy) → ℝ))) hs
  rw [if_neg (not_le.2 hdf)] at h7
  have h8 := Except.ok.inj (h1.symm.trans h7)
  refine ⟨t, (splitStudentT_default_mean R N dx dy df _).trans h1, ⟨h2, h3, h6, h4.le, h5⟩, ?_, ?_⟩
  · rw [h8, ← hn, ← correction_real]
  · rw [h8]
    exact hn

/-- **C57**: the identity Student-t task: no correlation, but a positive mutual information, which is the correction. -/
theorem taskStudentIdentity_correct [MeasurableSpace State] (R : JaxRandom Key) (N : NpRandom State) (κ : Measure State)
    (hN : IdealStudent N κ) (dx dy : ℕ) (hx : 0 < dx) (hy : 0 < dy) (df : ℝ) (hdf : 0 < df) :
    ∃ t, taskStudentIdentity R N dx dy df = .ok t ∧
      CorrectStudent κ t.sampler dx dy ((studentLaw 0 1 df).map (halves dx dy)) ∧
      t.miNormal = 0 ∧ 0 < t.sampler.mi ∧
      t.sampler.mi = studentEntropy dx df + studentEntropy dy df - studentEntropy (dx + dy) df := by
  obtain ⟨t, h1, h2, h3, h4⟩ := splitStudentT_zero_mean R N κ hN dx dy hx hy 1 PosDef.one df hdf
  obtain ⟨t', h1', -, -, -, h5, -⟩ := splitStudentT_correct R N κ hN dx dy hx hy 0 1 PosDef.one df hdf
  obtain rfl : t = t' := Except.ok.inj (h1.symm.trans ((splitStudentT_default_mean R N dx dy df _).trans h1'))
  have ex : blockX (1 : Matrix (Fin (dx + dy)) (Fin (dx + dy)) ℝ) = 1 := by
    ext i j
    simp [blockX, Matrix.one_apply]
  have ey : blockY (1 : Matrix (Fin (dx + dy)) (Fin (dx + dy)) ℝ) = 1 := by
    ext i j
    simp [blockY, Matrix.one_apply]
  rw [ex, ey] at h3 h4
  simp only [det_one, Real.log_one, add_zero, sub_zero, zero_div, zero_add] at h3 h4
  refine ⟨t, ?_, h2, h4, h5, h3⟩
  unfold taskStudentIdentity
  rw [if_neg (by omega)]
  exact h1

example : ∃ t, taskStudentIdentity tree table 2 3 1 = .ok t ∧ 0 < t.sampler.mi := by
  obtain ⟨t, h1, -, -, h2, -⟩ := taskStudentIdentity_correct tree table tableLaw table_ideal 2 3 two_pos (by norm_num) 1 one_pos
  exact ⟨t, h1, h2⟩

/-- **C57**: the dense Student-t task. -/
theorem taskStudentDense_correct [MeasurableSpace State] (R : JaxRandom Key) (N : NpRandom State) (κ : Measure State)
    (hN : IdealStudent N κ) (dx dy : ℕ) (hx : 0 < dx) (hy : 0 < dy) (ρ : ℝ)
    (h1 : -1 < ((dx + dy : ℕ) - 1 : ℝ) * ρ) (h2 : ρ < 1) (df : ℝ) (hdf : 0 < df) :
    ∃ t, taskStudentDense R N dx dy df ρ = .ok t ∧
      CorrectStudent κ t.sampler dx dy ((studentLaw 0 (equicorrelation (dx + dy) ρ) df).map (halves dx dy)) ∧
      t.sampler.mi = 1 / 2 * Real.log ((1 + (dx - 1) * ρ) * (1 + (dy - 1) * ρ) / ((1 - ρ) * (1 + (dx + dy - 1) * ρ)))
        + (studentEntropy dx df + studentEntropy dy df - studentEntropy (dx + dy) df) := by
  have hp := (equicorrelation_posDef_iff (n := dx + dy) (by omega) ρ).2 ⟨h1, h2⟩
  obtain ⟨t, h3, h4, h5, -⟩ := splitStudentT_zero_mean R N κ hN dx dy hx hy _ hp df hdf
  refine ⟨t, ?_, h4, by rw [h5, equicorrelation_number dx dy hx hy h1 h2]⟩
  unfold taskStudentDense
  rw [denseMatrix_eq]
  exact h3

/-- **C57**: the dense Student-t task is refused with `ValueError` exactly when the dense Gaussian task is or `df` is not
positive. -/
theorem taskStudentDense_accepts_iff (R : JaxRandom Key) (N : NpRandom State) (dimX dimY : ℤ) (df ρ : ℝ) :
    ((∃ t, taskStudentDense R N dimX dimY df ρ = .ok t) ↔
      0 < dimX ∧ 0 < dimY ∧ -1 < (dimX + dimY - 1) * ρ ∧ ρ < 1 ∧ 0 < df) ∧
    ((¬ ∃ t, taskStudentDense R N dimX dimY df ρ = .ok t) → taskStudentDense R N dimX dimY df ρ = .error .valueError) := by
  have h := taskMultinormalDense_accepts_iff R dimX dimY ρ
  unfold taskMultinormalDense at h
  unfold taskStudentDense
  rcases denseMatrix_cases dimX dimY ρ with ⟨a, ha⟩ | ha
  · rw [ha] at h ⊢
    have h' := splitStudentT_accepts_iff R N dimX dimY df a none
    refine ⟨h'.1.trans ?_, h'.2⟩
    rw [show (∃ s, splitMultinormal R dimX dimY a none = .ok s) ↔ _ from h.1]
    tauto
  · rw [ha] at h ⊢
    refine ⟨⟨fun ⟨t, ht⟩ => (by cases ht), fun ⟨a, b, c, d, _⟩ => ?_⟩, fun _ => rfl⟩
    obtain ⟨s, hs⟩ := h.1.2 ⟨a, b, c, d⟩
    cases hs

example : ∃ t, taskStudentDense tree table 2 3 5 0.5 = .ok t :=
  (taskStudentDense_accepts_iff tree table 2 3 5 0.5).1.2 (by norm_num)

/-! ## Latent-variable tasks -/

/-- The parameters of the task. -/
theorem lvm_covariance (dx dy k : ℕ) (hkx : k ≤ dx) (hky : k ≤ dy) (α lam β η : ℝ) :
    ∃ m c, gaussianLVM dx dy k α lam 1 none β none η none = .ok m ∧ m.covariance = .ok c ∧
      ∃ C : Matrix (Fin (dx + dy)) (Fin (dx + dy)) ℝ, IsLvmCovariance k α lam β η C ∧ C.PosDef ∧
        ∃ r, m.correlation = .ok r ∧ rowsOf r = rowsOf (correlationOf C) := by
  obtain ⟨m, h1, hv, h3, h4, h5, h6, h7, h8, h9, h10, h11, -, h12, -, h13, -⟩ :=
    (gaussianLVM_spec dx dy k α lam 1 none β none η none).1 ⟨by omega, by omega, by omega⟩
  obtain rfl : m.dimX = dx := by exact_mod_cast h3
  obtain rfl : m.dimY = dy := by exact_mod_cast h4
  obtain rfl : m.nInteracting = k := by exact_mod_cast h5
  obtain ⟨c, hc, hxx, hyy, hxy, hyx⟩ := covariance_entries m hv.1 hv.2
  obtain ⟨c', hc', -, hpd⟩ := covariance_posDef m hv
  obtain rfl : c = c' := Except.ok.inj (hc.symm.trans hc')
  obtain ⟨c', r, hc', hr, hrr, -, -⟩ := correlation_spec m hv
  obtain rfl : c = c' := Except.ok.inj (hc.symm.trans hc')
  refine ⟨m, c, h1, hc, c, ⟨fun i j => ?_, fun i j => ?_, fun i j => ?_, fun i j => ?_⟩, hpd ?_ ?_, r, hr, ?_⟩
  · rw [hxx, h6, h7, h8, h9, h10]
    simp [Fin.ext_iff]
  · rw [hyy, h6, h7, h11 rfl, h12 rfl, h13 rfl]
    simp [Fin.ext_iff]
  · rw [hxy, h6, h7]
  · rw [hyx, h6, h7]
  · rw [h8]
    exact one_ne_zero
  · rw [h11 rfl]
    exact one_ne_zero
  · congr 1
    funext p q
    exact hrr p q

theorem correlationOf_apply {n : ℕ} (C : Matrix (Fin n) (Fin n) ℝ) (p q : Fin n) :
    correlationOf C p q = C p q / (√(C p p) * √(C q q)) := rfl

/-- Rescaling to unit variances. -/
theorem rescaled {dx dy : ℕ} {C : Matrix (Fin (dx + dy)) (Fin (dx + dy)) ℝ} (hC : C.PosDef) :
    ∃ (A : Matrix (Fin dx) (Fin dx) ℝ) (B : Matrix (Fin dy) (Fin dy) ℝ), A.det ≠ 0 ∧ B.det ≠ 0 ∧
      (correlationOf C) = actOn A B * C * (actOn A B)ᵀ := by
  have hpos : ∀ p, 0 < √(C p p) := fun p => Real.sqrt_pos.2 hC.diag_pos
  refine ⟨diagonal fun i => (√(C (Fin.castAdd dy i) (Fin.castAdd dy i)))⁻¹,
    diagonal fun i => (√(C (Fin.natAdd dx i) (Fin.natAdd dx i)))⁻¹, ?_, ?_, ?_⟩
  · rw [det_diagonal]
    exact Finset.prod_ne_zero_iff.2 fun i _ => inv_ne_zero (hpos _).ne'
  · rw [det_diagonal]
    exact Finset.prod_ne_zero_iff.2 fun i _ => inv_ne_zero (hpos _).ne'
  · have e : actOn (diagonal fun i => (√(C (Fin.castAdd dy i) (Fin.castAdd dy i)))⁻¹)
        (diagonal fun i => (√(C (Fin.natAdd dx i) (Fin.natAdd dx i)))⁻¹) = diagonal fun p => (√(C p p))⁻¹ := by
      unfold actOn
      ext p q
      induction p using Fin.addCases <;> induction q using Fin.addCases <;>
        simp [diagonal_apply, Fin.ext_iff] <;> omega
    rw [e, diagonal_transpose]
    ext p q
    rw [correlationOf_apply, mul_diagonal, diagonal_mul, div_eq_mul_inv, mul_inv]
    ring

/-- **C57**: the latent-variable task: it is accepted for `0 ≤ n_interacting ≤ min(dim_x, dim_y)`, samples the latent-variable
model rescaled to unit variances, and reports the mutual information, which is also that of the model before rescaling. -/
theorem taskMultinormalLvm_correct [MeasurableSpace Key] (R : JaxRandom Key) (κ : Measure Key) (hR : IdealRandom R κ)
    (dx dy k : ℕ) (hx : 0 < dx) (hy : 0 < dy) (hkx : k ≤ dx) (hky : k ≤ dy) (α lam β : ℝ) (eta : Option ℝ) :
    ∃ (s : Sampler Key) (C : Matrix (Fin (dx + dy)) (Fin (dx + dy)) ℝ), taskMultinormalLvm R dx dy k α lam β eta = .ok s ∧
      IsLvmCovariance k α lam β (eta.getD lam) C ∧ C.PosDef ∧
      Correct R κ s dx dy ((normalLaw 0 (correlationOf C)).map (halves dx dy)) ∧
      mutualInfo ((normalLaw 0 C).map (halves dx dy)) = ENNReal.ofReal s.mi := by
  obtain ⟨m, c, h1, -, C, h2, h3, r, h4, h5⟩ := lvm_covariance dx dy k hkx hky α lam β (eta.getD lam)
  obtain ⟨A, B, hA, hB, e⟩ := rescaled h3
  obtain ⟨s, s', hs, hs', hm⟩ := multinormal_linear R dx dy hx hy 0 C h3 A B hA hB
  have hD : IsUnit (actOn A B) := by
    rw [Matrix.isUnit_iff_isUnit_det, actOn_det]
    exact (mul_ne_zero hA hB).isUnit
  have hp : (correlationOf C).PosDef := by
    rw [e]
    have := h3.mul_mul_conjTranspose_same (B := actOn A B) (Matrix.vecMul_injective_of_isUnit hD)
    rwa [Matrix.conjTranspose_eq_transpose_of_trivial] at this
  obtain ⟨s'', hs'', hc⟩ := splitMultinormal_correct R κ hR dx dy hx hy 0 _ hp
  obtain ⟨s₀, hs₀, hc₀⟩ := splitMultinormal_correct R κ hR dx dy hx hy 0 C h3
  obtain rfl : s = s₀ := Except.ok.inj (hs.symm.trans hs₀)
  rw [← e, mulVec_zero] at hs'
  obtain rfl : s' = s'' := Except.ok.inj (hs'.symm.trans hs'')
  refine ⟨s', C, ?_, h2, h3, hc, ?_⟩
  · unfold taskMultinormalLvm
    show (Except.bind (gaussianLVM dx dy k α lam 1 none β none (eta.getD lam) none) fun _ => _) = _
    rw [h1]
    show (Except.bind m.correlation fun _ => _) = _
    rw [h4]
    show splitMultinormal R dx dy (rowsOf r) none = _
    rw [h5, splitMultinormal_default_mean]
    exact hs'
  · rw [← hm]
    exact hc₀.mi

/-- **C57**: outside that range the latent-variable task is refused with `ValueError`. -/
theorem taskMultinormalLvm_accepts_iff (R : JaxRandom Key) (dimX dimY k : ℤ) (α lam β : ℝ) (eta : Option ℝ) :
    ((∃ s, taskMultinormalLvm R dimX dimY k α lam β eta = .ok s) ↔ 0 < dimX ∧ 0 < dimY ∧ 0 ≤ k ∧ k ≤ dimX ∧ k ≤ dimY) ∧
    ((¬ ∃ s, taskMultinormalLvm R dimX dimY k α lam β eta = .ok s) →
      taskMultinormalLvm R dimX dimY k α lam β eta = .error .valueError) := by
  by_cases hk : 0 ≤ k ∧ k ≤ dimX ∧ k ≤ dimY
  · obtain ⟨dx, rfl⟩ : ∃ n : ℕ, dimX = n := ⟨dimX.toNat, by omega⟩
    obtain ⟨dy, rfl⟩ : ∃ n : ℕ, dimY = n := ⟨dimY.toNat, by omega⟩
    obtain ⟨k, rfl⟩ : ∃ n : ℕ, k = n := ⟨k.toNat, by omega⟩
    obtain ⟨m, c, h1, -, C, h2, h3, r, h4, h5⟩ := lvm_covariance dx dy k (by omega) (by omega) α lam β (eta.getD lam)
    have e : taskMultinormalLvm R dx dy k α lam β eta = splitMultinormal R dx dy (rowsOf r) none := by
      unfold taskMultinormalLvm
      show (Except.bind (gaussianLVM dx dy k α lam 1 none β none (eta.getD lam) none) fun _ => _) = _
      rw [h1]
      show (Except.bind m.correlation fun _ => _) = _
      rw [h4]
      rfl
    by_cases hd : 0 < dx ∧ 0 < dy
    · obtain ⟨A, B, hA, hB, e'⟩ := rescaled h3
      obtain ⟨-, s', -, hs', -⟩ := multinormal_linear R dx dy hd.1 hd.2 0 C h3 A B hA hB
      rw [← e', mulVec_zero] at hs'
      have hok : ∃ s, taskMultinormalLvm R dx dy k α lam β eta = .ok s := by
        refine ⟨s', ?_⟩
        rw [e, h5, splitMultinormal_default_mean]
        exact hs'
      exact ⟨⟨fun _ => ⟨by omega, by omega, hk⟩, fun _ => hok⟩, fun h => absurd hok h⟩
    · rw [e]
      rcases splitMultinormal_checks R dx dy (rowsOf r) none with ⟨s, -, a, b, -⟩ | h
      · exact absurd ⟨by omega, by omega⟩ hd
      · rw [h]
        exact ⟨⟨fun ⟨s, hs⟩ => (by cases hs), fun h => absurd ⟨by omega, by omega⟩ hd⟩, fun _ => rfl⟩
  · have e : taskMultinormalLvm R dimX dimY k α lam β eta = .error .valueError := by
      unfold taskMultinormalLvm
      show (Except.bind (gaussianLVM dimX dimY k α lam 1 none β none (eta.getD lam) none) fun _ => _) = _
      rw [(gaussianLVM_spec dimX dimY k α lam 1 none β none (eta.getD lam) none).2 hk]
      rfl
    rw [e]
    exact ⟨⟨fun ⟨s, hs⟩ => (by cases hs), fun h => absurd h.2.2 hk⟩, fun _ => rfl⟩

example : ∃ s, taskMultinormalLvm tree 2 3 1 0.5 0.7 0.1 none = .ok s :=
  (taskMultinormalLvm_accepts_iff tree 2 3 1 0.5 0.7 0.1 none).1.2 (by norm_num)

/-! ## Sparse tasks -/

theorem pairs_apply (dx dy k : ℕ) (c : ℝ) (p q : Fin (dx + dy)) : pairs dx dy k c p q = if p = q then 1
    else if ((p : ℕ) < k ∧ (q : ℕ) = dx + p) ∨ ((q : ℕ) < k ∧ (p : ℕ) = dx + q) then c else 0 := rfl

theorem pairs_isCanonical (dx dy k : ℕ) (hkx : k ≤ dx) (c : ℝ) :
    IsCanonical (dx := dx) (dy := dy) (fun i => if (i : ℕ) < k then c else 0) (pairs dx dy k c) where
  xx i j := by
    rw [pairs_apply]
    have := i.2
    have := j.2
    by_cases h : i = j
    · simp [h]
    · rw [if_neg (by simpa [Fin.ext_iff] using h), if_neg (by simp; omega), if_neg h]
  yy i j := by
    rw [pairs_apply]
    by_cases h : i = j
    · simp [h]
    · rw [if_neg (by simpa [Fin.ext_iff] using h), if_neg (by simp; omega), if_neg h]
  xy i j := by
    rw [pairs_apply]
    have := i.2
    rw [if_neg (by simp [Fin.ext_iff]; omega)]
    by_cases h : (i : ℕ) = j
    · by_cases h' : (i : ℕ) < k
      · rw [if_pos (by simp; omega), if_pos h, if_pos h']
      · rw [if_neg (by simp; omega), if_pos h, if_neg h']
    · rw [if_neg (by simp; omega), if_neg h]
  yx i j := by
    rw [pairs_apply]
    have := i.2
    rw [if_neg (by simp [Fin.ext_iff]; omega)]
    by_cases h : (i : ℕ) = j
    · by_cases h' : (i : ℕ) < k
      · rw [if_pos (by simp; omega), if_pos h, if_pos h']
      · rw [if_neg (by simp; omega), if_pos h, if_neg h']
    · rw [if_neg (by simp; omega), if_neg h]

theorem pairs_rest {dx dy k : ℕ} (hkx : k ≤ dx) (c : ℝ) (j : Fin dy) :
    rest dy (fun i : Fin dx => if (i : ℕ) < k then c else 0) j = if (j : ℕ) < k then 1 - c ^ 2 else 1 := by
  unfold rest
  by_cases h : (j : ℕ) < k
  · rw [dif_pos (by omega), if_pos h]
    dsimp only
    rw [if_pos h]
  · rw [if_neg h]
    split_ifs <;> simp [h]

theorem pairs_posDef {dx dy k : ℕ} (hkx : k ≤ dx) {c : ℝ} (hc : c ^ 2 < 1) : (pairs dx dy k c).PosDef := by
  have h := pairs_isCanonical dx dy k hkx c
  have hr : ∀ j, 0 < rest dy (fun i : Fin dx => if (i : ℕ) < k then c else 0) j := by
    intro j
    rw [pairs_rest hkx]
    split_ifs <;> linarith
  rw [(h.posSemidef_iff.2 fun j => (hr j).le).posDef_iff_det_ne_zero, h.det_eq]
  exact Finset.prod_ne_zero_iff.2 fun j _ => (hr j).ne'

theorem pairs_number {dx dy k : ℕ} (hkx : k ≤ dx) (hky : k ≤ dy) {c : ℝ} (hc : c ^ 2 < 1) :
    (Real.log (blockX (pairs dx dy k c)).det + Real.log (blockY (pairs dx dy k c)).det
      - Real.log (pairs dx dy k c).det) / 2 = -(k / 2 * Real.log (1 - c ^ 2)) := by
  have h := pairs_isCanonical dx dy k hkx c
  have ex : blockX (pairs dx dy k c) = 1 := by
    ext i j
    simp [blockX, h.xx, Matrix.one_apply]
  have ey : blockY (pairs dx dy k c) = 1 := by
    ext i j
    simp [blockY, h.yy, Matrix.one_apply]
  have hd : (pairs dx dy k c).det = (1 - c ^ 2) ^ k := by
    rw [h.det_eq]
    simp only [pairs_rest hkx]
    obtain ⟨e, rfl⟩ : ∃ e, dy = k + e := ⟨dy - k, by omega⟩
    rw [Fin.prod_univ_add]
    simp
  rw [ex, ey, hd, Real.log_pow]
  simp
  ring

/-- The correlation between interacting coordinates in the sparse tasks. -/
theorem sparse_is_pairs {dx dy k : ℕ} (hkx : k ≤ dx) (hky : k ≤ dy) (lam : ℝ)
    {C : Matrix (Fin (dx + dy)) (Fin (dx + dy)) ℝ} (h : IsLvmCovariance k 0 lam 0 lam C) :
    (correlationOf C) = pairs dx dy k (lam ^ 2 / (1 + lam ^ 2)) := by
  have hpos : 0 < 1 + lam ^ 2 := by positivity
  have hd : ∀ p, C p p = 1 + lam ^ 2 := by
    intro p
    induction p using Fin.addCases with
    | left i =>
      rw [h.xx, if_pos rfl, ite_self]
      ring
    | right i =>
      rw [h.yy, if_pos rfl, ite_self]
      ring
  have hp := pairs_isCanonical dx dy k hkx (lam ^ 2 / (1 + lam ^ 2))
  have hs : √(1 + lam ^ 2) * √(1 + lam ^ 2) = 1 + lam ^ 2 := Real.mul_self_sqrt hpos.le
  funext p q
  rw [correlationOf_apply, hd, hd, hs]
  induction p using Fin.addCases with
  | left i =>
    induction q using Fin.addCases with
    | left j =>
      rw [h.xx, hp.xx, ite_self]
      split_ifs <;> field_simp <;> ring
    | right j =>
      rw [h.xy, hp.xy]
      by_cases a : (i : ℕ) = j
      · simp only [a, true_and, if_true]
        split_ifs <;> simp
      · simp [a]
  | right i =>
    induction q using Fin.addCases with
    | left j =>
      rw [h.yx, hp.yx]
      by_cases a : (j : ℕ) = i
      · simp only [a, true_and, if_true]
        split_ifs <;> simp
      · simp [a]
    | right j =>
      rw [h.yy, hp.yy, ite_self]
      split_ifs <;> field_simp <;> ring

theorem strength_lt (lam : ℝ) : (lam ^ 2 / (1 + lam ^ 2)) ^ 2 < 1 := by
  have hpos : 0 < 1 + lam ^ 2 := by positivity
  have h0 : 0 ≤ lam ^ 2 / (1 + lam ^ 2) := by positivity
  have h1 : lam ^ 2 / (1 + lam ^ 2) < 1 := by
    rw [div_lt_one hpos]
    linarith
  exact pow_lt_one₀ h0 h1 two_ne_zero

/-- **C57**: the sparse Gaussian task: `n_interacting` pairs with correlation `λ² / (1 + λ²)` and no other correlation, and the
closed form of its mutual information. -/
theorem taskMultinormalSparse_correct [MeasurableSpace Key] (R : JaxRandom Key) (κ : Measure Key) (hR : IdealRandom R κ)
    (dx dy k : ℕ) (hx : 0 < dx) (hy : 0 < dy) (hkx : k ≤ dx) (hky : k ≤ dy) (lam : ℝ) :
    ∃ s, taskMultinormalSparse R dx dy k lam = .ok s ∧
      Correct R κ s dx dy ((normalLaw 0 (pairs dx dy k (lam ^ 2 / (1 + lam ^ 2)))).map (halves dx dy)) ∧
      s.mi = -(k / 2 * Real.log (1 - (lam ^ 2 / (1 + lam ^ 2)) ^ 2)) := by
  obtain ⟨s, C, h1, h2, h3, h4, h5⟩ := taskMultinormalLvm_correct R κ hR dx dy k hx hy hkx hky 0 lam 0 (some lam)
  have e := sparse_is_pairs hkx hky lam h2
  rw [e] at h4
  refine ⟨s, h1, h4, ?_⟩
  have h6 := (splitNormal_mi (0 : Fin (dx + dy) → ℝ) (pairs_posDef (dx := dx) (dy := dy) hkx (strength_lt lam)))
  rw [pairs_number hkx hky (strength_lt lam)] at h6
  have h7 := h4.mi.symm.trans h6.1
  rw [ENNReal.ofReal_eq_ofReal_iff h4.nonneg h6.2] at h7
  exact h7

/-- **C57**: the task with two interacting pairs. -/
theorem taskMultinormal2pair_correct [MeasurableSpace Key] (R : JaxRandom Key) (κ : Measure Key) (hR : IdealRandom R κ)
    (dx dy : ℕ) (hx : 2 ≤ dx) (hy : 2 ≤ dy) (lam : ℝ) :
    ∃ s, taskMultinormal2pair R dx dy lam = .ok s ∧
      Correct R κ s dx dy ((normalLaw 0 (pairs dx dy 2 (lam ^ 2 / (1 + lam ^ 2)))).map (halves dx dy)) ∧
      s.mi = -Real.log (1 - (lam ^ 2 / (1 + lam ^ 2)) ^ 2) := by
  obtain ⟨s, h1, h2, h3⟩ := taskMultinormalSparse_correct R κ hR dx dy 2 (by omega) (by omega) hx hy lam
  refine ⟨s, h1, h2, h3.trans ?_⟩
  norm_num

/-- The default strength 2 gives correlation 4/5. -/
example : ∃ s, taskMultinormal2pair tree 3 3 2 = .ok s ∧ s.mi = -Real.log (9 / 25) := by
  obtain ⟨s, h1, -, h2⟩ := taskMultinormal2pair_correct tree treeLaw tree_ideal 3 3 (by norm_num) (by norm_num) 2
  refine ⟨s, h1, h2.trans ?_⟩
  norm_num

/-- **C57**: the sparse Student-t task. -/
theorem taskStudentSparse_correct [MeasurableSpace State] (R : JaxRandom Key) (N : NpRandom State) (κ : Measure State)
    (hN : IdealStudent N κ) (dx dy k : ℕ) (hx : 0 < dx) (hy : 0 < dy) (hkx : k ≤ dx) (hky : k ≤ dy) (lam df : ℝ)
    (hdf : 0 < df) :
    ∃ t, taskStudentSparse R N dx dy df k lam = .ok t ∧
      CorrectStudent κ t.sampler dx dy ((studentLaw 0 (pairs dx dy k (lam ^ 2 / (1 + lam ^ 2))) df).map (halves dx dy)) ∧
      t.sampler.mi = -(k / 2 * Real.log (1 - (lam ^ 2 / (1 + lam ^ 2)) ^ 2))
        + (studentEntropy dx df + studentEntropy dy df - studentEntropy (dx + dy) df) := by
  obtain ⟨m, c, h1, -, C, h2, h3, r, h4, h5⟩ := lvm_covariance dx dy k hkx hky 0 lam 0 lam
  obtain ⟨t, a, b, d, -⟩ := splitStudentT_zero_mean R N κ hN dx dy hx hy _
    (pairs_posDef (dx := dx) (dy := dy) hkx (strength_lt lam)) df hdf
  refine ⟨t, ?_, b, by rw [d, pairs_number hkx hky (strength_lt lam)]⟩
  unfold taskStudentSparse
  show (Except.bind (gaussianLVM dx dy k 0 lam 1 none 0 none lam none) fun _ => _) = _
  rw [h1]
  show (Except.bind m.correlation fun _ => _) = _
  rw [h4]
  show splitStudentT R N dx dy df (rowsOf r) none = _
  rw [h5, sparse_is_pairs hkx hky lam h2]
  exact a

/-- **C57**: the Student-t task with two interacting pairs. -/
theorem taskStudent2pair_correct [MeasurableSpace State] (R : JaxRandom Key) (N : NpRandom State) (κ : Measure State)
    (hN : IdealStudent N κ) (dx dy : ℕ) (hx : 2 ≤ dx) (hy : 2 ≤ dy) (lam df : ℝ) (hdf : 0 < df) :
    ∃ t, taskStudent2pair R N dx dy df lam = .ok t ∧
      CorrectStudent κ t.sampler dx dy ((studentLaw 0 (pairs dx dy 2 (lam ^ 2 / (1 + lam ^ 2))) df).map (halves dx dy)) ∧
      t.sampler.mi = -Real.log (1 - (lam ^ 2 / (1 + lam ^ 2)) ^ 2)
        + (studentEntropy dx df + studentEntropy dy df - studentEntropy (dx + dy) df) := by
  obtain ⟨t, h1, h2, h3⟩ := taskStudentSparse_correct R N κ hN dx dy 2 (by omega) (by omega) hx hy lam df hdf
  refine ⟨t, h1, h2, h3.trans ?_⟩
  norm_num

example : ∃ t, taskStudent2pair tree table 3 3 1 2 = .ok t :=
  (taskStudent2pair_correct tree table tableLaw table_ideal 3 3 (by norm_num) (by norm_num) 2 1 one_pos).imp fun _ h => h.1

end BMI.Student
