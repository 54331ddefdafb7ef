import Verif.Props.Search
import Verif.Props.MatrixUtils
import Verif.Props.Covariance
import Verif.Props.Transforms
import Mathlib.Analysis.Complex.ExponentialBounds

/-! Property C20, continued: the tasks with a prescribed mutual information
(/repo/workflows/projects/Beyond_Normal/_high_mi_utils.py:65-172). -/

namespace BMI.Search

open BMI.Samplers BMI.MatrixUtils MeasureTheory

variable {Key : Type}

theorem parametrised_canonical {d : ℕ} {c : ℝ} {m : Matrix (Fin (d + d)) (Fin (d + d)) ℝ}
    (h : IsParametrised (dx := d) (dy := d) 2 c 0 0 m) :
    IsCanonical (dx := d) (dy := d) (fun i => if (i : ℕ) < 2 then c else 0) m where
  xx := h.xx
  yy := h.yy
  xy i j := by
    rw [h.xy]
    split_ifs <;> first | rfl | omega
  yx i j := by
    rw [h.yx]
    split_ifs <;> first | rfl | omega

theorem sparse_canonical_lt (d : ℕ) (c : ℝ) : (∀ i : Fin (d + 2), |if (i : ℕ) < 2 then c else 0| < 1) ↔ |c| < 1 := by
  constructor
  · intro h
    simpa using h 0
  · intro h i
    split_ifs
    · exact h
    · simp

/-- The pair of normal vectors of length `d + 2` whose first two coordinates are correlated by `c`. -/
noncomputable def sparseLaw (d : ℕ) (m : Matrix (Fin ((d + 2) + (d + 2))) (Fin ((d + 2) + (d + 2))) ℝ) :
    Measure ((Fin (d + 2) → ℝ) × (Fin (d + 2) → ℝ)) :=
  (normalLaw (fun _ => 0) m).map fun z => (fun i => z (Fin.castAdd (d + 2) i), fun i => z (Fin.natAdd (d + 2) i))

/-- **C20**: the sampler with correlation `c`: two correlated pairs of coordinates, mutual information `-log(1 - c²)`. -/
theorem getSparseGaussianSampler_correct [MeasurableSpace Key] (R : JaxRandom Key) (κ : Measure Key) (hR : IdealRandom R κ)
    (d : ℕ) (c : ℝ) (hc : |c| < 1) :
    ∃ s m, getSparseGaussianSampler R c (d + 2 : ℕ) = .ok s ∧ s.mi = -Real.log (1 - c ^ 2) ∧
      IsParametrised (dx := d + 2) (dy := d + 2) 2 c 0 0 m ∧ Correct R κ s (d + 2) (d + 2) (sparseLaw d m) := by
  obtain ⟨m, h1, h2⟩ := parametrisedCorrelationMatrix_spec (d + 2 : ℕ) (d + 2 : ℕ) 2 c 0 0 (by norm_num)
    (by push_cast; omega) (by push_cast; omega) hc.le (by norm_num) (by norm_num)
  have h3 : IsCanonical (dx := d + 2) (dy := d + 2) _ m := parametrised_canonical h2
  obtain ⟨s, h4, h5⟩ := canonical_number R (by omega) le_rfl h3 ((sparse_canonical_lt d c).2 hc) (fun _ => 0)
  obtain ⟨s', h6, h7⟩ := splitMultinormal_correct R κ hR (d + 2) (d + 2) (by omega) (by omega) (fun _ => 0) m
    ((canonical_posDef_iff h3 le_rfl).2 ((sparse_canonical_lt d c).2 hc))
  obtain rfl : s = s' := Except.ok.inj (h4.symm.trans h6)
  refine ⟨s, m, ?_, ?_, h2, h7⟩
  · unfold getSparseGaussianSampler
    rw [h1]
    show splitMultinormal R ((d + 2 : ℕ) : ℤ) ((d + 2 : ℕ) : ℤ) (rowsOf m) none = _
    rw [splitMultinormal_default_mean]
    exact h4
  · rw [h5, Fin.sum_univ_succ, Fin.sum_univ_succ]
    simp
    ring

/-- **C20**: no other arguments are accepted. -/
theorem getSparseGaussianSampler_rejects (R : JaxRandom Key) (c : ℝ) (dim : ℤ) (h : dim < 2 ∨ 1 ≤ |c|) :
    getSparseGaussianSampler R c dim = .error .valueError := by
  unfold getSparseGaussianSampler
  by_cases hd : dim < 2
  · rw [parametrisedCorrelationMatrix_rejects _ _ _ _ _ _ (by omega)]
    rfl
  by_cases hc : |c| ≤ 1
  · obtain ⟨d, rfl⟩ : ∃ d : ℕ, dim = ((d + 2 : ℕ) : ℤ) := ⟨(dim - 2).toNat, by push_cast; omega⟩
    obtain ⟨m, h1, h2⟩ := parametrisedCorrelationMatrix_spec (d + 2 : ℕ) (d + 2 : ℕ) 2 c 0 0 (by norm_num)
      (by push_cast; omega) (by push_cast; omega) hc (by norm_num) (by norm_num)
    have h3 : IsCanonical (dx := d + 2) (dy := d + 2) _ m := parametrised_canonical h2
    rw [h1]
    have e : entries (((d + 2 : ℕ) : ℤ).toNat + ((d + 2 : ℕ) : ℤ).toNat) (rowsOf m) = m := toMatrix_rowsOf m
    have hs : m.IsSymm := by
      have := h3.eq_blocks
      rw [Matrix.IsSymm]
      conv_rhs => rw [this]
      conv_lhs => rw [this]
      rw [Matrix.transpose_submatrix, Matrix.fromBlocks_transpose]
      simp
    have := splitMultinormal_accepts_iff_partial R ((d + 2 : ℕ) : ℤ) ((d + 2 : ℕ) : ℤ) (rowsOf m) none (by rw [e]; exact hs)
    refine this.2 fun hex => ?_
    have hp := (this.1.1 hex).2.2.2.2.2
    rw [e] at hp
    have := (sparse_canonical_lt d c).1 ((canonical_posDef_iff h3 le_rfl).1 hp)
    rcases h with h | h
    · omega
    · linarith
  · rw [parametrisedCorrelationMatrix_rejects _ _ _ _ _ _ (by tauto)]
    rfl

/-- **C20**: when a task is returned, its mutual information is that of its law and within 10⁻⁴ of the request. -/
theorem generateSparseGaussianTask_correct [MeasurableSpace Key] (R : JaxRandom Key) (κ : Measure Key)
    (hR : IdealRandom R κ) (uniform : ℝ → ℝ → ℕ → ℝ) (mi : ℝ) (dim : ℤ) (s : Sampler Key) (hmi : -999999999 ≤ mi)
    (h : generateSparseGaussianTask R uniform mi dim = .ok (some s)) :
    |s.mi - mi| < 1e-4 ∧ ∃ (d : ℕ) (c : ℝ) (m : Matrix _ _ ℝ), dim = (d + 2 : ℕ) ∧ |c| < 1 ∧ s.mi = -Real.log (1 - c ^ 2) ∧
      IsParametrised (dx := d + 2) (dy := d + 2) 2 c 0 0 m ∧ Correct R κ s (d + 2) (d + 2) (sparseLaw d m) := by
  unfold generateSparseGaussianTask at h
  cases hb : binsearch realOps (fun c => miSparseGaussian R c dim) mi 0 1 1e-4 5000 uniform with
  | error e =>
    rw [hb] at h
    cases h
  | ok r =>
    rw [hb] at h
    cases r with
    | none => cases h
    | some c =>
      change (getSparseGaussianSampler R c dim >>= fun s => Except.ok (some s)) = _ at h
      obtain ⟨v, hv, hm⟩ := binsearch_sound realOps _ mi 0 1 1e-4 uniform 5000 c (by
        rw [Bool.eq_false_iff, ne_eq, meets_real, not_lt]
        simp only [realOps]
        norm_num
        rw [abs_of_nonpos (by linarith)]
        linarith) hb
      by_cases hd : dim < 2 ∨ 1 ≤ |c|
      · rw [getSparseGaussianSampler_rejects R c dim hd] at h
        cases h
      · rw [not_or, not_lt, not_le] at hd
        obtain ⟨d, rfl⟩ : ∃ d : ℕ, dim = ((d + 2 : ℕ) : ℤ) := ⟨(dim - 2).toNat, by push_cast; omega⟩
        obtain ⟨s', m, h1, h2, h3, h4⟩ := getSparseGaussianSampler_correct R κ hR d c hd.2
        unfold miSparseGaussian at hv
        rw [h1] at h hv
        cases h
        change Except.ok s.mi = _ at hv
        cases hv
        exact ⟨(meets_real _ _ _).1 hm, d, c, m, rfl, hd.2, h2, h3, h4⟩

theorem exp_bound : (40000 : ℝ) / 2 ^ 5000 ≤ Real.exp (-3000) := by
  have h1 : Real.exp 3000 ≤ 2 ^ 4500 := by
    have h2 : Real.exp 2 ≤ 2 ^ 3 := by
      have := Real.exp_one_lt_d9
      have e : Real.exp 2 = Real.exp 1 ^ 2 := by
        rw [← Real.exp_nat_mul]
        norm_num
      rw [e]
      nlinarith [Real.exp_pos 1]
    have e : Real.exp 3000 = Real.exp 2 ^ 1500 := by
      rw [← Real.exp_nat_mul]
      norm_num
    rw [e, show 4500 = 3 * 1500 from rfl, pow_mul]
    exact pow_le_pow_left₀ (Real.exp_pos 2).le h2 1500
  rw [Real.exp_neg, div_le_iff₀ (by positivity), inv_mul_eq_div, le_div_iff₀ (Real.exp_pos _)]
  calc (40000 : ℝ) * Real.exp 3000 ≤ 2 ^ 16 * 2 ^ 4500 := by
        refine mul_le_mul (by norm_num) h1 (Real.exp_pos _).le (by positivity)
    _ = 2 ^ 4516 := (pow_add _ _ _).symm
    _ ≤ 2 ^ 5000 := pow_le_pow_right₀ (by norm_num) (by norm_num)

/-- **C20**: in exact arithmetic, every mutual information between 0 and 3000 nats is found within the 5000 iterations
the code allows. -/
theorem generateSparseGaussianTask_exists [MeasurableSpace Key] (R : JaxRandom Key) (κ : Measure Key)
    (hR : IdealRandom R κ) (uniform : ℝ → ℝ → ℕ → ℝ) (mi : ℝ) (dim : ℤ) (hd : 2 ≤ dim) (h0 : 0 ≤ mi) (h1 : mi ≤ 3000) :
    ∃ s, generateSparseGaussianTask R uniform mi dim = .ok (some s) := by
  obtain ⟨d, rfl⟩ : ∃ d : ℕ, dim = ((d + 2 : ℕ) : ℤ) := ⟨(dim - 2).toNat, by push_cast; omega⟩
  have hval : ∀ x ∈ Set.Ioo (0 : ℝ) 1, miSparseGaussian R x (d + 2 : ℕ) = .ok (-Real.log (1 - x ^ 2)) := by
    intro x hx
    obtain ⟨s', m, e1, e2, -, -⟩ := getSparseGaussianSampler_correct R κ hR d x (by rw [abs_of_pos hx.1]; exact hx.2)
    unfold miSparseGaussian
    rw [e1, ← e2]
    rfl
  set E := Real.exp (-mi) with hE
  have hE0 : 0 < E := Real.exp_pos _
  have hE1 : E ≤ 1 := Real.exp_le_one_iff.2 (by linarith)
  have hmi : mi = -Real.log E := by rw [hE, Real.log_exp, neg_neg]
  have hEb : 40000 / 2 ^ 5000 ≤ E := exp_bound.trans (Real.exp_le_exp.2 (by linarith))
  have ht2 : √(1 - E) ^ 2 = 1 - E := Real.sq_sqrt (by linarith)
  have ht0 : 0 ≤ √(1 - E) := Real.sqrt_nonneg _
  have ht1 : √(1 - E) ≤ 1 := Real.sqrt_le_one.2 (by linarith)
  generalize √(1 - E) = t at ht0 ht1 ht2
  obtain ⟨c, hc, hb, -⟩ := binsearch_finds (fun c => miSparseGaussian R c (d + 2 : ℕ)) (fun c => -Real.log (1 - c ^ 2))
    mi 0 1 1e-4 t 4999 uniform one_pos hval ⟨ht0, ht1⟩
    (fun x hx hxt => by
      rw [hmi, neg_le_neg_iff]
      have := hx.1
      exact Real.log_le_log hE0 (by nlinarith))
    (fun x hx hxt => by
      rw [hmi, neg_lt_neg_iff]
      have := hx.1
      have := hx.2
      exact Real.log_lt_log (by nlinarith) (by nlinarith))
    (fun x hx hxt => by
      rw [sub_zero] at hxt
      change |x - t| ≤ 1 / 2 ^ 5000 at hxt
      generalize hw : (1 : ℝ) / 2 ^ 5000 = w at hxt
      have hwE : 40000 * w ≤ E := by rw [← hw, mul_one_div]; exact hEb
      have hw0 : 0 < w := by rw [← hw]; positivity
      rw [hmi]
      rw [abs_le] at hxt
      obtain ⟨hx0, hx1⟩ := hx
      have hu : 0 < 1 - x ^ 2 := by nlinarith
      have hd1 : 1 - x ^ 2 - E ≤ 2 * w := by nlinarith
      have hd2 : -(2 * w) ≤ 1 - x ^ 2 - E := by nlinarith
      have l1 : Real.log (1 - x ^ 2) - Real.log E ≤ (1 - x ^ 2 - E) / E := by
        rw [← Real.log_div hu.ne' hE0.ne']
        refine (Real.log_le_sub_one_of_pos (by positivity)).trans (le_of_eq ?_)
        field_simp
      have l2 : Real.log E - Real.log (1 - x ^ 2) ≤ (E - (1 - x ^ 2)) / (1 - x ^ 2) := by
        rw [← Real.log_div hE0.ne' hu.ne']
        refine (Real.log_le_sub_one_of_pos (by positivity)).trans (le_of_eq ?_)
        field_simp
      have b1 : (1 - x ^ 2 - E) / E < 1e-4 := by
        rw [div_lt_iff₀ hE0]
        norm_num
        linarith
      have b2 : (E - (1 - x ^ 2)) / (1 - x ^ 2) < 1e-4 := by
        rw [div_lt_iff₀ hu]
        norm_num
        linarith
      rw [abs_lt]
      constructor <;> linarith)
  obtain ⟨s, m, e1, -, -, -⟩ := getSparseGaussianSampler_correct R κ hR d c (by rw [abs_of_pos hc.1]; exact hc.2)
  refine ⟨s, ?_⟩
  unfold generateSparseGaussianTask
  rw [hb]
  show (getSparseGaussianSampler R c (d + 2 : ℕ) >>= fun s => Except.ok (some s)) = _
  rw [e1]
  rfl

/-- **C20**: with fewer than two dimensions every evaluation raises `ValueError` and there is no task. -/
theorem generateSparseGaussianTask_none (R : JaxRandom Key) (uniform : ℝ → ℝ → ℕ → ℝ) (mi : ℝ) (dim : ℤ) (hd : dim < 2)
    (hmi : -999999999 ≤ mi) : generateSparseGaussianTask R uniform mi dim = .ok none := by
  obtain ⟨t, h1, h2⟩ := binsearchLoop_raises realOps (fun c => miSparseGaussian R c dim) mi 0 1 1e-4 uniform
    (fun c => by
      unfold miSparseGaussian
      rw [getSparseGaussianSampler_rejects R c dim (Or.inl hd)]
      rfl) 5000 (binsearchStart realOps 0 1)
  have : binsearch realOps (fun c => miSparseGaussian R c dim) mi 0 1 1e-4 5000 uniform = .ok none := by
    unfold binsearch
    rw [h1]
    show (if meets realOps _ _ t.value = true then Except.ok (some t.mid) else Except.ok none) = _
    rw [if_neg]
    rw [meets_real, h2, not_lt]
    simp only [realOps, binsearchStart]
    norm_num
    rw [abs_of_nonpos (by linarith)]
    linarith
  unfold generateSparseGaussianTask
  rw [this]
  rfl

/-- **C20**: the spiral task has the mutual information of the sparse Gaussian task it is built from, for three or more
dimensions; with two dimensions `spiral_task` raises `AssertionError` once a correlation is found. -/
theorem generateSpiralTask_correct [MeasurableSpace Key] (R : JaxRandom Key) (κ : Measure Key)
    (hR : IdealRandom R κ) (uniform : ℝ → ℝ → ℕ → ℝ) (mi speed : ℝ) (dim : ℤ) (h0 : 0 ≤ mi) (h1 : mi ≤ 3000) :
    (∀ e : ℕ, dim = (e + 3 : ℕ) → ∃ (s : Sampler Key) (c : ℝ) (m : Matrix _ _ ℝ),
      generateSpiralTask R uniform mi dim speed = .ok (some s) ∧ |s.mi - mi| < 1e-4 ∧
        IsParametrised (dx := e + 3) (dy := e + 3) 2 c 0 0 m ∧
        Correct R κ s (e + 3) (e + 3) ((sparseLaw (e + 1) m).map (Prod.map
          (fun x => turn 0 1 (speed / (e + 3 : ℕ) * sumSq x) x) fun y => turn 1 2 (speed / (e + 3 : ℕ) * sumSq y) y))) ∧
    (dim = 2 → generateSpiralTask R uniform mi dim speed = .error .assertionError) ∧
    (dim < 2 → generateSpiralTask R uniform mi dim speed = .ok none) := by
  refine ⟨fun e hd => ?_, fun hd => ?_, fun hd => ?_⟩
  · obtain ⟨b, hb⟩ := generateSparseGaussianTask_exists R κ hR uniform mi dim (by omega) h0 h1
    obtain ⟨hm, d, c, m, rfl, -, -, hp, hc⟩ := generateSparseGaussianTask_correct R κ hR uniform mi dim b (by linarith) hb
    haveI := hR.prob
    obtain rfl : d = e + 1 := by omega
    obtain ⟨s, e1, e2, e3⟩ := spiralTask_correct R κ b (dx := e + 1) (dy := e) _ hc speed true
    refine ⟨s, c, m, ?_, by rw [e2]; exact hm, hp, e3⟩
    unfold generateSpiralTask
    rw [hb]
    show (spiralTask b speed true >>= fun s => Except.ok (some s)) = _
    rw [e1]
    rfl
  · obtain ⟨b, hb⟩ := generateSparseGaussianTask_exists R κ hR uniform mi dim (by omega) h0 h1
    obtain ⟨hm, d, c, m, hd', -, -, -, hc⟩ := generateSparseGaussianTask_correct R κ hR uniform mi dim b (by linarith) hb
    unfold generateSpiralTask
    rw [hb]
    show (spiralTask b speed true >>= fun s => Except.ok (some s)) = _
    rw [spiralTask_rejects b (d + 2) (d + 2) hc.shape.2.2.1 hc.shape.2.2.2.1 (by omega)]
    rfl
  · unfold generateSpiralTask
    rw [generateSparseGaussianTask_none R uniform mi dim hd (by linarith)]
    rfl

/-- **C20**: likewise the half-cube task, for two or more dimensions. -/
theorem generateHalfCubeTask_correct [MeasurableSpace Key] (R : JaxRandom Key) (κ : Measure Key)
    (hR : IdealRandom R κ) (uniform : ℝ → ℝ → ℕ → ℝ) (mi : ℝ) (dim : ℤ) (h0 : 0 ≤ mi) (h1 : mi ≤ 3000) :
    (∀ d : ℕ, dim = (d + 2 : ℕ) → ∃ (s : Sampler Key) (c : ℝ) (m : Matrix _ _ ℝ),
      generateHalfCubeTask R uniform mi dim = .ok (some s) ∧ |s.mi - mi| < 1e-4 ∧
        IsParametrised (dx := d + 2) (dy := d + 2) 2 c 0 0 m ∧
        Correct R κ s (d + 2) (d + 2) ((sparseLaw d m).map (Prod.map (fun v i => v i * √|v i|) fun v i => v i * √|v i|))) ∧
    (dim < 2 → generateHalfCubeTask R uniform mi dim = .ok none) := by
  refine ⟨fun d hd => ?_, fun hd => ?_⟩
  · obtain ⟨b, hb⟩ := generateSparseGaussianTask_exists R κ hR uniform mi dim (by omega) h0 h1
    obtain ⟨hm, d', c, m, rfl, -, -, hp, hc⟩ := generateSparseGaussianTask_correct R κ hR uniform mi dim b (by linarith) hb
    haveI := hR.prob
    obtain rfl : d' = d := by omega
    obtain ⟨s, e1, e2, e3⟩ := halfCubeTask_correct R κ b _ hc
    refine ⟨s, c, m, ?_, by rw [e2]; exact hm, hp, e3⟩
    unfold generateHalfCubeTask
    rw [hb]
    show (halfCubeTask b >>= fun s => Except.ok (some s)) = _
    rw [e1]
    rfl
  · unfold generateHalfCubeTask
    rw [generateSparseGaussianTask_none R uniform mi dim hd (by linarith)]
    rfl

example (uniform : ℝ → ℝ → ℕ → ℝ) : ∃ s, generateSpiralTask tree uniform 7 5 1 = .ok (some s) ∧ |s.mi - 7| < 1e-4 := by
  obtain ⟨s, c, m, h1, h2, -⟩ := (generateSpiralTask_correct tree treeLaw tree_ideal uniform 7 1 5 (by norm_num)
    (by norm_num)).1 2 (by norm_num)
  exact ⟨s, h1, h2⟩

end BMI.Search
