import Verif.Lemmas.TrainLoop
import Verif.Props.Batches
import Mathlib.Analysis.SpecificLimits.Basic

/-!
C36: the denominator that MINE carries through the training is an exponential moving average of the batch
denominators, and the gradient of a step is Equation (12) of the MINE paper with that denominator.

The claim "at the start smoothing is negligible" (comment at _mine_estimator.py:206-207) is false: the average starts
from zero, so in the first step the gradient of the second term is multiplied by `1 / (1 - α)`.
-/

namespace BMI.Mine

open BMI.NeuralData BMI.Training BMI.Mine.Spec

variable {Θ X Y Key O S : Type} [NormedAddCommGroup Θ] [NormedSpace ℝ Θ]

/-- A batch: `xs`, paired `ys`, unpaired `ys`. -/
abbrev Batch (X Y : Type) : Type := List X × List Y × List Y

/-- The state after the steps on the given batches. -/
noncomputable def run (o : Optimizer Θ O) (f : Θ → X → Y → ℝ) (α : ℝ) (s : MineState Θ O) (bs : List (Batch X Y)) :
    MineState Θ O := bs.foldl (fun s b => (mineStep o f α s b.1 b.2.1 b.2.2).1) s

/-- The batch denominators met along the way, each at the critic before its update. -/
noncomputable def denoms (o : Optimizer Θ O) (f : Θ → X → Y → ℝ) (α : ℝ) (s : MineState Θ O)
    (bs : List (Batch X Y)) : List ℝ :=
  bs.mapIdx fun i b => batchDenom (f (run o f α s (bs.take i)).critic) b.1 b.2.2

theorem denoms_append (o : Optimizer Θ O) (f : Θ → X → Y → ℝ) (α : ℝ) (s : MineState Θ O) (bs : List (Batch X Y))
    (b : Batch X Y) : denoms o f α s (bs ++ [b]) =
      denoms o f α s bs ++ [batchDenom (f (run o f α s bs).critic) b.1 b.2.2] := by
  unfold denoms
  rw [List.mapIdx_append]
  congr 1
  · refine List.ext_getElem (by simp) fun i h1 h2 => ?_
    simp only [List.getElem_mapIdx]
    rw [List.take_append_of_le_length (by simp at h1; omega)]
  · simp

/-- When all batches have the same denominator `B`, the average after `m` steps is `(1 - α^m)·B`: the bias of the
start decays geometrically. -/
theorem ema_constant (α B : ℝ) (m : ℕ) : ema α (List.replicate m B) = (1 - α ^ m) * B := by
  induction m with
  | zero => simp [ema]
  | succ m ih => rw [List.replicate_succ', ema_append, ih]; ring

/-- C36: after any number of steps, on any batches, with any optimiser, the exponential of the carried number is the
exponential moving average of the batch denominators. -/
theorem denominator_is_ema (o : Optimizer Θ O) (f : Θ → X → Y → ℝ) (α : ℝ) (hα : 0 ≤ α ∧ α ≤ 1) (θ : Θ)
    (opt : O) (bs : List (Batch X Y)) (hb : ∀ b ∈ bs, b.1.zip b.2.2 ≠ []) :
    EReal.exp (run o f α ⟨θ, opt, ⊥⟩ bs).logDenom =
      ENNReal.ofReal (ema α (denoms o f α ⟨θ, opt, ⊥⟩ bs)) := by
  induction bs using List.reverseRecOn with
  | nil =>
    have h0 : ema α ([] : List ℝ) = 0 := by simpa using ema_constant α 1 0
    have h1 : denoms o f α ⟨θ, opt, ⊥⟩ ([] : List (Batch X Y)) = [] := rfl
    rw [h1, h0]
    simp [run]
  | append_singleton bs b ih =>
    have ih := ih fun c hc => hb c (by simp [hc])
    have hne := hb b (by simp)
    rw [denoms_append, ema_append]
    have h1 : run o f α ⟨θ, opt, ⊥⟩ (bs ++ [b]) =
        (mineStep o f α (run o f α ⟨θ, opt, ⊥⟩ bs) b.1 b.2.1 b.2.2).1 := by
      simp [run, List.foldl_append]
    rw [h1]
    change EReal.exp (valueNegGradLogDenom f _ b.1 b.2.1 b.2.2 _ α).2.2 = _
    rw [logDenom_exp _ _ _ _ _ _ _ hne, ih]
    have h2 : 0 ≤ ema α (denoms o f α ⟨θ, opt, ⊥⟩ bs) := by
      refine ema_nonneg hα.1 hα.2 fun d hd => ?_
      unfold denoms at hd
      obtain ⟨i, hi, rfl⟩ := List.mem_mapIdx.1 hd
      exact (batchDenom_pos _ (hb _ (by simp))).le
    have h3 := (batchDenom_pos (f (run o f α ⟨θ, opt, ⊥⟩ bs).critic) hne).le
    rw [← ENNReal.ofReal_mul hα.1, ← ENNReal.ofReal_mul (by linarith), ← ENNReal.ofReal_add]
    · exact mul_nonneg hα.1 h2
    · exact mul_nonneg (by linarith) h3

/-- C36: the negative gradient of a step is minus Equation (12): gradient of the average score of the pairs, minus the
gradient of the batch denominator divided by the moving average (`D` is the average before the step). -/
theorem gradient_is_equation_12 (f : Θ → X → Y → ℝ) (θ : Θ) (xs : List X) (yp yu : List Y) (c : EReal) (α D : ℝ)
    (hα : 0 ≤ α ∧ α < 1) (hD : 0 ≤ D) (hc : EReal.exp c = ENNReal.ofReal D) (hne : xs.zip yu ≠ [])
    (hf : ∀ p ∈ xs.zip yu, DifferentiableAt ℝ (fun t => f t p.1 p.2) θ) :
    (valueNegGradLogDenom f θ xs yp yu c α).2.1 =
      -(fderiv ℝ (fun t => avgPairs (f t) xs yp) θ -
        (α * D + (1 - α) * batchDenom (f θ) xs yu)⁻¹ • fderiv ℝ (fun t => batchDenom (f t) xs yu) θ) := by
  have hB := batchDenom_pos (f θ) hne
  have h1 : 0 < 1 - α := by linarith [hα.2]
  have hpos : 0 < α * D + (1 - α) * batchDenom (f θ) xs yu := by
    have := mul_nonneg hα.1 hD
    have := mul_pos h1 hB
    linarith
  have hexp := logDenom_exp f θ xs yp yu c α hne
  rw [hc, ← ENNReal.ofReal_mul hα.1, ← ENNReal.ofReal_mul h1.le,
    ← ENNReal.ofReal_add (mul_nonneg hα.1 hD) (mul_pos h1 hB).le] at hexp
  have hcorr : (EReal.exp ((logmeanexp (scores (f θ) xs yu) : ℝ) -
      (valueNegGradLogDenom f θ xs yp yu c α).2.2)).toReal =
      batchDenom (f θ) xs yu * (α * D + (1 - α) * batchDenom (f θ) xs yu)⁻¹ := by
    rw [sub_eq_add_neg, EReal.exp_add, EReal.exp_neg, hexp, EReal.exp_coe, logmeanexp_eq _ hne, Real.exp_log hB,
      ← ENNReal.ofReal_inv_of_pos hpos, ENNReal.toReal_mul, ENNReal.toReal_ofReal hB.le,
      ENNReal.toReal_ofReal (inv_nonneg.2 hpos.le)]
  rw [valueNegGradLogDenom_eq]
  simp only
  rw [hcorr, fderiv_lme hne hf, smul_smul]
  have h2 : batchDenom (f θ) xs yu * (α * D + (1 - α) * batchDenom (f θ) xs yu)⁻¹ * (batchDenom (f θ) xs yu)⁻¹ =
      (α * D + (1 - α) * batchDenom (f θ) xs yu)⁻¹ := by
    field_simp
  rw [h2]
  simp only [mean_scores]
  abel

/-- The reported value of a step does not depend on the smoothing: it is the Donsker–Varadhan value of the batch. -/
theorem value_is_donsker_varadhan (f : Θ → X → Y → ℝ) (θ : Θ) (xs : List X) (yp yu : List Y) (c : EReal) (α : ℝ)
    (hne : xs.zip yu ≠ []) :
    (valueNegGradLogDenom f θ xs yp yu c α).1 = avgPairs (f θ) xs yp - Real.log (batchDenom (f θ) xs yu) := by
  rw [valueNegGradLogDenom_eq]
  simp only [mineValue]
  rw [mean_scores, logmeanexp_eq _ hne]

/-- The Donsker–Varadhan objective on a batch. -/
noncomputable def dv (f : Θ → X → Y → ℝ) (xs : List X) (yp yu : List Y) (t : Θ) : ℝ :=
  avgPairs (f t) xs yp - Real.log (batchDenom (f t) xs yu)

theorem fderiv_dv {f : Θ → X → Y → ℝ} {θ : Θ} {xs : List X} {yp yu : List Y} (hne : xs.zip yu ≠ [])
    (hp : ∀ p ∈ xs.zip yp, DifferentiableAt ℝ (fun t => f t p.1 p.2) θ)
    (hf : ∀ p ∈ xs.zip yu, DifferentiableAt ℝ (fun t => f t p.1 p.2) θ) :
    fderiv ℝ (dv f xs yp yu) θ = fderiv ℝ (fun t => avgPairs (f t) xs yp) θ -
      (batchDenom (f θ) xs yu)⁻¹ • fderiv ℝ (fun t => batchDenom (f t) xs yu) θ := by
  have h1 : DifferentiableAt ℝ (fun t => batchDenom (f t) xs yu) θ :=
    differentiableAt_avgPairs (g := fun t x y => Real.exp (f t x y)) fun p hp => (hf p hp).exp
  have hB := (batchDenom_pos (f θ) hne).ne'
  unfold dv
  rw [fderiv_fun_sub (differentiableAt_avgPairs hp) (h1.log hB), fderiv.log h1 hB]

/-- C36: without smoothing (`α = 0`) a step uses exactly the gradient of the Donsker–Varadhan objective, whatever was
carried. -/
theorem no_smoothing_gradient (f : Θ → X → Y → ℝ) (θ : Θ) (xs : List X) (yp yu : List Y) (c : EReal) (D : ℝ)
    (hD : 0 ≤ D) (hc : EReal.exp c = ENNReal.ofReal D) (hne : xs.zip yu ≠ [])
    (hp : ∀ p ∈ xs.zip yp, DifferentiableAt ℝ (fun t => f t p.1 p.2) θ)
    (hf : ∀ p ∈ xs.zip yu, DifferentiableAt ℝ (fun t => f t p.1 p.2) θ) :
    (valueNegGradLogDenom f θ xs yp yu c 0).2.1 = -fderiv ℝ (dv f xs yp yu) θ := by
  rw [gradient_is_equation_12 f θ xs yp yu c 0 D ⟨le_rfl, one_pos⟩ hD hc hne hf, fderiv_dv hne hp hf]
  simp

/-- The first step: the gradient of the second term is `1 / (1 - α)` times too large (10 times for the default
`α = 0.9`). -/
theorem first_step_gradient (f : Θ → X → Y → ℝ) (θ : Θ) (xs : List X) (yp yu : List Y) (α : ℝ)
    (hα : 0 ≤ α ∧ α < 1) (hne : xs.zip yu ≠ [])
    (hf : ∀ p ∈ xs.zip yu, DifferentiableAt ℝ (fun t => f t p.1 p.2) θ) :
    (valueNegGradLogDenom f θ xs yp yu ⊥ α).2.1 =
      -(fderiv ℝ (fun t => avgPairs (f t) xs yp) θ -
        (1 / (1 - α)) • fderiv ℝ (fun t => Real.log (batchDenom (f t) xs yu)) θ) := by
  have h1 : DifferentiableAt ℝ (fun t => batchDenom (f t) xs yu) θ :=
    differentiableAt_avgPairs (g := fun t x y => Real.exp (f t x y)) fun p hp => (hf p hp).exp
  have hB := (batchDenom_pos (f θ) hne).ne'
  rw [gradient_is_equation_12 f θ xs yp yu ⊥ α 0 hα le_rfl (by simp) hne hf, fderiv.log h1 hB, smul_smul]
  simp only [mul_zero, zero_add, mul_inv, one_div]

/-- The claim "at the start smoothing is negligible" fails for every `α` in `(0, 1)` and every batch for which the
second term has a gradient: the first step does not follow the Donsker–Varadhan gradient. -/
theorem start_is_not_negligible (f : Θ → X → Y → ℝ) (θ : Θ) (xs : List X) (yp yu : List Y) (α : ℝ)
    (hα : 0 < α ∧ α < 1) (hne : xs.zip yu ≠ [])
    (hp : ∀ p ∈ xs.zip yp, DifferentiableAt ℝ (fun t => f t p.1 p.2) θ)
    (hf : ∀ p ∈ xs.zip yu, DifferentiableAt ℝ (fun t => f t p.1 p.2) θ)
    (hgrad : fderiv ℝ (fun t => Real.log (batchDenom (f t) xs yu)) θ ≠ 0) :
    (valueNegGradLogDenom f θ xs yp yu ⊥ α).2.1 ≠ -fderiv ℝ (dv f xs yp yu) θ := by
  have h1 : DifferentiableAt ℝ (fun t => batchDenom (f t) xs yu) θ :=
    differentiableAt_avgPairs (g := fun t x y => Real.exp (f t x y)) fun p hp => (hf p hp).exp
  have hB := (batchDenom_pos (f θ) hne).ne'
  rw [first_step_gradient f θ xs yp yu α ⟨hα.1.le, hα.2⟩ hne hf, fderiv_dv hne hp hf,
    ← fderiv.log h1 hB]
  intro h
  have h2 := neg_injective h
  have h3 : (1 / (1 - α)) • fderiv ℝ (fun t => Real.log (batchDenom (f t) xs yu)) θ =
      fderiv ℝ (fun t => Real.log (batchDenom (f t) xs yu)) θ := sub_right_injective h2
  have h4 : (1 / (1 - α) - 1) • fderiv ℝ (fun t => Real.log (batchDenom (f t) xs yu)) θ = 0 := by
    rw [sub_smul, one_smul, h3, sub_self]
  rcases smul_eq_zero.1 h4 with h5 | h5
  · have h6 : 1 - α ≠ 0 := by linarith [hα.2]
    field_simp at h5
    linarith [hα.1]
  · exact hgrad h5

/-- The optimiser moves against the gradient that it is given. -/
def Descends (o : Optimizer Θ O) : Prop :=
  ∀ (g : Θ →L[ℝ] ℝ) (s : O) (θ : Θ), g ≠ 0 → g (o.update g s θ).1 < 0

/-- C36: a step moves the critic in a direction in which the right-hand side of Equation (12), with the moving average as
denominator, is positive. -/
theorem step_follows_equation_12 (o : Optimizer Θ O) (ho : Descends o) (f : Θ → X → Y → ℝ) (s : MineState Θ O)
    (xs : List X) (yp yu : List Y) (α D : ℝ) (hα : 0 ≤ α ∧ α < 1) (hD : 0 ≤ D)
    (hc : EReal.exp s.logDenom = ENNReal.ofReal D) (hne : xs.zip yu ≠ [])
    (hf : ∀ p ∈ xs.zip yu, DifferentiableAt ℝ (fun t => f t p.1 p.2) s.critic) (G : Θ →L[ℝ] ℝ)
    (hG : G = fderiv ℝ (fun t => avgPairs (f t) xs yp) s.critic -
      (α * D + (1 - α) * batchDenom (f s.critic) xs yu)⁻¹ • fderiv ℝ (fun t => batchDenom (f t) xs yu) s.critic)
    (hG0 : G ≠ 0) : 0 < G ((mineStep o f α s xs yp yu).1.critic - s.critic) := by
  have h1 := gradient_is_equation_12 f s.critic xs yp yu s.logDenom α D hα hD hc hne hf
  rw [← hG] at h1
  have h2 := ho (-G) s.opt s.critic (neg_ne_zero.2 hG0)
  have h3 : (mineStep o f α s xs yp yu).1.critic = s.critic + (o.update (-G) s.opt s.critic).1 := by
    rw [← h1]; rfl
  rw [h3, add_sub_cancel_left]
  simpa using h2

/-- C36: without smoothing a step increases the Donsker–Varadhan objective of the batch to first order. -/
theorem step_ascends (o : Optimizer Θ O) (ho : Descends o) (f : Θ → X → Y → ℝ) (s : MineState Θ O) (xs : List X)
    (yp yu : List Y) (D : ℝ) (hD : 0 ≤ D) (hc : EReal.exp s.logDenom = ENNReal.ofReal D) (hne : xs.zip yu ≠ [])
    (hp : ∀ p ∈ xs.zip yp, DifferentiableAt ℝ (fun t => f t p.1 p.2) s.critic)
    (hf : ∀ p ∈ xs.zip yu, DifferentiableAt ℝ (fun t => f t p.1 p.2) s.critic)
    (h0 : fderiv ℝ (dv f xs yp yu) s.critic ≠ 0) :
    0 < fderiv ℝ (dv f xs yp yu) s.critic ((mineStep o f 0 s xs yp yu).1.critic - s.critic) := by
  refine step_follows_equation_12 o ho f s xs yp yu 0 D ⟨le_rfl, one_pos⟩ hD hc hne hf _ ?_ h0
  rw [fderiv_dv hne hp hf]
  simp

/-- The weight of the most recent batch is `1 - α`: values of `α` closer to 1 give *more* smoothing, contrary to the
documentation (_mine_estimator.py:161-162, 261-262). -/
theorem ema_last_weight (α : ℝ) (bs : List ℝ) (b b' : ℝ) :
    ema α (bs ++ [b]) - ema α (bs ++ [b']) = (1 - α) * (b - b') := by
  rw [ema_append, ema_append]; ring

/-! ### The training loop -/

/-- Which steps are test steps: the multiples of `t` among `1..m`. -/
def testSteps (t : ℤ) (m : ℕ) : List ℕ := (List.range' 1 m).filter fun (i : ℕ) => decide (t ∣ (i : ℤ))

/-- C36 and C37 for a whole training run: it does not raise; the final state is reached by `m` steps, `m` being the
reported number of training steps, each on a batch of original pairs together with unpaired original values; the
carried denominator is the exponential moving average of the denominators of these batches; the test history consists
of the Donsker–Varadhan values of the test data (its Y values reordered for the second term) at the test steps; and
fewer steps than allowed means that the early stopping rule holds. -/
theorem mineTraining_spec {r : Rng Key} (hr : IdealRng r) (o : Optimizer Θ O) (f : Θ → X → Y → ℝ) (keys : List Key)
    (θ : Θ) (xs : List X) (ys : List Y) (e : xs.length = ys.length) (xsT : Option (List X)) (ysT : Option (List Y))
    (α : ℝ) (hα : 0 ≤ α ∧ α ≤ 1) (b : ℕ) (hb : 0 < b ∧ b ≤ xs.length) (t : ℤ) (ht : t ≠ 0) (es : Bool) :
    ∃ (log : Log ℝ) (bs : List (Batch X Y)) (yu : ℕ → List Y),
      mineTraining r o f keys θ xs ys xsT ysT α (some b) t es = .ok (log, run o f α ⟨θ, o.init θ, ⊥⟩ bs) ∧
      bs.length = log.nTrainingSteps ∧ bs.length ≤ keys.length ∧
      (∀ c ∈ bs, c.1.length = b ∧ c.2.1.length = b ∧ c.2.2.length = b ∧
        (c.1.zip c.2.1).Subperm (xs.zip ys) ∧ c.2.2.Subperm ys) ∧
      EReal.exp (run o f α ⟨θ, o.init θ, ⊥⟩ bs).logDenom =
        ENNReal.ofReal (ema α (denoms o f α ⟨θ, o.init θ, ⊥⟩ bs)) ∧
      (∀ i, (yu i).Perm (ysT.getD ys)) ∧
      log.testHist = (testSteps t bs.length).map (fun i => (i, .num
        (mineValue (f (run o f α ⟨θ, o.init θ, ⊥⟩ (bs.take i)).critic) (xsT.getD xs) (ysT.getD ys) (yu i)))) ∧
      LogInv log ∧
      (bs.length < keys.length → es = true ∧ Training.Spec.StopRule (log.testHist.map Prod.snd)) := by
  have hsplit : ∀ k, ∃ p, split2 r k = .ok p := by
    intro k
    obtain ⟨k1, k2, hk⟩ := List.length_eq_two.1 (hr.split_length k 2)
    exact ⟨(k1, k2), by unfold split2; rw [hk]⟩
  choose sp hsp using hsplit
  have hbatch : ∀ k, ∃ c : Batch X Y, samplePairedUnpaired r k xs ys (some b) = .ok c ∧ c.1.length = b ∧
      c.2.1.length = b ∧ c.2.2.length = b ∧ (c.1.zip c.2.1).Subperm (xs.zip ys) ∧ c.2.2.Subperm ys := by
    intro k
    obtain ⟨bx, yp, yu, h1, h2, h3, h4, h5, h6, -⟩ := samplePairedUnpaired_pairs hr xs ys e k (some b)
      (by intro m hm; cases hm; exact hb.2)
    exact ⟨(bx, yp, yu), h1, h2, h3, h4, h5, h6⟩
  choose bt hbt using hbatch
  set st : MineState Θ O → Key → MineState Θ O × Fl ℝ := fun s k =>
    ((mineStep o f α s (bt (sp k).1).1 (bt (sp k).1).2.1 (bt (sp k).1).2.2).1,
      .num (mineStep o f α s (bt (sp k).1).1 (bt (sp k).1).2.1 (bt (sp k).1).2.2).2) with hst
  set te : MineState Θ O → Key → Fl ℝ := fun s k => .num (mineValue (f s.critic) (xsT.getD xs) (ysT.getD ys)
    (gather (ysT.getD ys) (r.permutation (sp k).2 (ysT.getD ys).length))) with hte
  have h1 : ∀ s k, mineBody r o f α xs ys (some b) s k = .ok (st s k) := by
    intro s k
    simp only [mineBody, hsp, (hbt _).1, bind, Except.bind]
    rfl
  have h2 : ∀ s k, mineTest r f (xsT.getD xs) (ysT.getD ys) s k = .ok (te s k) := by
    intro s k
    simp only [mineTest, hsp, bind, Except.bind]
    rfl
  obtain ⟨m, l, hs, hm, hn, hth, hinv, hstop⟩ := trainLoop_spec h1 h2 t ht keys ⟨θ, o.init θ, ⊥⟩ es
  have hrun : ∀ i, (keys.take i).foldl (fun s k => (st s k).1) ⟨θ, o.init θ, ⊥⟩ =
      run o f α ⟨θ, o.init θ, ⊥⟩ ((keys.take i).map fun k => bt (sp k).1) := by
    intro i
    rw [run, List.foldl_map]
  have hmem : ∀ c ∈ (keys.take m).map fun k => bt (sp k).1, c.1.length = b ∧ c.2.1.length = b ∧
      c.2.2.length = b ∧ (c.1.zip c.2.1).Subperm (xs.zip ys) ∧ c.2.2.Subperm ys := by
    intro c hc
    obtain ⟨k, -, rfl⟩ := List.mem_map.1 hc
    exact (hbt _).2
  have hlen : ((keys.take m).map fun k => bt (sp k).1).length = m := by
    rw [List.length_map, List.length_take]; omega
  refine ⟨l, (keys.take m).map fun k => bt (sp k).1, fun i => (keys[i - 1]?).elim (ysT.getD ys) fun k =>
    gather (ysT.getD ys) (r.permutation (sp k).2 (ysT.getD ys).length), ?_, ?_, ?_, hmem, ?_, ?_, ?_, hinv, ?_⟩
  · rw [← hrun]
    exact hs
  · rw [hlen, hn]
  · rw [hlen]; exact hm
  · refine denominator_is_ema o f α hα θ _ _ fun c hc => ?_
    have := hmem c hc
    intro h0
    have h3 := congrArg List.length h0
    rw [List.length_zip, this.1, this.2.2.1, min_self] at h3
    simp at h3
    omega
  · intro i
    beta_reduce
    cases keys[i - 1]? with
    | none => exact List.Perm.refl _
    | some k => exact gather_perm _ _ (hr.permutation _ _)
  · rw [hth, hlen, testSteps]
    refine List.map_congr_left fun i hi => ?_
    obtain ⟨j, hj, rfl⟩ := List.mem_range'.1 (List.mem_of_mem_filter hi)
    have hjk : j < keys.length := by omega
    beta_reduce
    rw [hrun, show 1 + 1 * j - 1 = j by omega, List.getElem?_eq_getElem hjk, ← List.map_take, List.take_take,
      min_eq_left (show 1 + 1 * j ≤ m by omega)]
    rfl
  · rw [hlen]; exact hstop

/-! ### The hypotheses can be met -/

/-- A critic with one parameter. -/
def slope : ℝ → ℝ → ℝ → ℝ := fun t x y => t * (x * y)

theorem slope_diff (p : ℝ × ℝ) (θ : ℝ) : DifferentiableAt ℝ (fun t => slope t p.1 p.2) θ := by
  unfold slope; fun_prop

theorem slope_grad : fderiv ℝ (fun t => Real.log (batchDenom (slope t) [1] [1])) 0 ≠ 0 := by
  have h : (fun t => Real.log (batchDenom (slope t) [1] [1])) = fun t : ℝ => t := by
    funext t; simp [batchDenom, avgPairs, slope]
  rw [h]
  intro h0
  have := congrArg (fun L : ℝ →L[ℝ] ℝ => L 1) h0
  simp at this

/-- Gradient descent with step one. -/
noncomputable def descent : Optimizer ℝ Unit where
  init _ := ()
  update g _ _ := (-(g 1), ())

theorem descent_descends : Descends descent := by
  intro g s θ hg
  have h1 : g 1 ≠ 0 := fun h => hg (by ext; simpa using h)
  have h2 : g (-(g 1)) = -(g 1 * g 1) := by
    rw [show -(g 1) = (-(g 1)) • (1 : ℝ) by simp, map_smul, smul_eq_mul]
    ring
  change g (-(g 1)) < 0
  rw [h2]
  have := mul_self_pos.2 h1
  linarith

example : 0 < fderiv ℝ (dv slope [1] [2] [1]) 0 ((mineStep descent slope 0 ⟨0, (), ⊥⟩ [1] [2] [1]).1.critic - 0) := by
  refine step_ascends descent descent_descends slope ⟨0, (), ⊥⟩ [1] [2] [1] 0 le_rfl (by simp) (by simp)
    (fun p _ => slope_diff p 0) (fun p _ => slope_diff p 0) ?_
  have h : dv slope [1] [2] [1] = fun t : ℝ => t := by
    funext t
    simp [dv, batchDenom, avgPairs, slope]
    ring
  rw [h]
  intro h0
  have := congrArg (fun L : ℝ →L[ℝ] ℝ => L 1) h0
  simp at this

example : (valueNegGradLogDenom slope 0 [1] [1] [1] ⊥ 0.9).2.1 ≠ -fderiv ℝ (dv slope [1] [1] [1]) 0 :=
  start_is_not_negligible slope 0 [1] [1] [1] 0.9 (by norm_num) (by simp) (fun p _ => slope_diff p 0)
    (fun p _ => slope_diff p 0) slope_grad

example : (valueNegGradLogDenom slope 0 [1] [1] [1] ⊥ 0).2.1 = -fderiv ℝ (dv slope [1] [1] [1]) 0 :=
  no_smoothing_gradient slope 0 [1] [1] [1] ⊥ 0 le_rfl (by simp) (by simp) (fun p _ => slope_diff p 0)
    (fun p _ => slope_diff p 0)

example : (valueNegGradLogDenom slope 0 [1] [1] [1] 0 0.5).2.1 =
    -(fderiv ℝ (fun t => avgPairs (slope t) [1] [1]) 0 -
      (0.5 * 1 + (1 - 0.5) * batchDenom (slope 0) [1] [1])⁻¹ • fderiv ℝ (fun t => batchDenom (slope t) [1] [1]) 0) :=
  gradient_is_equation_12 slope 0 [1] [1] [1] 0 0.5 1 (by norm_num) zero_le_one (by simp) (by simp)
    (fun p _ => slope_diff p 0)

example : (valueNegGradLogDenom slope 0 [1] [1] [1] ⊥ 0.9).2.1 =
    -(fderiv ℝ (fun t => avgPairs (slope t) [1] [1]) 0 -
      (1 / (1 - (0.9 : ℝ))) • fderiv ℝ (fun t => Real.log (batchDenom (slope t) [1] [1])) 0) :=
  first_step_gradient slope 0 [1] [1] [1] 0.9 (by norm_num) (by simp) (fun p _ => slope_diff p 0)

example : EReal.exp (run descent slope 0.9 ⟨0, (), ⊥⟩ [([1], [1], [2]), ([1, 2], [3, 4], [4, 3])]).logDenom =
    ENNReal.ofReal (ema 0.9 (denoms descent slope 0.9 ⟨0, (), ⊥⟩ [([1], [1], [2]), ([1, 2], [3, 4], [4, 3])])) :=
  denominator_is_ema descent slope 0.9 (by norm_num) 0 () _ (by simp)

example : ∃ (log : Log ℝ) (bs : List (Batch ℝ ℝ)),
    mineTraining plainRng descent slope [(), ()] 0 [1, 2] [3, 4] none none 0.9 (some 1) 1 true =
      .ok (log, run descent slope 0.9 ⟨0, (), ⊥⟩ bs) ∧
    EReal.exp (run descent slope 0.9 ⟨0, (), ⊥⟩ bs).logDenom =
      ENNReal.ofReal (ema 0.9 (denoms descent slope 0.9 ⟨0, (), ⊥⟩ bs)) := by
  obtain ⟨log, bs, -, h1, -, -, -, h2, -⟩ := mineTraining_spec plainRng_ideal descent slope [(), ()] 0 [1, 2] [3, 4]
    rfl none none 0.9 (by norm_num) 1 (by simp) 1 one_ne_zero true
  exact ⟨log, bs, h1, h2⟩

end BMI.Mine
