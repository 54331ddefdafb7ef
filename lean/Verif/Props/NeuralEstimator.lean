import Verif.Model.NeuralEstimator
import Verif.Props.Mine
import Verif.Props.ProductSpace

/-!
C37 (and C32, C33) for the estimators themselves: what `estimate_with_info` does with the data, when it returns NaN,
when it raises, and that earlier calls do not influence later ones.
-/

namespace BMI.NeuralEstimator

open BMI.NeuralData BMI.Training BMI.Mine BMI.PSpace

variable {Θ X Y Key O : Type} [NormedAddCommGroup Θ] [NormedSpace ℝ Θ]

/-- The state of `basic_training` after the steps on the given batches. -/
noncomputable def basicRun (o : Optimizer Θ O) (f : Θ → X → Y → ℝ) (formula : Formula X Y) (s : Θ × O)
    (bs : List (List X × List Y)) : Θ × O := bs.foldl (fun s b => (basicStep o f formula s b.1 b.2).1) s

/-- C32: a training step increases the objective on its batch to first order, if the optimiser moves against the gradient
that it is given. -/
theorem basicStep_ascends (o : Optimizer Θ O) (ho : Descends o) (f : Θ → X → Y → ℝ) (formula : Formula X Y) (s : Θ × O)
    (xs : List X) (ys : List Y) (v : Θ → ℝ) (hv : ∀ t, formula (f t) xs ys = .num (v t)) (h0 : fderiv ℝ v s.1 ≠ 0) :
    0 < fderiv ℝ v s.1 ((basicStep o f formula s xs ys).1.1 - s.1) := by
  have h1 : fderiv ℝ (fun t => -(Fl.real (formula (f t) xs ys))) s.1 = -fderiv ℝ v s.1 := by
    simp only [hv, Fl.real]
    exact fderiv_fun_neg
  have h2 := ho (-fderiv ℝ v s.1) s.2 s.1 (neg_ne_zero.2 h0)
  have h3 : (basicStep o f formula s xs ys).1.1 = s.1 + (o.update (-fderiv ℝ v s.1) s.2 s.1).1 := by
    rw [← h1]; rfl
  rw [h3, add_sub_cancel_left]
  simpa using h2

/-- C32, C37 for `basic_training` with its calls: it does not raise; the steps are made on batches of original pairs;
the test objective is evaluated on the test data, at the test steps, for the critic after that step. -/
theorem basicTrainingE_spec {r : Rng Key} (hr : IdealRng r) (o : Optimizer Θ O) (f : Θ → X → Y → ℝ) (keys : List Key)
    (θ : Θ) (formula : Formula X Y) (xs : List X) (ys : List Y) (e : xs.length = ys.length)
    (formulaT : Option (Formula X Y)) (xsT : Option (List X)) (ysT : Option (List Y)) (b : ℕ) (hb : b ≤ xs.length)
    (t : ℤ) (ht : t ≠ 0) (es : Bool) :
    ∃ (log : Log ℝ) (bs : List (List X × List Y)),
      basicTrainingE r o f keys θ formula xs ys formulaT xsT ysT (some b) t es =
        .ok (log, basicRun o f formula (θ, o.init θ) bs) ∧
      bs.length = log.nTrainingSteps ∧ bs.length ≤ keys.length ∧
      (∀ c ∈ bs, c.1.length = b ∧ c.2.length = b ∧ (c.1.zip c.2).Subperm (xs.zip ys)) ∧
      log.testHist = (testSteps t bs.length).map (fun i => (i, (formulaT.getD formula)
        (f (basicRun o f formula (θ, o.init θ) (bs.take i)).1) (xsT.getD xs) (ysT.getD ys))) ∧
      LogInv log ∧
      (bs.length < keys.length → es = true ∧ Training.Spec.StopRule (log.testHist.map Prod.snd)) := by
  have hbatch : ∀ k, ∃ c : List X × List Y, getBatch r xs ys k (some b) = .ok c ∧ c.1.length = b ∧
      c.2.length = b ∧ (c.1.zip c.2).Subperm (xs.zip ys) := by
    intro k
    obtain ⟨bx, y, h1, h2, h3, h4⟩ := getBatch_pairs hr xs ys e k b hb
    exact ⟨(bx, y), h1, h2, h3, h4⟩
  choose bt hbt using hbatch
  have h1 : ∀ s k, basicBody r o f formula xs ys (some b) s k =
      .ok (basicStep o f formula s (bt k).1 (bt k).2) := by
    intro s k
    simp only [basicBody, (hbt _).1, bind, Except.bind]
  obtain ⟨m, l, hs, hm, hn, hth, hinv, hstop⟩ := trainLoop_spec h1
    (te := fun (s : Θ × O) (_ : Key) => (formulaT.getD formula) (f s.1) (xsT.getD xs) (ysT.getD ys))
    (fun _ _ => rfl) t ht keys (θ, o.init θ) es
  have hrun : ∀ i, (keys.take i).foldl (fun s k => (basicStep o f formula s (bt k).1 (bt k).2).1) (θ, o.init θ) =
      basicRun o f formula (θ, o.init θ) ((keys.take i).map bt) := by
    intro i
    rw [basicRun, List.foldl_map]
  have hlen : ((keys.take m).map bt).length = m := by
    rw [List.length_map, List.length_take]; omega
  refine ⟨l, (keys.take m).map bt, ?_, ?_, ?_, ?_, ?_, hinv, ?_⟩
  · rw [← hrun]
    exact hs
  · rw [hlen, hn]
  · rw [hlen]; exact hm
  · intro c hc
    obtain ⟨k, -, rfl⟩ := List.mem_map.1 hc
    exact (hbt _).2
  · rw [hth, hlen, testSteps]
    refine List.map_congr_left fun i hi => ?_
    obtain ⟨j, hj, rfl⟩ := List.mem_range'.1 (List.mem_of_mem_filter hi)
    have hjk : j < keys.length := by omega
    beta_reduce
    rw [hrun, show 1 + 1 * j - 1 = j by omega, List.getElem?_eq_getElem hjk, ← List.map_take, List.take_take,
      min_eq_left (show 1 + 1 * j ≤ m by omega)]
    rfl
  · rw [hlen]; exact hstop

/-! ### The steps before training -/

theorem split3_ok {r : Rng Key} (hr : IdealRng r) (key : Key) : ∃ a b c, split3 r key = .ok (a, b, c) := by
  obtain ⟨a, b, c, h⟩ := List.length_eq_three.1 (hr.split_length key 3)
  exact ⟨a, b, c, by unfold split3; rw [h]⟩

theorem space_ok (ε : ℝ) (x y : Mat) (std : Bool) (hn : x.n = y.n) (hne : 0 < x.n ∧ 0 < x.d ∧ 0 < y.d) :
    space ε x y std = .ok (stored ε std x, stored ε std y) := by
  obtain ⟨h', bx, by_, h1, h2, h3, -⟩ := init_spec ε [x, y] 0 1 x y std rfl rfl hn hne
  simp only [space, h1, bind, Except.bind, h2, h3]
  rfl

theorem space_mismatch (ε : ℝ) (x y : Mat) (std : Bool) (hn : x.n ≠ y.n) : space ε x y std = .error .valueError := by
  simp only [space, init_length_mismatch ε [x, y] 0 1 x y std rfl rfl hn, bind, Except.bind]

theorem stored_n (ε : ℝ) (std : Bool) (m : Mat) : (stored ε std m).n = m.n := by unfold stored; split_ifs <;> rfl

theorem stored_d (ε : ℝ) (std : Bool) (m : Mat) : (stored ε std m).d = m.d := by unfold stored; split_ifs <;> rfl

theorem rows_length (m : Mat) : (rows m).length = m.n := List.length_ofFn

/-- The data handed to the split: the (standardised) rows. -/
noncomputable def xRows (ε : ℝ) (p : Params) (x : Mat) : List Point := rows (stored ε p.standardize x)

theorem xRows_length (ε : ℝ) (p : Params) (x : Mat) : (xRows ε p x).length = x.n := by
  rw [xRows, rows_length, stored_n]

/-- Train and test part as lists of pairs: `f = some _`: a partition; `None`: everything twice. -/
def SplitOf (xs ys xTr yTr xTe yTe : List Point) (f : Option ℝ) : Prop :=
  xTr.length = yTr.length ∧ xTe.length = yTe.length ∧
  match f with
  | none => xTr = xs ∧ yTr = ys ∧ xTe = xs ∧ yTe = ys
  | some f => (xTr.zip yTr ++ xTe.zip yTe).Perm (xs.zip ys) ∧ xTr.length = ⌊f * xs.length⌋₊

theorem split_spec {r : Rng Key} (hr : IdealRng r) (xs ys : List Point) (e : xs.length = ys.length) (f : Option ℝ)
    (hf : ∀ g, f = some g → 0 < g ∧ g < 1 ∧ 1 ≤ g * xs.length) (key : Key) :
    ∃ xTr xTe yTr yTe, trainTestSplit r xs ys f key = .ok (xTr, xTe, yTr, yTe) ∧
      SplitOf xs ys xTr yTr xTe yTe f := by
  cases f with
  | none => exact ⟨xs, xs, ys, ys, rfl, e, e, rfl, rfl, rfl, rfl⟩
  | some f =>
    obtain ⟨h0, h1, h2⟩ := hf f rfl
    obtain ⟨a, b, c, d, h3, h4, h5, h6, h7, -⟩ := trainTestSplit_partition hr xs ys e f ⟨h0, h1⟩ h2 key
    exact ⟨a, b, c, d, h3, h6.symm, h7.symm, h4, h5⟩

/-- Number of training points. -/
noncomputable def trainSize (f : Option ℝ) (n : ℕ) : ℕ :=
  match f with
  | none => n
  | some f => ⌊f * n⌋₊

theorem SplitOf.length {xs ys xTr yTr xTe yTe : List Point} {f : Option ℝ} (h : SplitOf xs ys xTr yTr xTe yTe f) :
    xTr.length = trainSize f xs.length := by
  cases f with
  | none => rw [h.2.2.1]; rfl
  | some f => exact h.2.2.2

/-! ### `NeuralEstimatorBase` -/

/-- C37: a batch size above the number of training points gives NaN with the flag and leaves the estimator as it
was. -/
theorem estimate_batch_too_large {lib : Lib Key Θ O} (hr : IdealRng lib.rng) (ε : ℝ) (F FT : Formula Point Point)
    (est : Estimator Θ) (x y : Mat) (hn : x.n = y.n) (hne : 0 < x.n ∧ 0 < x.d ∧ 0 < y.d)
    (hf : ∀ g, est.params.trainTestSplit = some g → 0 < g ∧ g < 1 ∧ 1 ≤ g * x.n)
    (hb : trainSize est.params.trainTestSplit x.n < est.params.batchSize) :
    estimateWithInfo lib ε F FT est x y = .ok (⟨.nan, true, none⟩, est) := by
  obtain ⟨a, b, c, hk⟩ := split3_ok hr (lib.prngKey est.params.seed)
  obtain ⟨xTr, xTe, yTr, yTe, h1, h2⟩ := split_spec hr (xRows ε est.params x) (xRows ε est.params y)
    (by rw [xRows_length, xRows_length, hn]) est.params.trainTestSplit (by rw [xRows_length]; exact hf) b
  have hl := h2.length
  rw [xRows_length] at hl
  unfold estimateWithInfo
  simp only [hk, space_ok ε x y _ hn hne, bind, Except.bind]
  unfold xRows at h1
  simp only [h1]
  rw [if_pos (by rw [hl]; exact hb)]

/-- C37, C32, C33 for a successful call: training uses only batches of training pairs, the test objective is evaluated
on the test pairs at the test steps, the result is `final_mi` of that history (see `finalMI_of_inv`: the largest test
value when the first is a number, NaN when there is none), and the critic after the last step is kept. -/
theorem estimate_spec {lib : Lib Key Θ O} (hr : IdealRng lib.rng) (ε : ℝ) (F FT : Formula Point Point)
    (est : Estimator Θ) (x y : Mat) (hn : x.n = y.n) (hne : 0 < x.n ∧ 0 < x.d ∧ 0 < y.d)
    (hf : ∀ g, est.params.trainTestSplit = some g → 0 < g ∧ g < 1 ∧ 1 ≤ g * x.n)
    (hb : 0 ≤ est.params.batchSize ∧ est.params.batchSize ≤ trainSize est.params.trainTestSplit x.n)
    (ht : est.params.testEvery ≠ 0) (hfac : ∀ k, ∃ θ, lib.factory k x.d y.d = .ok θ) :
    ∃ (xTr xTe yTr yTe : List Point) (θ : Θ) (log : Log ℝ) (bs : List (List Point × List Point)),
      SplitOf (xRows ε est.params x) (xRows ε est.params y) xTr yTr xTe yTe est.params.trainTestSplit ∧
      (∃ k, lib.factory k x.d y.d = .ok θ) ∧
      estimateWithInfo lib ε F FT est x y = .ok (⟨log.finalMI, false, some log⟩,
        { est with trainedCritic := some (basicRun (lib.adam est.params.learningRate) lib.call F
          (θ, (lib.adam est.params.learningRate).init θ) bs).1 }) ∧
      bs.length = log.nTrainingSteps ∧ bs.length ≤ est.params.maxSteps.toNat ∧
      (∀ c ∈ bs, (c.1.length : ℤ) = est.params.batchSize ∧ (c.2.length : ℤ) = est.params.batchSize ∧
        (c.1.zip c.2).Subperm (xTr.zip yTr)) ∧
      log.testHist = (testSteps est.params.testEvery bs.length).map (fun i => (i, FT
        (lib.call (basicRun (lib.adam est.params.learningRate) lib.call F
          (θ, (lib.adam est.params.learningRate).init θ) (bs.take i)).1) xTe yTe)) ∧
      LogInv log ∧
      (bs.length < est.params.maxSteps.toNat → Training.Spec.StopRule (log.testHist.map Prod.snd)) := by
  obtain ⟨a, b, c, hk⟩ := split3_ok hr (lib.prngKey est.params.seed)
  obtain ⟨xTr, xTe, yTr, yTe, h1, h2⟩ := split_spec hr (xRows ε est.params x) (xRows ε est.params y)
    (by rw [xRows_length, xRows_length, hn]) est.params.trainTestSplit (by rw [xRows_length]; exact hf) b
  have hl := h2.length
  rw [xRows_length] at hl
  obtain ⟨θ, hθ⟩ := hfac a
  have hkeys := hr.split_length c est.params.maxSteps.toNat
  obtain ⟨log, bs, g1, g2, g3, g4, g5, g6, g7⟩ := basicTrainingE_spec hr (lib.adam est.params.learningRate) lib.call
    (lib.rng.split c est.params.maxSteps.toNat) θ F xTr yTr h2.1 (some FT) (some xTe) (some yTe)
    est.params.batchSize.toNat (by rw [hl]; omega) est.params.testEvery ht true
  refine ⟨xTr, xTe, yTr, yTe, θ, log, bs, h2, ⟨a, hθ⟩, ?_, g2, ?_, ?_, g5, g6, ?_⟩
  · unfold estimateWithInfo
    simp only [hk, space_ok ε x y _ hn hne, bind, Except.bind]
    unfold xRows at h1
    simp only [h1]
    rw [if_neg (by rw [hl]; omega)]
    simp only [stored_d, hθ, g1]
  · rw [← hkeys]; exact g3
  · intro d hd
    obtain ⟨e1, e2, e3⟩ := g4 d hd
    exact ⟨by rw [e1]; omega, by rw [e2]; omega, e3⟩
  · intro hlt
    exact (g7 (by rw [hkeys]; exact hlt)).2

/-- `NeuralEstimatorParams` accepts a test period of zero; every training then fails. -/
theorem estimate_zero_period {lib : Lib Key Θ O} (hr : IdealRng lib.rng) (ε : ℝ) (F FT : Formula Point Point)
    (est : Estimator Θ) (x y : Mat) (hn : x.n = y.n) (hne : 0 < x.n ∧ 0 < x.d ∧ 0 < y.d)
    (hf : ∀ g, est.params.trainTestSplit = some g → 0 < g ∧ g < 1 ∧ 1 ≤ g * x.n)
    (hb : 0 ≤ est.params.batchSize ∧ est.params.batchSize ≤ trainSize est.params.trainTestSplit x.n)
    (hs : 0 < est.params.maxSteps) (ht : est.params.testEvery = 0)
    (hfac : ∀ k, ∃ θ, lib.factory k x.d y.d = .ok θ) :
    estimateWithInfo lib ε F FT est x y = .error .zeroDivision := by
  obtain ⟨a, b, c, hk⟩ := split3_ok hr (lib.prngKey est.params.seed)
  obtain ⟨xTr, xTe, yTr, yTe, h1, h2⟩ := split_spec hr (xRows ε est.params x) (xRows ε est.params y)
    (by rw [xRows_length, xRows_length, hn]) est.params.trainTestSplit (by rw [xRows_length]; exact hf) b
  have hl := h2.length
  rw [xRows_length] at hl
  obtain ⟨θ, hθ⟩ := hfac a
  have hkeys := hr.split_length c est.params.maxSteps.toNat
  unfold estimateWithInfo
  simp only [hk, space_ok ε x y _ hn hne, bind, Except.bind]
  unfold xRows at h1
  simp only [h1]
  rw [if_neg (by rw [hl]; omega)]
  simp only [stored_d, hθ, basicTrainingE]
  cases hks : lib.rng.split c est.params.maxSteps.toNat with
  | nil => rw [hks] at hkeys; simp at hkeys; omega
  | cons k ks =>
    obtain ⟨bx, y', e1, -⟩ := getBatch_pairs hr xTr yTr h2.1 k est.params.batchSize.toNat (by rw [hl]; omega)
    simp only [trainLoop, basicBody, e1, bind, Except.bind, ht, if_true]

/-- Data of different lengths, or a training part without points, or a split fraction outside `(0, 1)`, are refused
with `ValueError`. -/
theorem estimate_refuses {lib : Lib Key Θ O} (hr : IdealRng lib.rng) (ε : ℝ) (F FT : Formula Point Point)
    (est : Estimator Θ) (x y : Mat) (hne : 0 < x.n ∧ 0 < x.d ∧ 0 < y.d)
    (h : x.n ≠ y.n ∨ ∃ g, est.params.trainTestSplit = some g ∧ (g ≤ 0 ∨ 1 ≤ g ∨ g * x.n < 1)) :
    estimateWithInfo lib ε F FT est x y = .error .valueError := by
  obtain ⟨a, b, c, hk⟩ := split3_ok hr (lib.prngKey est.params.seed)
  unfold estimateWithInfo
  by_cases hn : x.n = y.n
  · obtain ⟨g, hg, h'⟩ := h.resolve_left (not_not.2 hn)
    have := (trainTestSplit_error_iff lib.rng (xRows ε est.params x) (xRows ε est.params y) g b).2 (by
      rw [xRows_length, xRows_length]; tauto)
    unfold xRows at this
    simp only [hk, space_ok ε x y _ hn hne, bind, Except.bind, hg, this]
  · simp only [hk, space_mismatch ε x y _ hn, bind, Except.bind]

/-- C37, "leaves the estimator usable": the result depends on the parameters and the data only, not on earlier calls
(which can only change the stored critic). -/
theorem estimate_history_independent (lib : Lib Key Θ O) (ε : ℝ) (F FT : Formula Point Point) (est est' : Estimator Θ)
    (hp : est.params = est'.params) (x y : Mat) :
    (estimateWithInfo lib ε F FT est x y).map Prod.fst = (estimateWithInfo lib ε F FT est' x y).map Prod.fst := by
  unfold estimateWithInfo
  rw [hp]
  simp only [bind, Except.bind]
  split
  · rfl
  · split
    · rfl
    · split
      · rfl
      · split_ifs
        · rfl
        · split
          · rfl
          · split <;> rfl

/-- Calls never change the parameters. -/
theorem estimate_keeps_params (lib : Lib Key Θ O) (ε : ℝ) (F FT : Formula Point Point) (est est' : Estimator Θ)
    (x y : Mat) (res : Result) (h : estimateWithInfo lib ε F FT est x y = .ok (res, est')) :
    est'.params = est.params := by
  unfold estimateWithInfo at h
  simp only [bind, Except.bind] at h
  split at h
  · cases h
  · split at h
    · cases h
    · split at h
      · cases h
      · split_ifs at h
        · cases h; rfl
        · split at h
          · cases h
          · split at h
            · cases h
            · cases h; rfl

/-! ### MINE -/

/-- C37 for MINE: a batch size above the number of training points. -/
theorem mine_batch_too_large {lib : Lib Key Θ O} (hr : IdealRng lib.rng) (ε α : ℝ) (est : Estimator Θ)
    (x y : Mat) (hn : x.n = y.n) (hne : 0 < x.n ∧ 0 < x.d ∧ 0 < y.d)
    (hf : ∀ g, est.params.trainTestSplit = some g → 0 < g ∧ g < 1 ∧ 1 ≤ g * x.n)
    (hb : trainSize est.params.trainTestSplit x.n < est.params.batchSize) :
    mineEstimateWithInfo lib ε α est x y = .ok (⟨.nan, true, none⟩, est) := by
  obtain ⟨a, b, c, hk⟩ := split3_ok hr (lib.prngKey est.params.seed)
  obtain ⟨xTr, xTe, yTr, yTe, h1, h2⟩ := split_spec hr (xRows ε est.params x) (xRows ε est.params y)
    (by rw [xRows_length, xRows_length, hn]) est.params.trainTestSplit (by rw [xRows_length]; exact hf) b
  have hl := h2.length
  rw [xRows_length] at hl
  unfold mineEstimateWithInfo
  simp only [hk, space_ok ε x y _ hn hne, bind, Except.bind]
  unfold xRows at h1
  simp only [h1]
  rw [if_pos (by rw [hl]; exact hb)]

/-- The result of MINE does not depend on earlier calls either. -/
theorem mine_history_independent (lib : Lib Key Θ O) (ε α : ℝ) (est est' : Estimator Θ)
    (hp : est.params = est'.params) (x y : Mat) :
    (mineEstimateWithInfo lib ε α est x y).map Prod.fst = (mineEstimateWithInfo lib ε α est' x y).map Prod.fst := by
  unfold mineEstimateWithInfo
  rw [hp]
  simp only [bind, Except.bind]
  split
  · rfl
  · split
    · rfl
    · split
      · rfl
      · split_ifs
        · rfl
        · split
          · rfl
          · split <;> rfl

/-- C62: exactly these parameters are accepted by MINE. -/
theorem mkMine_accepts_iff (p : Params) (α : ℝ) :
    ((∃ est : Estimator Θ, mkMine p α = .ok est) ↔ 1 ≤ p.batchSize ∧ 1 ≤ p.maxSteps ∧
      (∀ f, p.trainTestSplit = some f → 0 < f ∧ f < 1) ∧ 1 ≤ p.testEvery ∧ 0 < p.learningRate ∧ 0 < α ∧ α < 1) ∧
    ((¬ ∃ est : Estimator Θ, mkMine p α = .ok est) → mkMine (Θ := Θ) p α = .error .validationError) := by
  unfold mkMine validateMine
  split_ifs with h
  · obtain ⟨h1, h2, h3, h4, h5⟩ := h
    refine ⟨⟨fun _ => ⟨by omega, by omega, h3, by omega, h5⟩, fun _ => ⟨_, rfl⟩⟩, fun h' => absurd ⟨_, rfl⟩ h'⟩
  · refine ⟨⟨fun h' => ?_, fun h' => ?_⟩, fun _ => rfl⟩
    · obtain ⟨est, he⟩ := h'
      cases he
    · obtain ⟨h1, h2, h3, h4, h5⟩ := h'
      exact absurd ⟨by omega, by omega, h3, by omega, h5⟩ h

/-- C62: the other neural estimators check less: neither the split fraction nor the period of the tests. -/
theorem mk_accepts_iff (p : Params) :
    ((∃ est : Estimator Θ, NeuralEstimator.mk p = .ok est) ↔ 1 ≤ p.batchSize ∧ 1 ≤ p.maxSteps ∧ 0 < p.learningRate) ∧
    ((¬ ∃ est : Estimator Θ, NeuralEstimator.mk p = .ok est) → NeuralEstimator.mk (Θ := Θ) p = .error .validationError) := by
  unfold mk validate
  split_ifs with h
  · obtain ⟨h1, h2, h3⟩ := h
    refine ⟨⟨fun _ => ⟨by omega, by omega, h3⟩, fun _ => ⟨_, rfl⟩⟩, fun h' => absurd ⟨_, rfl⟩ h'⟩
  · refine ⟨⟨fun h' => ?_, fun h' => ?_⟩, fun _ => rfl⟩
    · obtain ⟨est, he⟩ := h'
      cases he
    · obtain ⟨h1, h2, h3⟩ := h'
      exact absurd ⟨by omega, by omega, h3⟩ h

/-- An estimator whose parameters passed the validation of MINE never raises on data with enough points; it returns a
number, namely the largest of the test values, exactly when the batch fits into the training part and at least one
test is made; each of the test values is the Donsker–Varadhan value of a critic on the test part. -/
theorem mine_estimate_total {lib : Lib Key Θ O} (hr : IdealRng lib.rng) (ε α : ℝ) (p : Params) (est : Estimator Θ)
    (hv : mkMine p α = .ok est) (x y : Mat) (hn : x.n = y.n) (hne : 0 < x.n ∧ 0 < x.d ∧ 0 < y.d)
    (hf : ∀ g, p.trainTestSplit = some g → 1 ≤ g * x.n) (hfac : ∀ k, ∃ θ, lib.factory k x.d y.d = .ok θ) :
    ∃ res est', mineEstimateWithInfo lib ε α est x y = .ok (res, est') ∧
      (res.mi = .nan ↔ trainSize p.trainTestSplit x.n < p.batchSize ∨ p.maxSteps < p.testEvery) ∧
      (res.batchSizeLargerThanTrain = true ↔ trainSize p.trainTestSplit x.n < p.batchSize) ∧
      ∀ v, res.mi = .num v → ∃ (xTr xTe yTr yTe : List Point) (log : Log ℝ),
        SplitOf (xRows ε p x) (xRows ε p y) xTr yTr xTe yTe p.trainTestSplit ∧ res.log = some log ∧
        IsGreatest {w | Fl.num w ∈ log.testHist.map Prod.snd} v ∧
        ∀ w, Fl.num w ∈ log.testHist.map Prod.snd → ∃ θ yu, yu.Perm yTe ∧
          w = mineValue (lib.call θ) xTe yTe yu := by
  obtain ⟨hval, rfl⟩ : (0 < p.batchSize ∧ 0 < p.maxSteps ∧ (∀ f, p.trainTestSplit = some f → 0 < f ∧ f < 1) ∧
      0 < p.testEvery ∧ 0 < p.learningRate ∧ 0 < α ∧ α < 1) ∧ est = ⟨p, none⟩ := by
    unfold mkMine validateMine at hv
    split_ifs at hv with h
    · exact ⟨h, (Except.ok.inj hv).symm⟩
    · cases hv
  obtain ⟨hb0, hs0, hf0, ht0, -, ha0, ha1⟩ := hval
  have hf' : ∀ g, p.trainTestSplit = some g → 0 < g ∧ g < 1 ∧ 1 ≤ g * x.n :=
    fun g hg => ⟨(hf0 g hg).1, (hf0 g hg).2, hf g hg⟩
  by_cases hb : trainSize p.trainTestSplit x.n < p.batchSize
  · exact ⟨_, _, mine_batch_too_large hr ε α ⟨p, none⟩ x y hn hne hf' hb, by simp [hb], by simp [hb], by simp⟩
  · obtain ⟨a, b, c, hk⟩ := split3_ok hr (lib.prngKey p.seed)
    obtain ⟨xTr, xTe, yTr, yTe, h1, h2⟩ := split_spec hr (xRows ε p x) (xRows ε p y)
      (by rw [xRows_length, xRows_length, hn]) p.trainTestSplit (by rw [xRows_length]; exact hf') b
    have hl := h2.length
    rw [xRows_length] at hl
    obtain ⟨θ, hθ⟩ := hfac a
    have hkeys := hr.split_length c p.maxSteps.toNat
    obtain ⟨log, bs, yu, g1, g2, g3, -, -, g6, g7, g8, g9⟩ := mineTraining_spec hr (lib.adam p.learningRate) lib.call
      (lib.rng.split c p.maxSteps.toNat) θ xTr yTr h2.1 (some xTe) (some yTe) α ⟨ha0.le, ha1.le⟩
      p.batchSize.toNat (by rw [hl]; omega) p.testEvery ht0.ne' true
    simp only [Option.getD_some] at g6 g7
    have hres : mineEstimateWithInfo lib ε α ⟨p, none⟩ x y = .ok (⟨log.finalMI, false, some log⟩, ⟨p, some
        (run (lib.adam p.learningRate) lib.call α ⟨θ, (lib.adam p.learningRate).init θ, ⊥⟩ bs).critic⟩) := by
      unfold mineEstimateWithInfo
      simp only [hk, space_ok ε x y _ hn hne, bind, Except.bind]
      unfold xRows at h1
      simp only [h1]
      rw [if_neg (by rw [hl]; omega)]
      simp only [stored_d, hθ, g1]
    rw [hkeys] at g3 g9
    -- the tests made
    have hsteps : ∀ i, i ∈ testSteps p.testEvery bs.length ↔ 1 ≤ i ∧ i ≤ bs.length ∧ p.testEvery ∣ (i : ℤ) := by
      intro i
      simp only [testSteps, List.mem_filter, List.mem_range'_1, decide_eq_true_eq]
      constructor
      · rintro ⟨⟨e1, e2⟩, e3⟩; exact ⟨e1, by omega, e3⟩
      · rintro ⟨e1, e2, e3⟩; exact ⟨⟨e1, by omega⟩, e3⟩
    have hempty : log.testHist = [] ↔ p.maxSteps < p.testEvery := by
      constructor
      · intro h0
        by_contra hlt
        rw [g7, List.map_eq_nil_iff] at h0
        by_cases hfull : bs.length < p.maxSteps.toNat
        · obtain ⟨n, hlen, -⟩ := (g9 hfull).2
          rw [g7, h0] at hlen
          simp at hlen
        · have : p.testEvery.toNat ∈ testSteps p.testEvery bs.length :=
            (hsteps _).2 ⟨by omega, by omega, by rw [Int.toNat_of_nonneg ht0.le]⟩
          rw [h0] at this
          simp at this
      · intro hlt
        rw [g7, List.map_eq_nil_iff]
        refine List.eq_nil_iff_forall_not_mem.2 fun i hi => ?_
        obtain ⟨e1, e2, e3⟩ := (hsteps i).1 hi
        have := Int.le_of_dvd (by omega) e3
        omega
    obtain ⟨hnan, hnum⟩ := finalMI_of_inv g8
    have hcase : log.testHist ≠ [] → ∃ v, log.finalMI = .num v ∧
        IsGreatest {w | Fl.num w ∈ log.testHist.map Prod.snd} v := by
      intro h0
      rw [g7] at h0
      cases hst : testSteps p.testEvery bs.length with
      | nil => rw [hst] at h0; simp at h0
      | cons i is =>
        rw [hst] at g7
        exact hnum _ _ (by rw [g7]; rfl)
    refine ⟨_, _, hres, ?_, by simpa using not_lt.1 hb, ?_⟩
    · simp only [hb, false_or]
      rw [← hempty]
      refine ⟨fun h0 => ?_, hnan⟩
      by_contra hne'
      obtain ⟨v, hv', -⟩ := hcase hne'
      rw [hv'] at h0
      cases h0
    · intro v hv'
      have hne' : log.testHist ≠ [] := by
        intro h0
        have := hnan h0
        simp only at hv'
        rw [this] at hv'
        cases hv'
      obtain ⟨w, hw, hg⟩ := hcase hne'
      simp only at hv'
      rw [hw] at hv'
      cases hv'
      refine ⟨xTr, xTe, yTr, yTe, log, h2, rfl, hg, fun u hu => ?_⟩
      rw [g7, List.map_map] at hu
      obtain ⟨i, -, hi⟩ := List.mem_map.1 hu
      simp only [Function.comp_apply, Fl.num.injEq] at hi
      exact ⟨_, _, g6 i, hi.symm⟩

/-! ### The hypotheses can be met -/

/-- An objective of a critic with one parameter: its average score. -/
noncomputable def scoreFormula : Formula ℝ ℝ := fun g xs ys => .num (mean (scores g xs ys))

example (s : ℝ × Unit) : 0 < fderiv ℝ (fun t => mean (scores (slope t) [1] [2])) s.1
    ((basicStep descent slope scoreFormula s [1] [2]).1.1 - s.1) := by
  refine basicStep_ascends descent descent_descends slope scoreFormula s [1] [2] _ (fun _ => rfl) ?_
  have h : (fun t => mean (scores (slope t) [1] [2])) = fun t : ℝ => t * 2 := by
    funext t; simp [mean, scores, Mine.slope]
  rw [h]
  intro h0
  have := congrArg (fun L : ℝ →L[ℝ] ℝ => L 1) h0
  simp [fderiv_mul_const, differentiableAt_fun_id] at this

/-- A library with a linear critic. -/
noncomputable def plainLib : Lib Unit ℝ Unit where
  rng := plainRng
  prngKey _ := ()
  adam _ := descent
  factory _ _ _ := .ok 0
  call t x y := t * (x.sum * y.sum)

/-- Four points in dimension one. -/
def line : Mat := ⟨4, 1, fun i _ => i.val⟩

/-- Default-like parameters. -/
noncomputable def smallParams (b : ℤ) : Params := ⟨b, 10, some 0.5, 2, 0.1, true, 42⟩

example : estimateWithInfo plainLib 0 (fun _ _ _ => .nan) (fun _ _ _ => .nan) ⟨smallParams 3, none⟩ line line =
    .ok (⟨.nan, true, none⟩, ⟨smallParams 3, none⟩) :=
  estimate_batch_too_large (lib := plainLib) plainRng_ideal 0 _ _ ⟨smallParams 3, none⟩ line line rfl
    (by simp [line]) (by simp [smallParams, line]; norm_num) (by
      have : ⌊(0.5 : ℝ) * 4⌋₊ = 2 := by rw [Nat.floor_eq_iff] <;> norm_num
      simp [smallParams, line, trainSize, this])

example : ∃ est : Estimator ℝ, mkMine (smallParams 2) 0.9 = .ok est ∧ ∃ res est',
    mineEstimateWithInfo plainLib 0 0.9 est line line = .ok (res, est') ∧ ∃ v, res.mi = .num v := by
  have hv : mkMine (Θ := ℝ) (smallParams 2) 0.9 = .ok ⟨smallParams 2, none⟩ := by
    unfold mkMine validateMine
    rw [if_pos (by simp [smallParams]; norm_num)]
    rfl
  obtain ⟨res, est', h1, h2, -⟩ := mine_estimate_total (lib := plainLib) plainRng_ideal 0 0.9 (smallParams 2) _ hv
    line line rfl (by simp [line]) (by simp [smallParams, line]; norm_num) (fun _ => ⟨0, rfl⟩)
  refine ⟨_, hv, res, est', h1, ?_⟩
  have h3 : res.mi ≠ .nan := by
    rw [Ne, h2]
    have : ⌊(0.5 : ℝ) * 4⌋₊ = 2 := by rw [Nat.floor_eq_iff] <;> norm_num
    simp [smallParams, line, trainSize, this]
  cases hm : res.mi with
  | nan => exact absurd hm h3
  | num v => exact ⟨v, rfl⟩

end BMI.NeuralEstimator
