import Verif.Model.Scripts
import Verif.Model.Concept
import Verif.Props.Concept

/-! C104: which programs of /repo/scripts get past their imports, and the comparison of times. -/

namespace BMI.Scripts

open MeasureTheory BMI.Samplers BMI.Concept

variable {Key : Type}

/-! ## Imports in general -/

theorem forM_ok_iff {β : Type} (f : β → Except Err Unit) (l : List β) : l.forM f = .ok () ↔ ∀ b ∈ l, f b = .ok () := by
  induction l with
  | nil => simp [pure, Except.pure]
  | cons a l ih =>
    rw [show (a :: l).forM f = (f a >>= fun _ => l.forM f) from rfl]
    cases h : f a with
    | error e => simp [bind, Except.bind, h]
    | ok u =>
      simp only [bind, Except.bind, List.mem_cons, forall_eq_or_imp, h, true_and]
      exact ih

theorem forM_error {β : Type} (f : β → Except Err Unit) (e : Err) (hf : ∀ b, f b = .ok () ∨ f b = .error e) (l : List β) :
    l.forM f = .ok () ∨ l.forM f = .error e := by
  induction l with
  | nil => left; rfl
  | cons a l ih =>
    rw [show (a :: l).forM f = (f a >>= fun _ => l.forM f) from rfl]
    rcases hf a with h | h
    · simpa [bind, Except.bind, h] using ih
    · right; simp [bind, Except.bind, h]

theorem mem_inits_tail {α : Type} (m p : List α) : p ∈ m.inits.tail ↔ ∃ k, 0 < k ∧ k ≤ m.length ∧ p = m.take k := by
  cases m with
  | nil =>
    constructor
    · intro h
      cases h
    · rintro ⟨k, h1, h2, -⟩
      simp only [List.length_nil] at h2
      omega
  | cons a m =>
    simp only [List.inits_cons, List.tail_cons, List.mem_map, List.mem_inits]
    constructor
    · rintro ⟨q, hq, rfl⟩
      refine ⟨q.length + 1, by omega, by simpa using hq.length_le, ?_⟩
      rw [List.take_succ_cons, ← List.prefix_iff_eq_take.1 hq]
    · rintro ⟨k, h1, h2, rfl⟩
      obtain ⟨k, rfl⟩ : ∃ j, k = j + 1 := ⟨k - 1, by omega⟩
      exact ⟨m.take k, List.take_prefix k m, by rw [List.take_succ_cons]⟩

/-- **C104** A module can be imported exactly if it and all packages around it are found; otherwise ImportError is raised. -/
theorem importModule_spec (found : ModName → Bool) (m : ModName) :
    (importModule found m = .ok () ↔ ∀ k, 0 < k → k ≤ m.length → found (m.take k)) ∧
      ((∃ k, 0 < k ∧ k ≤ m.length ∧ found (m.take k) = false) → importModule found m = .error .importError) := by
  have h1 : importModule found m = .ok () ↔ ∀ k, 0 < k → k ≤ m.length → found (m.take k) := by
    unfold importModule
    rw [forM_ok_iff]
    constructor
    · intro h k h1 h2
      have := h _ ((mem_inits_tail m _).2 ⟨k, h1, h2, rfl⟩)
      by_contra hc
      simp [hc] at this
    · intro h b hb
      obtain ⟨k, h1, h2, rfl⟩ := (mem_inits_tail m b).1 hb
      rw [if_pos (h k h1 h2)]
  refine ⟨h1, ?_⟩
  rintro ⟨k, k1, k2, hk⟩
  have : importModule found m = .ok () ∨ importModule found m = .error .importError :=
    forM_error _ _ (fun p => by by_cases h : found p <;> simp [h]) _
  refine this.resolve_left fun h => ?_
  have := h1.1 h k k1 k2
  rw [hk] at this
  cases this

/-- **C104** A program whose imports are all found does what `main` does. -/
theorem runScript_main {α : Type} (found : ModName → Bool) (imports : List ModName) (main : Except Err α)
    (h : ∀ m ∈ imports, ∀ k, 0 < k → k ≤ m.length → found (m.take k)) : runScript found imports main = main := by
  have : imports.forM (importModule found) = .ok () :=
    (forM_ok_iff _ _).2 fun m hm => (importModule_spec found m).1.2 (h m hm)
  unfold runScript
  rw [this]
  rfl

/-- **C104** A program with a module which is not found raises ImportError, whatever `main` would do. -/
theorem runScript_error {α : Type} (found : ModName → Bool) (imports : List ModName) (main : Except Err α) {m : ModName}
    (hm : m ∈ imports) {k : ℕ} (h1 : 0 < k) (h2 : k ≤ m.length) (h : found (m.take k) = false) :
    runScript found imports main = .error .importError := by
  have : imports.forM (importModule found) = .error .importError := by
    refine (forM_error _ .importError (fun p => ?_) _).resolve_left fun hc => ?_
    · exact forM_error _ _ (fun p => by by_cases h : found p <;> simp [h]) _
    · have := (importModule_spec found m).1.1 ((forM_ok_iff _ _).1 hc m hm) k h1 h2
      rw [h] at this
      cases this
  unfold runScript
  rw [this]
  rfl

/-! ## The programs -/

theorem no_api (others : ModName → Bool) : installed others ["bmi", "api"] = false := by
  simp [installed, bmiModules]

/-- **C104** Six of the ten programs import `bmi.api`, which does not exist: whatever else is installed, they raise ImportError before
`main` is called. -/
theorem api_scripts_fail {α : Type} (others : ModName → Bool) (imports : List ModName)
    (h : imports ∈ [imports11, imports21, importsSpiral, importsTime, importsExternal, importsOneDim]) (main : Except Err α) :
    runScript (installed others) imports main = .error .importError := by
  refine runScript_error _ _ _ (m := ["bmi", "api"]) ?_ (k := 2) (by norm_num) (by simp) (no_api others)
  simp only [List.mem_cons, List.not_mem_nil, or_false] at h
  rcases h with rfl | rfl | rfl | rfl | rfl | rfl <;>
    simp [imports11, imports21, importsSpiral, importsTime, importsExternal, importsOneDim]

/-- Modules of other packages which the programs import. -/
def otherModules : List ModName :=
  [["typing"], ["jax"], ["matplotlib"], ["matplotlib", "pyplot"], ["numpy"], ["argparse"], ["time"], ["pathlib"], ["sklearn"],
   ["sklearn", "feature_selection"], ["subplots_from_axsize"]]

/-- **C104** The other four programs only import modules which exist: they do what `main` does. -/
theorem other_scripts_run {α : Type} (others : ModName → Bool) (ho : ∀ m ∈ otherModules, others m) (imports : List ModName)
    (h : imports ∈ [importsAppearing, importsChi, importsDistributions, importsCorrection]) (main : Except Err α) :
    runScript (installed others) imports main = main := by
  refine runScript_main _ _ _ fun m hm k h1 h2 => ?_
  have hk : k = 1 ∨ k = 2 ∨ k = 3 ∨ 4 ≤ k := by omega
  have g : ∀ m ∈ otherModules, others m = true := ho
  simp only [otherModules, List.mem_cons, List.not_mem_nil, or_false, forall_eq_or_imp, forall_eq] at g
  simp only [List.mem_cons, List.not_mem_nil, or_false] at h
  rcases h with rfl | rfl | rfl | rfl <;>
    simp only [importsAppearing, importsChi, importsDistributions, importsCorrection, List.mem_cons, List.not_mem_nil, or_false] at hm <;>
    rcases hm with rfl | rfl | rfl | rfl | rfl <;> simp only [List.length_cons, List.length_nil] at h2 <;>
    rcases hk with rfl | rfl | rfl | hk <;> first | omega | simp [installed, bmiModules, g]

/-- The same installation, with a module `bmi.api` added. -/
def withApi (found : ModName → Bool) (m : ModName) : Bool := found m || m == ["bmi", "api"]

/-- **C104** With a module `bmi.api`, five of the six programs would get to `main`; `visualise_one_dimensional.py` would still fail, since
`bmi.benchmark.tasks.one_dimensional` does not exist either. -/
theorem api_scripts_repaired {α : Type} (others : ModName → Bool) (ho : ∀ m ∈ otherModules, others m) (main : Except Err α) :
    (∀ imports ∈ [imports11, imports21, importsSpiral, importsTime, importsExternal],
      runScript (withApi (installed others)) imports main = main) ∧
    runScript (withApi (installed others)) importsOneDim main = .error .importError := by
  constructor
  · intro imports h
    refine runScript_main _ _ _ fun m hm k h1 h2 => ?_
    have hk : k = 1 ∨ k = 2 ∨ 3 ≤ k := by omega
    have g : ∀ m ∈ otherModules, others m = true := ho
    simp only [otherModules, List.mem_cons, List.not_mem_nil, or_false, forall_eq_or_imp, forall_eq] at g
    simp only [List.mem_cons, List.not_mem_nil, or_false] at h
    rcases h with rfl | rfl | rfl | rfl | rfl <;>
      simp only [imports11, imports21, importsSpiral, importsTime, importsExternal, List.mem_cons, List.not_mem_nil, or_false] at hm <;>
      rcases hm with rfl | rfl | rfl | rfl | rfl <;> simp only [List.length_cons, List.length_nil] at h2 <;>
      rcases hk with rfl | rfl | hk <;> first | omega | simp [withApi, installed, bmiModules, g]
  · refine runScript_error _ _ _ (m := ["bmi", "benchmark", "tasks", "one_dimensional"]) (by simp [importsOneDim]) (k := 4)
      (by norm_num) (by simp) ?_
    simp [withApi, installed, bmiModules]

/-- **C86** As they are, 1v1.py and 2v1.py make no figure: they raise ImportError. -/
theorem concept_fails (others : ModName → Bool) (R : JaxRandom Key) (ksg : Ksg) :
    runScript (installed others) imports11 (main11 R ksg) = .error .importError ∧
      runScript (installed others) imports21 (main21 R ksg) = .error .importError :=
  ⟨api_scripts_fail _ _ (by simp) _, api_scripts_fail _ _ (by simp) _⟩

/-- **C87** As it is, ksg_spiral.py prints nothing: it raises ImportError. -/
theorem spiral_fails (others : ModName → Bool) (R : JaxRandom Key) (ksg : Ksg) (args : Args) :
    runScript (installed others) importsSpiral (experiment R ksg args) = .error .importError :=
  api_scripts_fail _ _ (by simp) _

/-! ## The comparison of times -/

/-- **C104** If `bmi.api` were there, ksg_time_comparison.py would, for arguments it accepts, print the estimate for a sample of
independent standard normal variables, and zero, which is their mutual information.  `dim_y = 0` stands for the dimension of `X`. -/
theorem timeMain_spec [MeasurableSpace Key] (R : JaxRandom Key) (κ : Measure Key) (hR : IdealRandom R κ) (E : Estimators)
    (a : TimeArgs) (dx dy n k c : ℕ) (hx : 0 < dx) (hy : 0 < dy) (hn : 0 < n) (hk : 0 < k) (hc : 0 < c) (h1 : a.dimX = dx)
    (h2 : a.dimY = some (dy : ℤ) ∨ (dx = dy ∧ (a.dimY = none ∨ a.dimY = some 0))) (h3 : a.nSamples = n) (h4 : a.neighborhood = k)
    (h5 : a.chunkSize = c) :
    ∃ (s : Sampler Key) (x : Fin n → Fin dx → ℝ) (y : Fin n → Fin dy → ℝ),
      Correct R κ s dx dy (normalPair dx dy 1) ∧ mutualInfo (normalPair dx dy 1) = 0 ∧
      s.sample n (.seed 10) = .ok (rowsOf x, rowsOf y) ∧
      timeMain R E a = ((if a.slow then E.slow [k] a.nJobs else E.numpy [k] a.nJobs c) (rowsOf x) (rowsOf y)).map fun v => (v, 0) := by
  have hpos : (1 : Matrix (Fin (dx + dy)) (Fin (dx + dy)) ℝ).PosDef := Matrix.PosDef.one
  obtain ⟨s, hs, hco⟩ := splitMultinormal_correct R κ hR dx dy hx hy 0 1 hpos
  obtain ⟨s', hs', hmi⟩ := splitMultinormal_number R dx dy hx hy 0 1 hpos
  obtain rfl : s' = s := Except.ok.inj (hs'.symm.trans hs)
  have bx : blockX (1 : Matrix (Fin (dx + dy)) (Fin (dx + dy)) ℝ) = (1 : Matrix (Fin dx) (Fin dx) ℝ) := by
    ext i j
    simp [blockX, Matrix.one_apply]
  have by' : blockY (1 : Matrix (Fin (dx + dy)) (Fin (dx + dy)) ℝ) = (1 : Matrix (Fin dy) (Fin dy) ℝ) := by
    ext i j
    simp [blockY, Matrix.one_apply]
  have h0 : s'.mi = 0 := by rw [hmi, bx, by']; simp
  obtain ⟨x, y, hxy⟩ := sample_rows hco n 10
  refine ⟨s', x, y, hco, by simpa [h0, normalPair] using hco.mi, hxy, ?_⟩
  have ha : getArgs a = .ok { a with dimY := some (dy : ℤ) } := by
    unfold getArgs
    rw [if_neg (by omega), if_neg (by omega), if_neg (by omega), if_neg (by omega)]
    rcases h2 with e | ⟨rfl, e | e⟩ <;> rw [e]
    · simp [hy.ne']
    · simp [h1]
    · simp [h1]
  have hk' : s'.sample n (.key (R.prngKey 10)) = .ok (rowsOf x, rowsOf y) := (hco.seeds n 10).symm.trans hxy
  have ht : ((dx : ℤ) + dy).toNat = dx + dy := by omega
  have hsp : splitMultinormal R dx dy (eye (dx + dy)) (some (List.replicate (dx + dy) 0)) = .ok s' := by
    rw [← hs]
    have e1 : eye (dx + dy) = rowsOf (1 : Matrix (Fin (dx + dy)) (Fin (dx + dy)) ℝ) := by
      unfold eye
      congr 1
    have e2 : List.replicate (dx + dy) (0 : ℝ) = List.ofFn (0 : Fin (dx + dy) → ℝ) := (List.ofFn_const (dx + dy) (0 : ℝ)).symm
    rw [e1, e2]
  unfold timeMain
  rw [ha]
  simp only [bind, Except.bind, Option.getD_some, h1, ht]
  rw [if_neg (by omega), hsp]
  simp only [h3, Int.toNat_natCast, hk', getEstimator, h4, h5, h0]
  split_ifs
  · cases E.slow [k] a.nJobs (rowsOf x) (rowsOf y) <;> rfl
  · cases E.numpy [k] a.nJobs c (rowsOf x) (rowsOf y) <;> rfl

/-- **C104** What ksg_time_comparison.py refuses: AssertionError for numbers below one, ValueError for a negative dimension of `Y`. -/
theorem timeMain_refuses (R : JaxRandom Key) (E : Estimators) (a : TimeArgs) :
    (a.neighborhood < 1 ∨ a.nSamples < 1 ∨ a.chunkSize < 1 ∨ a.dimX < 1 → timeMain R E a = .error .assertionError) ∧
    (1 ≤ a.neighborhood → 1 ≤ a.nSamples → 1 ≤ a.chunkSize → 1 ≤ a.dimX → (∃ d < 0, a.dimY = some d) →
      timeMain R E a = .error .valueError) := by
  constructor
  · intro h
    have : getArgs a = .error .assertionError := by
      unfold getArgs
      split_ifs <;> first | rfl | omega
    unfold timeMain
    rw [this]
    rfl
  · rintro h1 h2 h3 h4 ⟨d, hd, e⟩
    have : getArgs a = .ok { a with dimY := some d } := by
      unfold getArgs
      rw [if_neg (by omega), if_neg (by omega), if_neg (by omega), if_neg (by omega), e]
      simp [hd.ne]
    unfold timeMain
    rw [this]
    simp only [bind, Except.bind, Option.getD_some]
    split_ifs with ht
    · rfl
    · have : splitMultinormal R a.dimX d (eye (a.dimX + d).toNat) (some (List.replicate (a.dimX + d).toNat 0)) = .error .valueError := by
        unfold splitMultinormal
        have : validateDimensions a.dimX d = .error .valueError := by
          unfold validateDimensions
          rw [if_neg (by omega), if_pos (by omega)]
        rw [this]
        rfl
      rw [this]

/-! ## Examples -/

example : importModule (installed fun _ => true) ["bmi", "samplers", "_tfp"] = .ok () :=
  (importModule_spec _ _).1.2 fun k h1 h2 => by
    simp only [List.length_cons, List.length_nil] at h2
    obtain rfl | rfl | rfl : k = 1 ∨ k = 2 ∨ k = 3 := by omega
    all_goals simp [installed, bmiModules]

example : importModule (installed fun _ => true) ["bmi", "benchmark", "tasks", "one_dimensional"] = .error .importError :=
  (importModule_spec _ _).2 ⟨4, by norm_num, by simp, by simp [installed, bmiModules]⟩

example : runScript (installed fun _ => true) imports11 (.ok 3) = .error .importError := api_scripts_fail _ _ (by simp) _

example : runScript (installed otherModules.contains) importsChi (.ok 3) = .ok 3 := other_scripts_run _ (by simp) _ (by simp) _

example : runScript (withApi (installed otherModules.contains)) importsTime (.ok 3) = .ok 3 := (api_scripts_repaired _ (by simp) _).1 _ (by simp)

/-- Both classes as one estimator. -/
noncomputable def exampleEstimators : Estimators := ⟨fun ks _ => exampleKsg ks, fun ks _ _ => exampleKsg ks⟩

/-- The default arguments. -/
example : ∃ v, timeMain tree exampleEstimators {} = .ok (v, 0) := by
  obtain ⟨s, x, y, -, -, -, h⟩ := timeMain_spec tree treeLaw tree_ideal exampleEstimators {} 2 2 1000 5 10 two_pos two_pos (by norm_num)
    (by norm_num) (by norm_num) rfl (.inr ⟨rfl, .inl rfl⟩) rfl rfl rfl
  obtain ⟨v, hv⟩ := exampleKsg_works (ks := [5]) (by simp) (n := 1000) (by simp) two_pos two_pos x y
  refine ⟨v, h.trans ?_⟩
  simp only [Bool.false_eq_true, if_false, exampleEstimators, hv]
  rfl

example : timeMain tree exampleEstimators { dimY := some (-1) } = .error .valueError :=
  (timeMain_refuses tree exampleEstimators _).2 (by norm_num) (by norm_num) (by norm_num) (by norm_num) ⟨-1, by norm_num, rfl⟩

end BMI.Scripts
