import Verif.Spec.HighMi
import Verif.Props.SearchTasks
import Verif.Props.CoolTasks
import Verif.Props.Concept
import Verif.Lemmas.IdealWitness

/-! C88: the figure with growing mutual information. -/

namespace BMI.HighMi

open MeasureTheory BMI.Samplers BMI.Search
open BMI.Concept (fixed)
open BMI.Training (Fl)
open BMI.Task (Task)
open BMI.Run (Dict)
open BMI.Workflow (Line Est)
open BMI.ReadResults (lookup)
open BMI.MiFigure (Row Fig plotMi number Shows IsFigure)

variable {Key V : Type} [MeasurableSpace Key]

/-! ## The tasks -/

theorem desired_eq : desired = values.map Prod.snd := by
  norm_num [desired, values]

theorem values_name {v : String × ℝ} (h : v ∈ values) : fixed 3 v.2 = v.1 ∧ 0 ≤ v.2 ∧ v.2 ≤ 5 := by
  simp only [values, List.mem_cons, List.not_mem_nil, or_false] at h
  rcases h with rfl | rfl | rfl | rfl | rfl | rfl | rfl | rfl <;> refine ⟨?_, by norm_num, by norm_num⟩
  · rw [Concept.fixed_of (c := 0) (by norm_num) (by norm_num)]; rfl
  · rw [Concept.fixed_of (c := 500) (by norm_num) (by norm_num)]; rfl
  · rw [Concept.fixed_of (c := 1000) (by norm_num) (by norm_num)]; rfl
  · rw [Concept.fixed_of (c := 1500) (by norm_num) (by norm_num)]; rfl
  · rw [Concept.fixed_of (c := 2000) (by norm_num) (by norm_num)]; rfl
  · rw [Concept.fixed_of (c := 3000) (by norm_num) (by norm_num)]; rfl
  · rw [Concept.fixed_of (c := 4000) (by norm_num) (by norm_num)]; rfl
  · rw [Concept.fixed_of (c := 5000) (by norm_num) (by norm_num)]; rfl

/-- What a search returns. -/
structure IsMade (R : JaxRandom Key) (κ : Measure Key) (p : String × String) (v : String × ℝ) (m : Made Key) : Prop where
  id : m.id = p.2 ++ v.1
  name : m.name ≠ ""
  desired : m.params.get "desired_mi" = some (.float v.2)
  family : m.params.get "family_name" = some (.str p.1)
  law : ∃ Q, IsMember p.1 Q ∧ Correct R κ m.sampler 3 3 Q
  near : |m.sampler.mi - v.2| < 1e-4

theorem base_made (R : JaxRandom Key) (κ : Measure Key) (hR : IdealRandom R κ) (uniform : ℝ → ℝ → ℕ → ℝ) (mi : ℝ) (h0 : 0 ≤ mi) (h1 : mi ≤ 3000)
    (f : String) :
    ∃ (b : Sampler Key) (corr c : ℝ) (m : Matrix _ _ ℝ), sparseGaussian R uniform mi f 3 = .ok (some ⟨b, "sparse-gaussian-" ++ fixed 3 mi,
        "Gaussian with " ++ fixed 2 mi ++ " MI", [("correlation", .float corr), ("desired_mi", .float mi), ("true_mi", .float b.mi),
        ("dim", .int 3), ("family_name", .str f)]⟩) ∧ |b.mi - mi| < 1e-4 ∧ |c| < 1 ∧ MatrixUtils.IsParametrised (dx := 3) (dy := 3) 2 c 0 0 m ∧
      Correct R κ b 3 3 (sparseLaw 1 m) := by
  obtain ⟨b, hb⟩ := generateSparseGaussianTask_exists R κ hR uniform mi 3 (by norm_num) h0 h1
  obtain ⟨hm, d, c, m, hd, hc, -, hp, hq⟩ := generateSparseGaussianTask_correct R κ hR uniform mi 3 b (by linarith) hb
  obtain rfl : d = 1 := by omega
  unfold generateSparseGaussianTask at hb
  unfold sparseGaussian
  cases hs : binsearch realOps (fun c => miSparseGaussian R c 3) mi 0 1 1e-4 5000 uniform with
  | error e => rw [hs] at hb; cases hb
  | ok r =>
    rw [hs] at hb
    cases r with
    | none => cases hb
    | some corr =>
      simp only [bind, Except.bind] at hb ⊢
      cases hg : getSparseGaussianSampler R corr 3 with
      | error e => rw [hg] at hb; cases hb
      | ok s =>
        rw [hg] at hb
        obtain rfl : s = b := Option.some.inj (Except.ok.inj hb)
        exact ⟨s, corr, c, m, rfl, hm, hc, hp, hq⟩

theorem title_ne (a b c : String) (h : a ≠ "") : a ++ b ++ c ≠ "" := by
  intro e
  rw [String.append_assoc, String.append_eq_empty_iff] at e
  exact h e.1

theorem sparse_made (R : JaxRandom Key) (κ : Measure Key) (hR : IdealRandom R κ) (uniform : ℝ → ℝ → ℕ → ℝ) {v : String × ℝ} (hv : v ∈ values) :
    ∃ m, sparseGaussian R uniform v.2 "Sparse Gaussian" 3 = .ok (some m) ∧ IsMade R κ ("Sparse Gaussian", "sparse-gaussian-") v m := by
  obtain ⟨n1, n2, n3⟩ := values_name hv
  obtain ⟨b, corr, c, m, e, h1, h2, h3, h4⟩ := base_made R κ hR uniform v.2 n2 (by linarith) "Sparse Gaussian"
  refine ⟨_, e, by rw [n1], title_ne _ _ _ (by decide), rfl, rfl, ⟨_, ⟨c, m, h2, h3, ?_⟩, h4⟩, h1⟩
  have : warp "Sparse Gaussian" = id := by
    unfold warp
    rw [if_neg (by decide), if_neg (by decide)]
  rw [this, Measure.map_id]
  rfl

theorem spiral_made (R : JaxRandom Key) (κ : Measure Key) (hR : IdealRandom R κ) (uniform : ℝ → ℝ → ℕ → ℝ) {v : String × ℝ} (hv : v ∈ values) :
    ∃ m, spiral R uniform v.2 "Spiral" 3 (1 / 3) = .ok (some m) ∧ IsMade R κ ("Spiral", "spiral-sparse-gaussian-") v m := by
  obtain ⟨n1, n2, n3⟩ := values_name hv
  obtain ⟨b, corr, c, m, e, h1, h2, h3, h4⟩ := base_made R κ hR uniform v.2 n2 (by linarith) "Spiral"
  haveI := hR.prob
  obtain ⟨s, e1, e2, e3⟩ := spiralTask_correct R κ b (dx := 1) (dy := 0) _ h4 (1 / 3) true
  refine ⟨⟨s, _, _, _⟩, by simp only [spiral, e, e1, bind, Except.bind]; rfl, ?_, title_ne _ _ _ (by decide), rfl, rfl, ⟨_, ⟨c, m, h2, h3, ?_⟩, e3⟩,
    by rw [e2]; exact h1⟩
  · show "spiral-" ++ ("sparse-gaussian-" ++ fixed 3 v.2) = "spiral-sparse-gaussian-" ++ v.1
    rw [n1, ← String.append_assoc]
    rfl
  · have : warp "Spiral" = Prod.map (fun x => turn 0 1 (1 / 9 * sumSq x) x) fun y => turn 1 2 (1 / 9 * sumSq y) y := by
      unfold warp
      rw [if_neg (by decide), if_pos rfl]
    rw [this]
    have e9 : (1 / 3 : ℝ) / (1 + 2 : ℕ) = 1 / 9 := by norm_num
    rw [if_pos rfl, e9]
    rfl

theorem halfCube_made (R : JaxRandom Key) (κ : Measure Key) (hR : IdealRandom R κ) (uniform : ℝ → ℝ → ℕ → ℝ) {v : String × ℝ} (hv : v ∈ values) :
    ∃ m, halfCube R uniform v.2 "Half-cube" 3 = .ok (some m) ∧ IsMade R κ ("Half-cube", "half_cube-sparse-gaussian-") v m := by
  obtain ⟨n1, n2, n3⟩ := values_name hv
  obtain ⟨b, corr, c, m, e, h1, h2, h3, h4⟩ := base_made R κ hR uniform v.2 n2 (by linarith) "Half-cube"
  haveI := hR.prob
  obtain ⟨s, e1, e2, e3⟩ := halfCubeTask_correct R κ b _ h4
  refine ⟨⟨s, _, _, _⟩, by simp only [halfCube, e, e1, bind, Except.bind]; rfl, ?_, title_ne _ _ _ (by decide), rfl, rfl, ⟨_, ⟨c, m, h2, h3, ?_⟩, e3⟩,
    by rw [e2]; exact h1⟩
  · show "half_cube-" ++ ("sparse-gaussian-" ++ fixed 3 v.2) = "half_cube-sparse-gaussian-" ++ v.1
    rw [n1, ← String.append_assoc]
    rfl
  · unfold warp
    rw [if_pos rfl]
    rfl

theorem block {R : JaxRandom Key} {κ : Measure Key} {f : String × (ℝ → String → Except Err (Option (Made Key)))} {p : String × String}
    (h : ∀ v ∈ values, ∃ m, f.2 v.2 f.1 = .ok (some m) ∧ IsMade R κ p v m) :
    ∃ ms : List (Made Key), ((desired.map fun mi => (f, mi)).mapM fun q => q.1.2 q.2 q.1.1) = .ok (ms.map some) ∧
      List.Forall₂ (fun q m => IsMade R κ q.1 q.2 m) (values.map (Prod.mk p)) ms := by
  obtain ⟨ms, h1, h2⟩ := Workflow.mapM_forall2 (fun v m => ∃ m', m = some m' ∧ IsMade R κ p v m') (fun v : String × ℝ => f.2 v.2 f.1) values (by
    intro v hv
    obtain ⟨m, a, b⟩ := h v hv
    exact ⟨_, a, m, rfl, b⟩)
  obtain ⟨ms', rfl, h3⟩ : ∃ ms', ms = ms'.map some ∧ List.Forall₂ (IsMade R κ p) values ms' := by
    clear h1
    generalize values = l at h2
    induction h2 with
    | nil => exact ⟨[], rfl, .nil⟩
    | cons a _ ih =>
      obtain ⟨m, rfl, a⟩ := a
      obtain ⟨ms', rfl, b⟩ := ih
      exact ⟨m :: ms', rfl, .cons a b⟩
  refine ⟨ms', ?_, ?_⟩
  · rw [desired_eq, List.map_map, List.mapM_map]
    exact h1
  · rw [List.forall₂_map_left_iff]
    exact h3

theorem append2 {A B : Type} {S : A → B → Prop} {a c : List A} {b d : List B} (h1 : List.Forall₂ S a b) (h2 : List.Forall₂ S c d) :
    List.Forall₂ S (a ++ c) (b ++ d) := List.rel_append h1 h2

/-- **C88** Each search succeeds. -/
theorem taskList_spec (R : JaxRandom Key) (κ : Measure Key) (hR : IdealRandom R κ) (uniform : ℝ → ℝ → ℕ → ℝ) :
    ∃ ms, taskList R uniform = .ok ms ∧ List.Forall₂ (fun q m => IsMade R κ q.1 q.2 m) (order ×ˢ values) ms := by
  obtain ⟨a, a1, a2⟩ := block (f := ("Sparse Gaussian", fun mi f => sparseGaussian R uniform mi f 3)) fun v hv => sparse_made R κ hR uniform hv
  obtain ⟨b, b1, b2⟩ := block (f := ("Spiral", fun mi f => spiral R uniform mi f 3 (1 / 3))) fun v hv => spiral_made R κ hR uniform hv
  obtain ⟨c, c1, c2⟩ := block (f := ("Half-cube", fun mi f => halfCube R uniform mi f 3)) fun v hv => halfCube_made R κ hR uniform hv
  refine ⟨a ++ (b ++ c), ?_, ?_⟩
  · unfold taskList families
    rw [List.flatMap_cons, List.flatMap_cons, List.flatMap_cons, List.flatMap_nil, List.append_nil, List.mapM_append, List.mapM_append, a1, b1, c1]
    simp only [bind, Except.bind, pure, Except.pure]
    congr 1
    rw [← List.map_append, ← List.map_append, List.filterMap_map]
    simp
  · unfold order
    rw [List.product_cons, List.product_cons, List.product_cons, List.nil_product, List.append_nil]
    exact append2 a2 (append2 b2 c2)

theorem made_readable {R : JaxRandom Key} {κ : Measure Key} {p : String × String} {v : String × ℝ} {m : Made Key} (h : IsMade R κ p v m) :
    Scaling.Readable m.task 3 3 m.sampler.mi := by
  obtain ⟨Q, -, hQ⟩ := h.law
  exact ⟨hQ.shape.2.2.1, hQ.shape.2.2.2.1, ⟨by norm_num, by norm_num⟩, rfl, hQ.nonneg⟩

theorem compose {A B C : Type} {S : A → B → Prop} {T : B → C → Prop} {U : A → C → Prop} {a : List A} {b : List B} {c : List C}
    (h1 : List.Forall₂ S a b) (h2 : List.Forall₂ T b c) (h : ∀ x y z, S x y → T y z → U x z) : List.Forall₂ U a c := by
  induction h1 generalizing c with
  | nil => cases h2; exact .nil
  | cons k _ ih =>
    obtain ⟨z, c, h3, h4, rfl⟩ := List.forall₂_cons_left_iff.1 h2
    exact .cons (h _ _ _ k h3) (ih h4)

theorem task_of {R : JaxRandom Key} {κ : Measure Key} {eps : ℝ} (heps : 0 < eps) {p : String × String} {v : String × ℝ} {m : Made Key}
    (h : IsMade R κ p v m) {t : String × Task ℝ ℝ (String × Param)} (ht : t.1 = m.task.taskId ∧ t.2.id = m.task.id ∧ t.2.name = m.task.name ∧
      t.2.dimX = m.task.dimX ∧ t.2.dimY = m.task.dimY ∧ t.2.mi = m.task.mi ∧ t.2.getParams = m.task.getParams ∧
      ∀ n seed, t.2.sample n seed = (m.task.sample n seed).bind fun xy =>
        (Scaling.rescale eps xy.1).bind fun x => (Scaling.rescale eps xy.2).map fun y => (x, y)) : IsTask R κ eps p v t := by
  obtain ⟨k1, k2, k3, k4, k5, k6, k7, k8⟩ := ht
  have r := made_readable h
  obtain ⟨a1, a2, a3, a4, a5, a6⟩ := Task.task_advertises m.task 3 3 m.sampler.mi r.dimX r.dimY r.mi r.nonneg
  obtain ⟨Q, hm, hQ⟩ := h.law
  refine ⟨k1.trans h.id, k2.trans (a1.trans (congrArg Except.ok h.id)), ⟨m.params, k7.trans a6, h.desired, h.family⟩, Q, m.sampler, hm, hQ, h.near,
    k4.trans (a3.trans r.dimX), k5.trans (a4.trans r.dimY), k6.trans (a5.trans r.mi), fun n hn seed => ?_⟩
  obtain ⟨x, y, e⟩ := Concept.sample_rows hQ n seed
  obtain ⟨w, w1, w2⟩ := CoolTasks.standardised heps hn three_pos x
  obtain ⟨u, u1, u2⟩ := CoolTasks.standardised heps hn three_pos y
  refine ⟨x, y, w, u, e, ?_, w2, u2⟩
  have hs : m.task.sample n seed = .ok (.mat n 3 x, .mat n 3 y) := by
    show (m.sampler.sample n (.seed seed)).map _ = _
    rw [e]
    simp only [Except.map]
    rw [CoolTasks.ndarray_rows hn, CoolTasks.ndarray_rows hn]
  rw [k8, hs]
  simp only [Except.bind, w1, u1, Except.map]

theorem ids_nodup : ((order ×ˢ values).map fun q => q.1.2 ++ q.2.1).Nodup := by
  have : ((order ×ˢ values).map fun q => q.1.2 ++ q.2.1) = (order ×ˢ values.map Prod.fst).map fun q => q.1.2 ++ q.2 := rfl
  rw [this]
  have : values.map Prod.fst = ["0.000", "0.500", "1.000", "1.500", "2.000", "3.000", "4.000", "5.000"] := rfl
  rw [this]
  decide

/-- **C88** The 24 tasks. -/
theorem tasks_spec (R : JaxRandom Key) (κ : Measure Key) (hR : IdealRandom R κ) (uniform : ℝ → ℝ → ℕ → ℝ) {eps : ℝ} (heps : 0 < eps) :
    ∃ ts, tasks R uniform eps = .ok ts ∧ List.Forall₂ (fun q t => IsTask R κ eps q.1 q.2 t) (order ×ˢ values) ts := by
  obtain ⟨ms, h1, h2⟩ := taskList_spec R κ hR uniform
  have hr : ∀ m ∈ ms, ∃ q ∈ order ×ˢ values, IsMade R κ q.1 q.2 m := fun m hm => GmmBenchmark.forall2_right h2 m hm
  have hd := Workflow.tasksDict_ok (ms.map Made.task) (by
    intro t ht
    obtain ⟨m, hm, rfl⟩ := List.mem_map.1 ht
    obtain ⟨q, -, hq⟩ := hr m hm
    have r := made_readable hq
    exact (Task.task_advertises _ 3 3 _ r.dimX r.dimY r.mi r.nonneg).1) (by
    rw [List.map_map]
    have := GmmBenchmark.forall2_map_eq h2 (fun q => q.1.2 ++ q.2.1) (Task.taskId ∘ Made.task) fun q m h => h.id.symm
    rw [← this]
    exact ids_nodup)
  obtain ⟨ts, h3, h4⟩ := Scaling.scaleTasks_spec eps ((ms.map Made.task).map fun t => (t.taskId, t)) (by
    intro kt hkt
    rw [List.map_map] at hkt
    obtain ⟨m, hm, rfl⟩ := List.mem_map.1 hkt
    obtain ⟨q, hq', hq⟩ := hr m hm
    refine ⟨⟨_, _, _, made_readable hq⟩, ?_, hq.name⟩
    show m.id ≠ ""
    rw [hq.id]
    intro e
    rw [String.append_eq_empty_iff] at e
    have h5 : q.1 ∈ order := (List.mem_product.1 hq').1
    exact (by decide : ∀ p ∈ order, p.2 ≠ "") _ h5 e.1)
  refine ⟨ts, by simp only [tasks, h1, hd, bind, Except.bind]; exact h3, ?_⟩
  rw [List.map_map, List.forall₂_map_left_iff] at h4
  exact compose h2 h4 fun q m t ha hb => task_of heps ha hb

/-! ## The results -/

theorem params_fact {W : Type} {t : Task ℝ ℝ (String × W)} {d : Dict W} (h : t.getParams = .ok d) : t.params.getD [] = d := by
  unfold Task.Task.getParams at h
  cases hm : t.metadata with
  | error e => rw [hm] at h; cases h
  | ok m =>
    rw [hm] at h
    have e1 := Except.ok.inj h
    simp only [Task.Task.metadata, bind, Except.bind] at hm
    cases hx : t.sampler.dimX with
    | error e => rw [hx] at hm; cases hm
    | ok dx =>
      cases hy : t.sampler.dimY with
      | error e => rw [hx, hy] at hm; cases hm
      | ok dy =>
        cases hmi : t.sampler.mi with
        | error e => rw [hx, hy, hmi] at hm; cases hm
        | ok mi =>
          rw [hx, hy, hmi] at hm
          dsimp only at hm
          split at hm
          · rw [← Except.ok.inj hm] at e1
            exact e1
          · cases hm

theorem task_known {R : JaxRandom Key} {κ : Measure Key} {eps : ℝ} {p : String × String} {v : String × ℝ} {t : String × Task ℝ ℝ (String × Param)}
    (h : IsTask R κ eps p v t) : t.2.taskId = p.2 ++ v.1 ∧ (∃ a, |a - v.2| < 1e-4 ∧ t.2.sampler.mi = .ok (.num a)) ∧
    lookup (t.2.params.getD []) "desired_mi" = .ok (.float v.2) ∧ lookup (t.2.params.getD []) "family_name" = .ok (.str p.1) := by
  obtain ⟨Q, s, -, -, h1, -, -, h2, -⟩ := h.law
  obtain ⟨h3, h4⟩ := CoolTasks.task_facts h.id h2
  obtain ⟨d, d1, d2, d3⟩ := h.params
  refine ⟨h3, ⟨_, h1, h4⟩, ?_, ?_⟩
  · rw [params_fact d1, lookup, d2]
  · rw [params_fact d1, lookup, d3]

theorem config_tasks (E : World V) (ts : List (String × Task ℝ ℝ (String × Param))) : (config E ts).tasks = ts.map Prod.snd := rfl

/-- **C88** The workflow can run. -/
theorem config_ready {R : JaxRandom Key} {κ : Measure Key} {eps : ℝ} {ts : List (String × Task ℝ ℝ (String × Param))}
    (h : List.Forall₂ (fun q t => IsTask R κ eps q.1 q.2 t) (order ×ˢ values) ts) {E : World V} (hE : Usable E) : Workflow.Ready (config E ts) := by
  have hfst : (config E ts).estimators.map Prod.fst = MiFigure.estimators := by
    simp [config, Function.comp_def]
  have hids : ts.map (fun t => t.2.taskId) = (order ×ˢ values).map fun q => q.1.2 ++ q.2.1 :=
    (GmmBenchmark.forall2_map_eq h (fun q => q.1.2 ++ q.2.1) (fun t => t.2.taskId) fun q t hq => (task_known hq).1.symm).symm
  have hin : ∀ t ∈ (config E ts).tasks, ∃ kt, kt.2 = t ∧ ∃ q ∈ order ×ˢ values, IsTask R κ eps q.1 q.2 kt := by
    intro t ht
    rw [config_tasks] at ht
    obtain ⟨kt, hkt, rfl⟩ := List.mem_map.1 ht
    exact ⟨kt, rfl, GmmBenchmark.forall2_right h kt hkt⟩
  refine ⟨?_, ?_, ?_, ?_, ?_, ?_, ?_, ?_, hE.yaml⟩
  · rw [hfst]
    decide
  · intro e he
    have h1 : e.1 ∈ MiFigure.estimators := hfst ▸ List.mem_map_of_mem (f := Prod.fst) he
    generalize e.1 = k at h1
    revert k
    decide
  · intro e he
    simp only [config, List.mem_map] at he
    obtain ⟨i, hi, rfl⟩ := he
    exact hE.alive i hi
  · rw [config_tasks, List.map_map]
    show (ts.map fun t => t.2.taskId).Nodup
    rw [hids]
    exact ids_nodup
  · intro t ht
    obtain ⟨kt, rfl, q, hq, hk⟩ := hin t ht
    rw [(task_known hk).1]
    obtain ⟨h1, h2⟩ := List.mem_product.1 hq
    have h3 : q.2.1 ∈ values.map Prod.fst := List.mem_map_of_mem h2
    have : values.map Prod.fst = ["0.000", "0.500", "1.000", "1.500", "2.000", "3.000", "4.000", "5.000"] := rfl
    rw [this] at h3
    generalize q.1 = p at h1
    generalize q.2.1 = n at h3
    clear this hk h2 hq ht
    revert p n
    decide
  · intro t ht
    obtain ⟨kt, rfl, q, hq, hk⟩ := hin t ht
    rw [(task_known hk).1]
    exact hk.id
  · intro s hs
    simp only [config, List.mem_map] at hs
    obtain ⟨i, -, rfl⟩ := hs
    exact Int.natCast_nonneg i
  · intro t ht n hn s _
    obtain ⟨kt, rfl, q, hq, hk⟩ := hin t ht
    obtain ⟨Q, s', -, -, -, -, -, -, hs⟩ := hk.law
    have hn : 0 < n := by
      simp only [config, List.mem_singleton] at hn
      omega
    obtain ⟨x, y, w, u, -, e, -, -⟩ := hs n hn s
    exact ⟨n, 3, 3, w, u, by norm_num, e⟩

theorem ids_injective {p q : String × String} (hp : p ∈ panels) (hq : q ∈ order) {v w : String × ℝ} (hv : v ∈ values) (hw : w ∈ values)
    (h : q.2 ++ v.1 = p.2 ++ w.1) : q = p ∧ v = w := by
  have e : values.map Prod.fst = ["0.000", "0.500", "1.000", "1.500", "2.000", "3.000", "4.000", "5.000"] := rfl
  have key : ∀ p ∈ panels, ∀ q ∈ order, ∀ a ∈ values.map Prod.fst, ∀ b ∈ values.map Prod.fst, q.2 ++ a = p.2 ++ b → q = p ∧ a = b := by
    rw [e]
    decide
  obtain ⟨h1, h2⟩ := key p hp q hq _ (List.mem_map_of_mem hv) _ (List.mem_map_of_mem hw) h
  refine ⟨h1, List.inj_on_of_nodup_map (f := Prod.fst) ?_ hv hw h2⟩
  rw [e]
  decide

theorem panels_order (p : String × String) : p ∈ panels ↔ p ∈ order := by
  simp only [panels, order, List.mem_cons, List.not_mem_nil, or_false]
  tauto

theorem average_near {ws : List ℝ} {m x ε : ℝ} (hne : ws ≠ []) (h : ∀ w ∈ ws, |w - x| < ε) (hm : ws.length * m = ws.sum) : |m - x| < ε := by
  have h1 : (ws.map fun _ => x - ε).sum < (ws.map fun w => w).sum := List.sum_lt_sum_of_ne_nil hne _ _ fun w hw => by
    have := (abs_lt.1 (h w hw)).1
    linarith
  have h2 : (ws.map fun w => w).sum < (ws.map fun _ => x + ε).sum := List.sum_lt_sum_of_ne_nil hne _ _ fun w hw => by
    have := (abs_lt.1 (h w hw)).2
    linarith
  simp only [List.map_id', List.map_const', List.sum_replicate, nsmul_eq_mul] at h1 h2
  have hpos : (0 : ℝ) < ws.length := by exact_mod_cast List.length_pos_of_ne_nil hne
  rw [← hm] at h1 h2
  rw [abs_lt]
  have h3 := lt_of_mul_lt_mul_left h1 hpos.le
  have h4 := lt_of_mul_lt_mul_left h2 hpos.le
  constructor <;> linarith

/-- What a line says. -/
structure Says (l : Line ℝ (Fl ℝ) V (String × Param)) (q : (String × String) × String × ℝ) : Prop where
  fam : q.1 ∈ order
  val : q.2 ∈ values
  est : l.result.estimatorId ∈ MiFigure.estimators
  id : l.result.taskId = q.1.2 ++ q.2.1
  near : ∃ a, |a - q.2.2| < 1e-4 ∧ l.miTrue = .num a
  row : rowOf l = .ok (q.1.1, ⟨l.result.estimatorId, some q.2.2, number l.result.mi, number l.miTrue⟩)

theorem says_about {l : Line ℝ (Fl ℝ) V (String × Param)} {q : (String × String) × String × ℝ} (h : Says l q) {p : String × String} (hp : p ∈ panels)
    (x : ℝ) : About p.2 l x ↔ q.1 = p ∧ q.2.2 = x := by
  constructor
  · rintro ⟨v, hv, rfl, e⟩
    obtain ⟨h1, h2⟩ := ids_injective hp h.fam h.val hv (h.id.symm.trans e)
    exact ⟨h1, by rw [h2]⟩
  · rintro ⟨rfl, rfl⟩
    exact ⟨q.2, h.val, rfl, h.id⟩

theorem family_injective {p q : String × String} (hp : p ∈ panels) (hq : q ∈ order) : q.1 = p.1 ↔ q = p := by
  constructor
  · exact (by decide : ∀ p ∈ panels, ∀ q ∈ order, q.1 = p.1 → q = p) p hp q hq
  · rintro rfl
    rfl

open Classical in
theorem panel_of {lines : List (Line ℝ (Fl ℝ) V (String × Param))} {g : Line ℝ (Fl ℝ) V (String × Param) → (String × String) × String × ℝ}
    (hs : ∀ l ∈ lines, Says l (g l)) {p : String × String} (hp : p ∈ panels) (hall : ∀ v ∈ values, ∃ l ∈ lines, g l = (p, v)) :
    ∃ f, plotMi MiFigure.estimatorColors MiFigure.estimatorNames true (((lines.map fun l =>
        ((g l).1.1, (⟨l.result.estimatorId, some (g l).2.2, number l.result.mi, number l.miTrue⟩ : Row))).filter fun r => r.1 == p.1).map Prod.snd)
      = .ok f ∧ IsHigh p.2 lines f := by
  set D := lines.filter fun l => decide (∃ x, About p.2 l x) with hD
  have hmem : ∀ l, l ∈ D ↔ l ∈ lines ∧ (g l).1 = p := by
    intro l
    rw [hD, List.mem_filter, decide_eq_true_iff]
    constructor
    · rintro ⟨h1, x, h2⟩
      exact ⟨h1, ((says_about (hs l h1) hp x).1 h2).1⟩
    · rintro ⟨h1, h2⟩
      exact ⟨h1, _, (says_about (hs l h1) hp _).2 ⟨h2, rfl⟩⟩
  have e : ((lines.map fun l => ((g l).1.1, (⟨l.result.estimatorId, some (g l).2.2, number l.result.mi, number l.miTrue⟩ : Row))).filter
      fun r => r.1 == p.1).map Prod.snd = D.map fun l => ⟨l.result.estimatorId, some (g l).2.2, number l.result.mi, number l.miTrue⟩ := by
    rw [List.filter_map, List.map_map, hD]
    have : lines.filter ((fun r : String × Row => r.1 == p.1) ∘ fun l => ((g l).1.1, (⟨l.result.estimatorId, some (g l).2.2, number l.result.mi,
        number l.miTrue⟩ : Row))) = lines.filter fun l => decide (∃ x, About p.2 l x) := by
      refine List.filter_congr fun l hl => ?_
      rw [Bool.eq_iff_iff, decide_eq_true_iff]
      show ((g l).1.1 == p.1) = true ↔ _
      rw [beq_iff_eq, family_injective hp (hs l hl).fam]
      constructor
      · intro h
        exact ⟨_, (says_about (hs l hl) hp _).2 ⟨h, rfl⟩⟩
      · rintro ⟨x, hx⟩
        exact ((says_about (hs l hl) hp x).1 hx).1
    rw [this]
    rfl
  rw [e]
  obtain ⟨f, f1, f2⟩ := MiFigure.plotMi_spec MiFigure.estimatorColors MiFigure.estimatorNames
    (D.map fun l => (⟨l.result.estimatorId, some (g l).2.2, number l.result.mi, number l.miTrue⟩ : Row)) (by
      intro r hr
      obtain ⟨l, hl, rfl⟩ := List.mem_map.1 hr
      exact MiFigure.estimators_known _ (hs l ((hmem l).1 hl).1).est)
  refine ⟨f, f1, ⟨⟨_, ?_, f2⟩, fun x => ?_, fun q hq => ?_⟩⟩
  · rw [List.forall₂_map_right_iff, List.forall₂_same]
    intro l hl
    obtain ⟨h1, h2⟩ := (hmem l).1 hl
    refine ⟨rfl, fun x => ?_, fun v => MiFigure.number_iff _ v, fun v => MiFigure.number_iff _ v⟩
    rw [says_about (hs l h1) hp]
    exact ⟨fun h => ⟨h2, Option.some.inj h⟩, fun h => congrArg some h.2⟩
  · rw [f2.places]
    constructor
    · rintro ⟨r, hr, hx⟩
      obtain ⟨l, hl, rfl⟩ := List.mem_map.1 hr
      exact ⟨_, (hs l ((hmem l).1 hl).1).val, Option.some.inj hx⟩
    · rintro ⟨v, hv, rfl⟩
      obtain ⟨l, hl, hg⟩ := hall v hv
      exact ⟨_, List.mem_map_of_mem ((hmem l).2 ⟨hl, by rw [hg]⟩), by rw [hg]⟩
  · obtain ⟨r, hr, hx⟩ := (f2.places q.1).1 (List.mem_map_of_mem hq)
    have hw : ∀ w ∈ MiFigure.truths (D.map fun l => (⟨l.result.estimatorId, some (g l).2.2, number l.result.mi, number l.miTrue⟩ : Row)) q.1,
        |w - q.1| < 1e-4 := by
      intro w hw
      unfold MiFigure.truths at hw
      obtain ⟨r', hr', e⟩ := List.mem_filterMap.1 hw
      obtain ⟨l, hl, rfl⟩ := List.mem_map.1 hr'
      obtain ⟨a, ha, ha'⟩ := (hs l ((hmem l).1 hl).1).near
      dsimp only at e
      split at e
      · rename_i hx'
        rw [ha'] at e
        rw [← Option.some.inj hx', ← Option.some.inj e]
        exact ha
      · cases e
    have hne : MiFigure.truths (D.map fun l => (⟨l.result.estimatorId, some (g l).2.2, number l.result.mi, number l.miTrue⟩ : Row)) q.1 ≠ [] := by
      obtain ⟨l, hl, rfl⟩ := List.mem_map.1 hr
      obtain ⟨a, ha, ha'⟩ := (hs l ((hmem l).1 hl).1).near
      refine List.ne_nil_of_mem (a := a) ?_
      unfold MiFigure.truths
      exact List.mem_filterMap.2 ⟨_, hr, by rw [if_pos hx]; dsimp only; rw [ha']; rfl⟩
    obtain ⟨m, m1, m2⟩ := (f2.heights q hq).2 hne
    exact ⟨m, m1, average_near hne hw m2⟩

/-- **C88** The figure with growing mutual information: the 24 tasks can be made, with mutual informations as wanted, the workflow ends, and the
figure has the panels "Half-cube", "Sparse Gaussian" and "Spiral", in this order, which show the estimates for the tasks of the family. -/
theorem high_mi (R : JaxRandom Key) (κ : Measure Key) (hR : IdealRandom R κ) (uniform : ℝ → ℝ → ℕ → ℝ) {eps : ℝ} (heps : 0 < eps) :
    ∃ ts, tasks R uniform eps = .ok ts ∧ List.Forall₂ (fun q t => IsTask R κ eps q.1 q.2 t) (order ×ˢ values) ts ∧
      ∀ {V : Type} (E : World V), Usable E → ∃ lines figs, workflow E ts = .ok (lines, figs) ∧
        List.Forall₂ (fun c l => Workflow.IsLine (config E ts) c.1 c.2.1 c.2.2.1 c.2.2.2 l) (Workflow.combinations (config E ts)) lines ∧
        List.Forall₂ (fun p g => g.1 = p.1 ∧ IsHigh p.2 lines g.2) panels figs := by
  obtain ⟨ts, h1, h2⟩ := tasks_spec R κ hR uniform heps
  refine ⟨ts, h1, h2, fun {V} E hE => ?_⟩
  have hready := config_ready h2 hE
  obtain ⟨lines, l1, l2⟩ := Workflow.results_spec (config E ts) hready
  have ids : ∀ {e : String × Est (Fl ℝ) V ℝ} {t : Task ℝ ℝ (String × Param)} {n : ℕ} {s : ℤ} {l : Line ℝ (Fl ℝ) V (String × Param)},
      t ∈ (config E ts).tasks → n ∈ (config E ts).ns → s ∈ (config E ts).seeds → Workflow.IsLine (config E ts) e t n s l →
      l.result.estimatorId = e.1 ∧ l.result.taskId = t.taskId := by
    intro e t n s l ht hn hs hx
    obtain ⟨m, dx, dy, x, y, _, hsam⟩ := hready.sample t ht n hn s hs
    obtain ⟨file, r, _, hrep, _, hr⟩ := hx.run m dx dy x y hsam
    obtain ⟨i1, i2, i3, i4⟩ := hrep.ids
    exact ⟨by rw [hr]; exact i1, by rw [hr]; exact i2⟩
  have told : ∀ {e : String × Est (Fl ℝ) V ℝ} {kt : String × Task ℝ ℝ (String × Param)} {n : ℕ} {s : ℤ} {l : Line ℝ (Fl ℝ) V (String × Param)}
      {q : (String × String) × String × ℝ}, e ∈ (config E ts).estimators → kt ∈ ts → n ∈ (config E ts).ns → s ∈ (config E ts).seeds →
      Workflow.IsLine (config E ts) e kt.2 n s l → q ∈ order ×ˢ values → IsTask R κ eps q.1 q.2 kt → Says l q := by
    intro e kt n s l q he hkt hn hs hx hq hk
    obtain ⟨i1, i2⟩ := ids (List.mem_map_of_mem hkt) hn hs hx
    obtain ⟨k1, ⟨a, k2, k3⟩, k4, k5⟩ := task_known hk
    obtain ⟨q1, q2⟩ := List.mem_product.1 hq
    refine ⟨q1, q2, ?_, i2.trans k1, ⟨a, k2, ?_⟩, ?_⟩
    · rw [i1]
      simp only [config, List.mem_map] at he
      obtain ⟨i, hi, rfl⟩ := he
      exact hi
    · exact (Except.ok.inj (k3.symm.trans hx.true_mi)).symm
    · unfold rowOf
      rw [hx.params, k4, k5]
      rfl
  have hex : ∀ l ∈ lines, ∃ q, Says l q := by
    intro l hl
    obtain ⟨⟨e, t, n, s⟩, hc, hx⟩ := GmmBenchmark.forall2_right l2 l hl
    simp only [Workflow.combinations, List.mem_product] at hc
    obtain ⟨he, ht, hn, hs⟩ := hc
    rw [config_tasks] at ht
    obtain ⟨kt, hkt, rfl⟩ := List.mem_map.1 ht
    obtain ⟨q, hq, hk⟩ := GmmBenchmark.forall2_right h2 kt hkt
    exact ⟨q, told he hkt hn hs hx hq hk⟩
  choose! g hg using hex
  have hall : ∀ p ∈ panels, ∀ v ∈ values, ∃ l ∈ lines, g l = (p, v) := by
    intro p hp v hv
    obtain ⟨kt, hkt, hk⟩ := GmmBenchmark.forall2_left h2 (p, v) (List.mem_product.2 ⟨(panels_order p).1 hp, hv⟩)
    have hmem : (("CCA", E.est "CCA"), kt.2, 10000, (0 : ℤ)) ∈ Workflow.combinations (config E ts) := by
      simp only [Workflow.combinations, List.mem_product]
      exact ⟨List.mem_map.2 ⟨"CCA", by decide, rfl⟩, List.mem_map_of_mem hkt, List.mem_singleton.2 rfl, List.mem_map.2 ⟨0, by decide, rfl⟩⟩
    obtain ⟨l, hl, hx⟩ := GmmBenchmark.forall2_left l2 _ hmem
    refine ⟨l, hl, ?_⟩
    simp only [Workflow.combinations, List.mem_product] at hmem
    have hsay := told hmem.1 hkt hmem.2.2.1 hmem.2.2.2 hx (List.mem_product.2 ⟨(panels_order p).1 hp, hv⟩) hk
    obtain ⟨a, b⟩ := ids_injective hp (hg l hl).fam (hg l hl).val hv ((hg l hl).id.symm.trans hsay.id)
    exact Prod.ext a b
  have hmap : lines.mapM rowOf = .ok (lines.map fun l => ((g l).1.1, (⟨l.result.estimatorId, some (g l).2.2, number l.result.mi, number l.miTrue⟩ : Row))) :=
    MiFigure.mapM_ok _ _ _ fun l hl => (hg l hl).row
  have hkeys : CoolTasks.groupKeys ((lines.map fun l => ((g l).1.1, (⟨l.result.estimatorId, some (g l).2.2, number l.result.mi,
      number l.miTrue⟩ : Row))).map Prod.fst) = panels.map Prod.fst := by
    refine CoolTasks.groupKeys_eq (by decide) fun e => ?_
    rw [List.map_map, List.mem_map]
    constructor
    · rintro ⟨l, hl, rfl⟩
      exact List.mem_map_of_mem (f := Prod.fst) ((panels_order _).2 (hg l hl).fam)
    · intro he
      obtain ⟨p, hp, rfl⟩ := List.mem_map.1 he
      obtain ⟨l, hl, hgl⟩ := hall p hp ("0.000", 0) (by simp [values])
      exact ⟨l, hl, by simp [hgl]⟩
  obtain ⟨figs, f1, f2⟩ := Workflow.mapM_forall2 (fun (p : String × String) (r : String × Fig) => r.1 = p.1 ∧ IsHigh p.2 lines r.2)
    (fun p => (plotMi MiFigure.estimatorColors MiFigure.estimatorNames true (((lines.map fun l => ((g l).1.1, (⟨l.result.estimatorId, some (g l).2.2,
      number l.result.mi, number l.miTrue⟩ : Row))).filter fun r => r.1 == p.1).map Prod.snd)).bind fun f => Except.ok (p.1, f)) panels (by
      intro p hp
      obtain ⟨f, a, b⟩ := panel_of hg hp (hall p hp)
      exact ⟨(p.1, f), by rw [a]; rfl, rfl, b⟩)
  refine ⟨lines, figs, ?_, l2, f2⟩
  have hplot : plot lines = .ok figs := by
    simp only [plot, hmap, bind, Except.bind]
    rw [hkeys, List.take_of_length_le (by simp [panels]), List.mapM_map]
    exact f1
  simp only [workflow, l1, hplot, Workflow.lift, bind, Except.bind]

/-- One estimator returns the number one, the others raise. -/
def exampleWorld : World ℕ where
  est := fun e => ⟨false, fun _ => .exc "" none, fun _ _ => if e = "CCA" then .ret ⟨.num 1, none, []⟩ else .exc "" none⟩
  str := fun _ => 0
  csv := id
  yaml := .ok
  measured := fun _ => .num 0

theorem exampleWorld_usable : Usable exampleWorld where
  alive := by
    intro e _
    refine ⟨fun p h => (by cases h), fun x y => ?_⟩
    unfold exampleWorld
    dsimp only
    by_cases h : e = "CCA"
    · rw [if_pos h]
      exact fun h => by cases h
    · rw [if_neg h]
      exact fun h => by cases h
  yaml := fun d => ⟨d, rfl⟩

/-- **C88** Results: one line for each of nine estimators, 24 tasks and five seeds. -/
theorem high_mi_runs {V : Type} (E : World V) (hE : Usable E) (R : JaxRandom Key) (κ : Measure Key) (hR : IdealRandom R κ)
    (uniform : ℝ → ℝ → ℕ → ℝ) {eps : ℝ} (heps : 0 < eps) :
    ∃ ts lines figs, tasks R uniform eps = .ok ts ∧ workflow E ts = .ok (lines, figs) ∧ lines.length = 9 * 24 * 5 := by
  obtain ⟨ts, h1, h2, h3⟩ := high_mi R κ hR uniform heps
  obtain ⟨lines, figs, h4, h5, -⟩ := h3 E hE
  have hl : ts.length = 24 := by rw [← h2.length_eq]; rfl
  refine ⟨ts, lines, figs, h1, h4, ?_⟩
  rw [← h5.length_eq, Workflow.combinations, List.length_product, List.length_product, List.length_product, config_tasks,
    List.length_map, hl]
  simp [config, MiFigure.estimators]

/-- For some randomness there are three panels, and each has a dotted curve through eight points. -/
example : ∃ ts lines figs, tasks tree (fun a b _ => (a + b) / 2) (1 / 10) = .ok ts ∧ ts.length = 24 ∧ workflow exampleWorld ts = .ok (lines, figs) ∧
    figs.map Prod.fst = ["Half-cube", "Sparse Gaussian", "Spiral"] ∧ ∀ g ∈ figs, ∃ a, (5, some a) ∈ g.2.truth ∧ |a - 5| < 1e-4 := by
  obtain ⟨ts, h1, h2, h3⟩ := high_mi tree treeLaw tree_ideal (fun a b _ => (a + b) / 2) (eps := 1 / 10) (by norm_num)
  obtain ⟨lines, figs, h4, -, h5⟩ := h3 exampleWorld exampleWorld_usable
  refine ⟨ts, lines, figs, h1, by rw [← h2.length_eq]; rfl, h4, (GmmBenchmark.forall2_map_eq h5 Prod.fst Prod.fst fun p g h => h.1.symm).symm, fun g hg => ?_⟩
  obtain ⟨p, -, -, hp⟩ := GmmBenchmark.forall2_right h5 g hg
  obtain ⟨⟨x, o⟩, hx, hx'⟩ := List.mem_map.1 ((hp.places 5).2 ⟨("5.000", 5), by simp [values], rfl⟩)
  obtain ⟨a, a1, a2⟩ := hp.diagonal _ hx
  dsimp only at hx' a1 a2
  subst hx'
  subst a1
  exact ⟨a, hx, a2⟩

end BMI.HighMi
