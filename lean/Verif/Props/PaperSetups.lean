import Verif.Props.PaperTasks

/-! C91: the benchmark workflows of the paper as configured. -/

namespace BMI.Paper

open MeasureTheory BMI.Registry BMI.TaskIds BMI.FigureTables BMI.Samplers BMI.Student BMI.Scaling BMI.Task
open BMI.Tables (Row average estimates)

variable {Key State V : Type} [MeasurableSpace Key] [MeasurableSpace State] {R : JaxRandom Key} {κ : Measure Key}
  {N : NpRandom State} {μ : Measure State}

/-! ### The tasks asked for exist -/

theorem qualifierIds_found : qualifierIds.Nodup ∧ ∀ i ∈ qualifierIds, ∃ e ∈ Registry.entries, e.call.id regFormat = i := by
  decide +kernel

theorem ksgIds_found : ksgIds.Nodup ∧ ∀ i ∈ ksgIds, ∃ e ∈ Registry.entries, e.call.id regFormat = i := by
  decide +kernel

theorem shownIds_found : shownIds.Nodup ∧ ∀ i ∈ shownIds, ∃ e ∈ Registry.entries, e.call.id regFormat = i := by
  decide +kernel

theorem covers_of_found {c : Setup} {ids order : List (List Char)} (hc : c.chosen = some order)
    (h : ids.Nodup ∧ ∀ i ∈ ids, ∃ e ∈ Registry.entries, e.call.id regFormat = i) (hp : order.Perm ids) :
    ∃ es, Covers c es ∧ es.length = ids.length := by
  have : Nonempty Entry := ⟨Registry.entries.head (by decide +kernel)⟩
  choose! f hf using h.2
  have hmap : (order.map f).map (fun e => e.call.id regFormat) = order := by
    rw [List.map_map]
    refine (List.map_congr_left fun i hi => ?_).trans (List.map_id _)
    exact (hf i (hp.mem_iff.1 hi)).2
  refine ⟨order.map f, ?_, by rw [List.length_map, hp.length_eq]⟩
  rw [Covers, hc]
  refine ⟨hmap, ?_, ?_⟩
  · refine List.Nodup.of_map (fun e => e.call.id regFormat) ?_
    rw [hmap]
    exact hp.nodup_iff.2 h.1
  · intro e he
    obtain ⟨i, hi, rfl⟩ := List.mem_map.1 he
    exact (hf i (hp.mem_iff.1 hi)).1

theorem entries_length : Registry.entries.length = 40 := by decide +kernel

/-! ### The configurations -/

/-- The name shown, as a list of characters. -/
def label (c : Setup) (k : List Char) : Option (List Char) :=
  match c.names.lookup k with
  | some n => some n
  | none => commonNames.lookup k

theorem nameOf_label (c : Setup) (k : List Char) : nameOf c (String.ofList k) = (label c k).map String.ofList := by
  rw [nameOf, label, String.toList_ofList]
  cases c.names.lookup k <;> rfl

theorem sound_of {c : Setup} {N : ℕ} (h1 : (c.ests.map Prod.fst).Nodup) (h2 : ∀ e ∈ c.ests, (label c e.1).isSome)
    (h3 : c.seeds ≠ []) (h4 : N ∈ c.ns ∧ ∀ n ∈ c.ns, n ≤ N) (h5 : c.ns.Nodup) : Sound c N :=
  ⟨h1, fun e he => by rw [nameOf_label, Option.isSome_map]; exact h2 e he, h3, ⟨h4.1, fun _ hn => h4.2 _ hn⟩, h5⟩

/-- **C91** All workflows are usable: different keys of estimators, each with a name to show; seeds; and 10000 as the largest number
of samples. -/
theorem workflows_sound (o : List (List Char)) : Sound benchmark 10000 ∧ Sound gaussianise 10000 ∧ Sound uniformise 10000 ∧
    Sound (qualifiers o) 10000 ∧ Sound (ksgSetup o) 10000 ∧ Sound (neuralArch o) 10000 := by
  refine ⟨sound_of ?_ ?_ ?_ ?_ ?_, sound_of ?_ ?_ ?_ ?_ ?_, sound_of ?_ ?_ ?_ ?_ ?_, sound_of ?_ ?_ ?_ ?_ ?_,
    sound_of ?_ ?_ ?_ ?_ ?_, sound_of ?_ ?_ ?_ ?_ ?_⟩
  all_goals first
    | decide +kernel
    | (show ((qualifiers []).ests.map Prod.fst).Nodup; decide +kernel)
    | (show ((ksgSetup []).ests.map Prod.fst).Nodup; decide +kernel)
    | (show ((neuralArch []).ests.map Prod.fst).Nodup; decide +kernel)
    | (show ∀ e ∈ (qualifiers []).ests, (label (qualifiers []) e.1).isSome; decide +kernel)
    | (show ∀ e ∈ (ksgSetup []).ests, (label (ksgSetup []) e.1).isSome; decide +kernel)
    | (show ∀ e ∈ (neuralArch []).ests, (label (neuralArch []) e.1).isSome; decide +kernel)
    | (show upTo 5 ≠ []; decide +kernel)
    | (show 10000 ∈ [10000] ∧ ∀ n ∈ [10000], n ≤ 10000; decide +kernel)
    | (show [10000].Nodup; decide +kernel)

theorem shown_nodup_of {c : Setup} (h1 : (c.ests.map fun e => label c e.1).Nodup) (h2 : ∀ e ∈ c.ests, (label c e.1).isSome) :
    ((estIds c).map (shownName c)).Nodup := by
  rw [estIds, List.map_map]
  refine (List.nodup_map_iff_inj_on (List.Nodup.of_map _ h1)).2 fun a ha b hb hab => ?_
  obtain ⟨x, hx⟩ := Option.isSome_iff_exists.1 (h2 a ha)
  obtain ⟨y, hy⟩ := Option.isSome_iff_exists.1 (h2 b hb)
  simp only [Function.comp_apply, shownName, nameOf_label, hx, hy, Option.map_some, Option.getD_some] at hab
  exact List.inj_on_of_nodup_map h1 ha hb (by rw [hx, hy, ofList_inj hab])

/-- **C91** In each workflow different estimators are shown under different names. -/
theorem names_distinct (o : List (List Char)) : ((estIds benchmark).map (shownName benchmark)).Nodup ∧
    ((estIds gaussianise).map (shownName gaussianise)).Nodup ∧ ((estIds uniformise).map (shownName uniformise)).Nodup ∧
    ((estIds (qualifiers o)).map (shownName (qualifiers o))).Nodup ∧ ((estIds (ksgSetup o)).map (shownName (ksgSetup o))).Nodup ∧
    ((estIds (neuralArch o)).map (shownName (neuralArch o))).Nodup := by
  refine ⟨shown_nodup_of ?_ ?_, shown_nodup_of ?_ ?_, shown_nodup_of ?_ ?_, shown_nodup_of ?_ ?_, shown_nodup_of ?_ ?_,
    shown_nodup_of ?_ ?_⟩
  all_goals first
    | decide +kernel
    | (show ((qualifiers []).ests.map fun e => label (qualifiers []) e.1).Nodup; decide +kernel)
    | (show ((ksgSetup []).ests.map fun e => label (ksgSetup []) e.1).Nodup; decide +kernel)
    | (show ((neuralArch []).ests.map fun e => label (neuralArch []) e.1).Nodup; decide +kernel)
    | (show ∀ e ∈ (qualifiers []).ests, (label (qualifiers []) e.1).isSome; decide +kernel)
    | (show ∀ e ∈ (ksgSetup []).ests, (label (ksgSetup []) e.1).isSome; decide +kernel)
    | (show ∀ e ∈ (neuralArch []).ests, (label (neuralArch []) e.1).isSome; decide +kernel)

/-! ### Estimators with a trained critic -/

theorem isTrained_iff {c : Setup} (h : (c.ests.map Prod.fst).Nodup) {x : List Char × Kind} (hx : x ∈ c.ests) :
    IsTrained c (String.ofList x.1) ↔ x.2.Trained := by
  constructor
  · rintro ⟨y, hy, he, ht⟩
    obtain rfl : y = x := List.inj_on_of_nodup_map h hy hx (ofList_inj he)
    exact ht
  · exact fun ht => ⟨x, hx, rfl, ht⟩

open Classical in
theorem trained_filter {c : Setup} (h : (c.ests.map Prod.fst).Nodup) :
    (estIds c).filter (fun e => IsTrained c e)
      = (c.ests.filter fun x => x.2.isBase || x.2.isMine).map fun x => String.ofList x.1 := by
  rw [estIds, List.filter_map]
  congr 1
  refine List.filter_congr fun x hx => ?_
  rw [Function.comp_apply, Bool.eq_iff_iff, decide_eq_true_eq, isTrained_iff h hx, trained_iff]

open Classical in
/-- **C91** The figures of failures in the workflows with all tasks have the four columns MINE, InfoNCE, NWJ and D-V. -/
theorem trained_common (c : Setup) (hc : c.ests = commonEsts) (hn : c.names = []) :
    ((estIds c).filter fun e => IsTrained c e).map (shownName c) = ["MINE", "InfoNCE", "NWJ", "D-V"] := by
  rw [trained_filter (by rw [hc]; decide +kernel), List.map_map]
  have e1 : ∀ x : List Char × Kind, (shownName c ∘ fun x => String.ofList x.1) x = String.ofList ((commonNames.lookup x.1).getD []) := by
    intro x
    simp only [Function.comp_apply, shownName, nameOf_label, label, hn, List.lookup_nil]
    cases commonNames.lookup x.1 <;> rfl
  rw [List.map_congr_left fun x _ => e1 x, hc]
  have e2 : ((commonEsts.filter fun x => x.2.isBase || x.2.isMine).map fun x => (commonNames.lookup x.1).getD [])
      = [['M', 'I', 'N', 'E'], ['I', 'n', 'f', 'o', 'N', 'C', 'E'], ['N', 'W', 'J'], ['D', '-', 'V']] := by decide +kernel
  have e3 := congrArg (List.map String.ofList) e2
  rw [List.map_map] at e3
  exact e3

theorem untrained_of {c : Setup} (h : (c.ests.map Prod.fst).Nodup) (hx : ∃ x ∈ c.ests, (x.2.isBase || x.2.isMine) = false) :
    ∃ e ∈ estIds c, ¬ IsTrained c e := by
  obtain ⟨x, hx, hf⟩ := hx
  refine ⟨_, List.mem_map.2 ⟨x, hx, rfl⟩, ?_⟩
  rw [isTrained_iff h hx, ← trained_iff, hf]
  exact Bool.false_ne_true

theorem untrained_used (o : List (List Char)) : ∀ c ∈ [benchmark, gaussianise, uniformise, qualifiers o, ksgSetup o],
    ∃ e ∈ estIds c, ¬ IsTrained c e := by
  obtain ⟨s1, s2, s3, s4, s5, -⟩ := workflows_sound o
  have hcca : ∃ x ∈ commonEsts, (x.2.isBase || x.2.isMine) = false := by decide +kernel
  intro c hc
  simp only [List.mem_cons, List.not_mem_nil, or_false] at hc
  rcases hc with rfl | rfl | rfl | rfl | rfl
  · exact untrained_of s1.nodup hcca
  · exact untrained_of s2.nodup hcca
  · exact untrained_of s3.nodup hcca
  · exact untrained_of s4.nodup ⟨_, List.mem_cons_of_mem _ (List.mem_cons_of_mem _ (List.mem_cons_of_mem _
      (List.mem_cons_of_mem _ List.mem_cons_self))), rfl⟩
  · exact untrained_of s5.nodup ⟨_, List.mem_cons_self, rfl⟩

theorem arch_trained (o : List (List Char)) : ∀ e ∈ estIds (neuralArch o), IsTrained (neuralArch o) e := by
  intro e he
  obtain ⟨x, hx, rfl⟩ := List.mem_map.1 he
  rw [isTrained_iff (workflows_sound o).2.2.2.2.2.nodup hx, ← trained_iff]
  exact (by decide +kernel : ∀ x ∈ archEsts, (x.2.isBase || x.2.isMine) = true) x hx

/-! ### What the workflows do -/

/-- **C91** The workflows with all tasks, each with its own preprocessing: 21600 runs for `benchmark` and 3600 runs each for
the others.  All three figures can be made whatever the runs gave, and have one row per task. -/
theorem full_workflows (hR : IdealRandom R κ) (hN : IdealStudent N μ) (other : Call RegF → Except Err (Built Key State))
    (L : Lib) (num : ℕ → V) (params : List Char → List (String × V)) (c : Setup) (p : Prep)
    (hc : (c, p) ∈ [(benchmark, .rescaled), (gaussianise, .gaussianised), (uniformise, .uniformised)])
    (run : String → String → ℕ → ℤ → Option ℝ) :
    ∃ all ts tasks, Registry.benchmarkTasks R N other = .ok all ∧ tasksOf L num params all c = .ok ts ∧
      ts.mapM infoOf = .ok tasks ∧ tasks = Registry.entries.map (wanted p) ∧
      List.Forall₂ (Ready R κ N μ L p all) Registry.entries ts ∧
      (rows c tasks run).length = (if p = .rescaled then 21600 else 3600) ∧
      (∃ t, figureEstimates c tasks run = .ok t ∧ t.map Prod.fst = tasks.map TaskInfo.name) ∧
      (∃ t, figureSamples c tasks run = .ok t ∧ t.map Prod.fst = tasks.map TaskInfo.name) ∧
      ∃ t, figureFailures c tasks run = .ok t ∧ t.map Prod.fst = tasks.map TaskInfo.name ∧
        ∀ r ∈ t, r.2.map Prod.fst = ["MINE", "InfoNCE", "NWJ", "D-V"] := by
  classical
  obtain ⟨s1, s2, s3, -⟩ := workflows_sound []
  obtain ⟨hm, hch, hs, hests, hnames, hprep, hlen⟩ : c ∈ [benchmark, gaussianise, uniformise] ∧ c.chosen = none ∧ Sound c 10000 ∧
      c.ests = commonEsts ∧ c.names = [] ∧ c.prep = p ∧ c.ns.length * c.seeds.length = (if p = .rescaled then 60 else 10) := by
    rcases List.mem_cons.1 hc with h | hc
    · obtain ⟨rfl, rfl⟩ := Prod.ext_iff.1 h
      exact ⟨.head _, rfl, s1, rfl, rfl, rfl, rfl⟩
    rcases List.mem_cons.1 hc with h | hc
    · obtain ⟨rfl, rfl⟩ := Prod.ext_iff.1 h
      exact ⟨.tail _ (.head _), rfl, s2, rfl, rfl, rfl, rfl⟩
    obtain ⟨rfl, rfl⟩ := Prod.ext_iff.1 (List.mem_singleton.1 hc)
    exact ⟨.tail _ (.tail _ (.head _)), rfl, s3, rfl, rfl, rfl, rfl⟩
  have hu : ∃ e ∈ estIds c, ¬ IsTrained c e := untrained_used [] c (List.mem_append_left [qualifiers [], ksgSetup []] hm)
  subst hprep
  have hcov : Covers c Registry.entries := by rw [Covers, hch]
  obtain ⟨all, ts, h1, h2, h3, h4, h5, h6⟩ := tasks_ready hR hN other L num params hcov
  have htr : ∃ e ∈ estIds c, IsTrained c e := by
    have hm : (['M', 'I', 'N', 'E'], Kind.mine [16, 8]) ∈ c.ests := by rw [hests]; exact List.mem_cons_self
    exact ⟨_, List.mem_map.2 ⟨_, hm, rfl⟩, _, hm, rfl, trivial⟩
  refine ⟨all, ts, _, h1, h2, h3, rfl, h6, ?_, ?_, ?_, ?_⟩
  · rw [rows_length, List.length_map, entries_length, hlen, hests]
    by_cases hq : c.prep = .rescaled
    · rw [if_pos hq, if_pos hq]
      rfl
    · rw [if_neg hq, if_neg hq]
      rfl
  · obtain ⟨t, e1, e2, -⟩ := estimates_figure_made (run := run) hs h4 hu
    exact ⟨t, e1, e2⟩
  · obtain ⟨cols, text, e1, -⟩ := samples_figure (run := run) hs h4
      (by rw [← List.length_pos_iff_ne_nil, List.length_map, entries_length]; norm_num) h5 hu
    exact ⟨_, e1, by simp [List.map_map, Function.comp_def]⟩
  · refine ⟨_, failures_figure (run := run) hs h4 htr, by simp [List.map_map, Function.comp_def], ?_⟩
    intro r hr
    obtain ⟨t, -, rfl⟩ := List.mem_map.1 hr
    dsimp only
    rw [List.map_map]
    exact trained_common c hests hnames

/-- **C91** The workflows `benchmark_qualifiers` and `benchmark_ksg`, whatever the order of the set of tasks: 250 and 660 runs, and
the figure of the estimates can be made whatever the runs gave. -/
theorem chosen_workflows (hR : IdealRandom R κ) (hN : IdealStudent N μ) (other : Call RegF → Except Err (Built Key State))
    (L : Lib) (num : ℕ → V) (params : List Char → List (String × V)) (c : Setup) (order : List (List Char)) (runs : ℕ)
    (hc : c = qualifiers order ∧ order.Perm qualifierIds ∧ runs = 250 ∨ c = ksgSetup order ∧ order.Perm ksgIds ∧ runs = 660)
    (run : String → String → ℕ → ℤ → Option ℝ) :
    ∃ all ts, ∃ es : List Entry, Registry.benchmarkTasks R N other = .ok all ∧ tasksOf L num params all c = .ok ts ∧
      ts.mapM infoOf = .ok (es.map (wanted .rescaled)) ∧ es.map (fun e => e.call.id regFormat) = order ∧
      (∀ e ∈ es, e ∈ Registry.entries) ∧ (rows c (es.map (wanted .rescaled)) run).length = runs ∧
      ∃ t, figureEstimates c (es.map (wanted .rescaled)) run = .ok t ∧
        t.map Prod.fst = es.map fun e => String.ofList e.name := by
  obtain ⟨-, -, -, s4, s5, -⟩ := workflows_sound order
  have hu := untrained_used order
  obtain ⟨es, hcov, hs, hprep, hch, hlen, hun⟩ : ∃ es, Covers c es ∧ Sound c 10000 ∧ c.prep = .rescaled ∧ c.chosen = some order ∧
      c.ests.length * (es.length * (c.ns.length * c.seeds.length)) = runs ∧ ∃ e ∈ estIds c, ¬ IsTrained c e := by
    rcases hc with ⟨rfl, hp, rfl⟩ | ⟨rfl, hp, rfl⟩
    · obtain ⟨es, h1, h2⟩ := covers_of_found (c := qualifiers order) rfl qualifierIds_found hp
      exact ⟨es, h1, s4, rfl, rfl, by rw [h2]; rfl, hu _ (.tail _ (.tail _ (.tail _ (.head _))))⟩
    · obtain ⟨es, h1, h2⟩ := covers_of_found (c := ksgSetup order) rfl ksgIds_found hp
      exact ⟨es, h1, s5, rfl, rfl, by rw [h2]; rfl, hu _ (.tail _ (.tail _ (.tail _ (.tail _ (.head _)))))⟩
  obtain ⟨all, ts, h1, h2, h3, h4, h5, -⟩ := tasks_ready hR hN other L num params hcov
  rw [hprep] at h3 h4
  have hcov' := hcov
  rw [Covers, hch] at hcov'
  refine ⟨all, ts, es, h1, h2, h3, hcov'.1, hcov'.2.2, by rw [rows_length, List.length_map, hlen], ?_⟩
  obtain ⟨t, e1, e2, -⟩ := estimates_figure_made (run := run) hs h4 hun
  refine ⟨t, e1, e2.trans ?_⟩
  rw [List.map_map]
  rfl

/-- **C91** The workflow `benchmark_neural_arch`: 480 runs.  The figure of the failures can be made whatever the runs gave; the
figure of the estimates can be made exactly if on each task some run did not give a negative number. -/
theorem arch_workflow_partial (hR : IdealRandom R κ) (hN : IdealStudent N μ) (other : Call RegF → Except Err (Built Key State))
    (L : Lib) (num : ℕ → V) (params : List Char → List (String × V)) (order : List (List Char)) (hp : order.Perm ksgIds)
    (run : String → String → ℕ → ℤ → Option ℝ) :
    ∃ all ts, ∃ es : List Entry, Registry.benchmarkTasks R N other = .ok all ∧ tasksOf L num params all (neuralArch order) = .ok ts ∧
      ts.mapM infoOf = .ok (es.map (wanted .rescaled)) ∧ es.map (fun e => e.call.id regFormat) = order ∧
      (∀ e ∈ es, e ∈ Registry.entries) ∧ (rows (neuralArch order) (es.map (wanted .rescaled)) run).length = 480 ∧
      (∃ t, figureFailures (neuralArch order) (es.map (wanted .rescaled)) run = .ok t ∧
        t.map Prod.fst = (es.map fun e => String.ofList e.name) ∧ ∀ r ∈ t, r.2.map Prod.fst =
          ["MINE D", "MINE L", "MINE M", "MINE S", "InfoNCE D", "InfoNCE L", "InfoNCE M", "InfoNCE S"]) ∧
      ((∃ t, figureEstimates (neuralArch order) (es.map (wanted .rescaled)) run = .ok t) ↔
        ∀ i ∈ order, ∃ e ∈ archEsts, ∃ s ∈ upTo 5, ∀ v < 0, run (String.ofList e.1) (String.ofList i) 10000 s ≠ some v) := by
  classical
  obtain ⟨-, -, -, -, -, hs⟩ := workflows_sound order
  obtain ⟨es, hcov, hlen⟩ := covers_of_found (c := neuralArch order) rfl ksgIds_found hp
  obtain ⟨all, ts, h1, h2, h3, h4, h5, -⟩ := tasks_ready hR hN other L num params hcov
  have hcov' : es.map (fun e => e.call.id regFormat) = order ∧ es.Nodup ∧ ∀ e ∈ es, e ∈ Registry.entries := hcov
  have htr := arch_trained order
  have hex : ∃ e ∈ estIds (neuralArch order), IsTrained (neuralArch order) e :=
    ⟨_, List.mem_cons_self, htr _ List.mem_cons_self⟩
  refine ⟨all, ts, es, h1, h2, h3, hcov'.1, hcov'.2.2, ?_, ?_, ?_⟩
  · rw [rows_length, List.length_map, hlen]
    rfl
  · refine ⟨_, failures_figure (run := run) hs h4 hex, by simp [List.map_map, Function.comp_def, wanted, Prep.heading, neuralArch], ?_⟩
    intro r hr
    obtain ⟨t, -, rfl⟩ := List.mem_map.1 hr
    dsimp only
    rw [List.map_map, List.filter_eq_self.2 fun e he => decide_eq_true (htr e he), estIds, List.map_map]
    have e1 : ∀ x ∈ archEsts, ((Prod.fst ∘ fun e => (shownName (neuralArch order) e,
        some (List.countP (fun s => decide (Failed (neuralArch order) run e t.id 10000 s)) (neuralArch order).seeds))) ∘
          fun e : List Char × Kind => String.ofList e.1) x = String.ofList ((label (neuralArch []) x.1).getD []) := by
      intro x _
      simp only [Function.comp_apply, shownName, nameOf_label]
      show ((label (neuralArch []) x.1).map String.ofList).getD "" = _
      cases label (neuralArch []) x.1 <;> rfl
    show archEsts.map _ = _
    rw [List.map_congr_left e1]
    have e2 : (archEsts.map fun x => (label (neuralArch []) x.1).getD [])
        = [['M', 'I', 'N', 'E', ' ', 'D'], ['M', 'I', 'N', 'E', ' ', 'L'], ['M', 'I', 'N', 'E', ' ', 'M'],
          ['M', 'I', 'N', 'E', ' ', 'S'], ['I', 'n', 'f', 'o', 'N', 'C', 'E', ' ', 'D'],
          ['I', 'n', 'f', 'o', 'N', 'C', 'E', ' ', 'L'], ['I', 'n', 'f', 'o', 'N', 'C', 'E', ' ', 'M'],
          ['I', 'n', 'f', 'o', 'N', 'C', 'E', ' ', 'S']] := by decide +kernel
    have e3 := congrArg (List.map String.ofList) e2
    rw [List.map_map] at e3
    exact e3
  · have h4' : ((es.map (wanted .rescaled)).map TaskInfo.id).Nodup := h4
    rw [estimates_figure_iff (run := run) hs h4' htr, ← hcov'.1]
    simp only [List.forall_mem_map]
    refine forall₂_congr fun e _ => ?_
    constructor
    · rintro ⟨k, hk, h⟩
      obtain ⟨x, hx, rfl⟩ := List.mem_map.1 hk
      exact ⟨x, hx, h⟩
    · rintro ⟨x, hx, h⟩
      exact ⟨_, List.mem_map.2 ⟨x, hx, rfl⟩, h⟩

/-- **C91**, the exception: if all runs of `benchmark_neural_arch` on a task give negative numbers, the figure of the estimates
cannot be made. -/
theorem arch_workflow_fails (es : List Entry) (order : List (List Char)) (hcov : Covers (neuralArch order) es) (hne : es ≠ []) :
    figureEstimates (neuralArch order) (es.map (wanted .rescaled)) (fun _ _ _ _ => some (-1)) = .error .valueError := by
  obtain ⟨hes, hnd⟩ := covers_mem hcov
  obtain ⟨e, he⟩ := List.exists_mem_of_ne_nil _ hne
  refine estimates_figure_missing (workflows_sound order).2.2.2.2.2 (wanted .rescaled e) (List.mem_map.2 ⟨e, he, rfl⟩)
    (wanted_nodup .rescaled hes hnd) fun k hk => ?_
  rw [usable_nil_iff _ _ _ (arch_trained order k hk)]
  exact fun s _ => ⟨-1, by norm_num, rfl⟩

/-! ### Keys of estimators -/

/-- **C91**, an exception: the key `R-KSG-I-10` stands for an estimator with five neighbours in the workflows with all tasks, and with
ten neighbours in two others; `benchmark` and `benchmark_qualifiers` show both under the name "KSG I (R)". -/
theorem key_ambiguous (o : List (List Char)) : ∃ k, (k, Kind.rKsg 1 5) ∈ benchmark.ests ∧ (k, Kind.rKsg 1 10) ∈ (qualifiers o).ests ∧
    (k, Kind.rKsg 1 10) ∈ (ksgSetup o).ests ∧ nameOf benchmark (String.ofList k) = some "KSG I (R)" ∧
    nameOf (qualifiers o) (String.ofList k) = some "KSG I (R)" := by
  refine ⟨['R', '-', 'K', 'S', 'G', '-', 'I', '-', '1', '0'], ?_, ?_, ?_, ?_, ?_⟩
  · show _ ∈ commonEsts
    decide +kernel
  · show _ ∈ (qualifiers []).ests
    decide +kernel
  · show _ ∈ (ksgSetup []).ests
    decide +kernel
  · rw [nameOf_label]; rfl
  · rw [nameOf_label]; rfl

/-- **C91** Every other key stands for the same estimator in all workflows. -/
theorem keys_agree_partial (o o' : List (List Char)) (k : List Char) (a b : Kind)
    (hk : k ≠ ['R', '-', 'K', 'S', 'G', '-', 'I', '-', '1', '0'])
    (ha : ∃ c ∈ [benchmark, gaussianise, uniformise, qualifiers o, ksgSetup o, neuralArch o], (k, a) ∈ c.ests)
    (hb : ∃ c ∈ [benchmark, gaussianise, uniformise, qualifiers o', ksgSetup o', neuralArch o'], (k, b) ∈ c.ests) : a = b := by
  have h : ∀ x ∈ commonEsts ++ (qualifiers []).ests ++ (ksgSetup []).ests ++ archEsts,
      ∀ y ∈ commonEsts ++ (qualifiers []).ests ++ (ksgSetup []).ests ++ archEsts,
      x.1 = y.1 → x.1 ≠ ['R', '-', 'K', 'S', 'G', '-', 'I', '-', '1', '0'] → x.2 = y.2 := by decide +kernel
  have hin : ∀ (o : List (List Char)) (k : List Char) (a : Kind),
      (∃ c ∈ [benchmark, gaussianise, uniformise, qualifiers o, ksgSetup o, neuralArch o], (k, a) ∈ c.ests) →
      (k, a) ∈ commonEsts ++ (qualifiers []).ests ++ (ksgSetup []).ests ++ archEsts := by
    rintro o k a ⟨c, hc, hm⟩
    simp only [List.mem_cons, List.not_mem_nil, or_false] at hc
    simp only [List.mem_append]
    rcases hc with rfl | rfl | rfl | rfl | rfl | rfl
    · exact .inl (.inl (.inl hm))
    · exact .inl (.inl (.inl hm))
    · exact .inl (.inl (.inl hm))
    · exact .inl (.inl (.inr hm))
    · exact .inl (.inr hm)
    · exact .inr hm
  exact h _ (hin o k a ha) _ (hin o' k b hb) rfl hk

/-! ### Showing the tasks -/

theorem labels_nodup (l : Char) (d : ℕ) : (labels l d).Nodup := by
  refine (List.nodup_map_iff_inj_on List.nodup_range).2 fun i _ j _ h => ?_
  have h1 : TaskIds.nat (i + 1) ++ ['$'] = TaskIds.nat (j + 1) ++ ['$'] := by
    simpa using h
  have h2 := List.append_cancel_right h1
  have := congrArg Workflow.digitsVal h2
  rw [TaskIds.nat, TaskIds.nat, Workflow.digitsVal_toDigits, Workflow.digitsVal_toDigits, Option.some.injEq] at this
  omega

theorem labels_disjoint (d e : ℕ) : ∀ l ∈ labels 'X' d, l ∉ labels 'Y' e := by
  intro l hl hl'
  obtain ⟨i, -, rfl⟩ := List.mem_map.1 hl
  obtain ⟨j, -, h⟩ := List.mem_map.1 hl'
  simp at h

theorem rowsOf_shape {n d : ℕ} (f : Fin n → Fin d → ℝ) : (rowsOf f).length = n ∧ ∀ r ∈ rowsOf f, r.length = d := by
  refine ⟨by simp [rowsOf], fun r hr => ?_⟩
  simp only [rowsOf, List.mem_ofFn] at hr
  obtain ⟨i, rfl⟩ := hr
  simp

theorem described_sample {e : Entry} {t : TaskObj Key State} (hd : Described R κ N μ e t) :
    ∃ x y, t.sampler.sample 2000 0 = .ok (x, y) ∧ x.length = 2000 ∧ y.length = 2000 ∧ (∀ r ∈ x, r.length = (factOf e).1) ∧
      ∀ r ∈ y, r.length = (factOf e).2.1 := by
  obtain ⟨-, -, d1, d2, -, h⟩ := hd
  by_cases hb : e.call = .bimodal .f0_75
  · rw [if_pos hb] at h
    obtain ⟨s, hs, hk, Q, -, hl, -⟩ := h
    obtain ⟨draw, -, e1, -⟩ := hl 2000
    rw [hs]
    have hf : (factOf e).1 = 1 ∧ (factOf e).2.1 = 1 := by simp [factOf, hb]
    rw [hf.1, hf.2]
    exact ⟨_, _, (hk 2000 0).trans (e1 _), (rowsOf_shape _).1, (rowsOf_shape _).1, (rowsOf_shape _).2, (rowsOf_shape _).2⟩
  · rw [if_neg hb] at h
    obtain ⟨h1, h2⟩ := honest_dims h
    rw [d1] at h1
    rw [d2] at h2
    rw [Except.ok.inj h1, Except.ok.inj h2]
    exact honest_sample h 2000 (by norm_num) 0 le_rfl (by norm_num)

/-- **C91** The figures showing the tasks: seventeen files, with different names, each named after a task of the benchmark.  It has
the name of the task as title and shows 2000 samples, with one column for each coordinate of X followed by one for each coordinate
of Y. -/
theorem tasks_shown (hR : IdealRandom R κ) (hN : IdealStudent N μ) (other : Call RegF → Except Err (Built Key State)) :
    ∃ all out, Registry.benchmarkTasks R N other = .ok all ∧ visualise all = .ok out ∧ out.length = 17 ∧
      (out.map Prod.fst).Nodup ∧ ∀ f ∈ out, ∃ e ∈ Registry.entries, ∃ t x y, (e.call.id regFormat, t) ∈ all ∧
        f.1 = e.call.id regFormat ++ ['.', 'p', 'd', 'f'] ∧ f.2.1 = e.name ∧ t.sampler.sample 2000 0 = .ok (x, y) ∧
        f.2.2.1 = labels 'X' (factOf e).1 ++ labels 'Y' (factOf e).2.1 ∧ f.2.2.1.Nodup ∧
        x.length = 2000 ∧ y.length = 2000 ∧ f.2.2.2 = List.zipWith (· ++ ·) x y ∧
        ∀ row ∈ f.2.2.2, row.length = f.2.2.1.length := by
  obtain ⟨tasks, h1, h2, h3⟩ := all_tasks hR hN other
  obtain ⟨es, hcov, hlen⟩ := covers_of_found (c := { benchmark with chosen := some shownIds }) rfl shownIds_found (.refl _)
  obtain ⟨picked, h4, h5⟩ := chosen_ok hcov tasks h2 h3
  have hcov' : es.map (fun e => e.call.id regFormat) = shownIds ∧ es.Nodup ∧ ∀ e ∈ es, e ∈ Registry.entries := hcov
  have hkeys : (picked.map Prod.fst).Nodup := by
    have : picked.map Prod.fst = es.map fun e => e.call.id regFormat :=
      forall2_map (h5.imp fun _ _ h => h.2.1.trans h.2.2.1)
    rw [this, hcov'.1]
    exact shownIds_found.1
  have hfind : ∀ e ∈ es, ∃ t, (e.call.id regFormat, t) ∈ picked ∧ (e.call.id regFormat, t) ∈ (tasks.map fun t => (t.id, t)) ∧
      Described R κ N μ e t := by
    intro e he
    obtain ⟨⟨k, t⟩, hkt, hin, hk, hd⟩ := forall2_left h5.flip e he
    obtain rfl : k = e.call.id regFormat := hk.trans hd.1
    exact ⟨t, hkt, hin, hd⟩
  obtain ⟨out, h6, h7⟩ := Registry.mapM_forall2 (E := Err)
    (Q := fun (e : Entry) (f : List Char × List Char × List (List Char) × Arr) => ∃ t x y,
        (e.call.id regFormat, t) ∈ (tasks.map fun t => (t.id, t)) ∧
        f.1 = e.call.id regFormat ++ ['.', 'p', 'd', 'f'] ∧ f.2.1 = e.name ∧ t.sampler.sample 2000 0 = .ok (x, y) ∧
        f.2.2.1 = labels 'X' (factOf e).1 ++ labels 'Y' (factOf e).2.1 ∧ f.2.2.1.Nodup ∧
        x.length = 2000 ∧ y.length = 2000 ∧ f.2.2.2 = List.zipWith (· ++ ·) x y ∧
        ∀ row ∈ f.2.2.2, row.length = f.2.2.1.length)
    (f := (fun i => match picked.lookup i with
      | some t => (pairFrame t).map fun f => (i ++ ['.', 'p', 'd', 'f'], f)
      | none => .error .keyError) ∘ fun e : Entry => e.call.id regFormat) es (fun e he => by
    obtain ⟨t, hin, hin', hd⟩ := hfind e he
    obtain ⟨x, y, hs, hx, hy, hx', hy'⟩ := described_sample hd
    have hlab : ∀ (l : Char) (d : ℕ), (labels l d).length = d := fun l d => by simp [labels]
    have hfx : frame x (labels 'X' (factOf e).1) = .ok (labels 'X' (factOf e).1, x) := by
      rw [frame, if_pos]
      rwa [hlab]
    have hfy : frame y (labels 'Y' (factOf e).2.1) = .ok (labels 'Y' (factOf e).2.1, y) := by
      rw [frame, if_pos]
      rwa [hlab]
    have hj : joinFrames (labels 'X' (factOf e).1, x) (labels 'Y' (factOf e).2.1, y)
        = .ok (labels 'X' (factOf e).1 ++ labels 'Y' (factOf e).2.1, List.zipWith (· ++ ·) x y) := by
      rw [joinFrames, if_neg, if_pos]
      · exact (hx.trans hy.symm).le
      · rintro ⟨l, h, h'⟩
        exact labels_disjoint _ _ l h h'
    have hp : pairFrame t = .ok (t.name, labels 'X' (factOf e).1 ++ labels 'Y' (factOf e).2.1, List.zipWith (· ++ ·) x y) := by
      simp only [pairFrame, hs, hd.2.2.1, hd.2.2.2.1, bind, Except.bind, hfx, hfy, hj]
    refine ⟨(e.call.id regFormat ++ ['.', 'p', 'd', 'f'], e.name, _, _), ?_, t, x, y, hin', rfl, rfl, hs, rfl, ?_, hx, hy, rfl, ?_⟩
    · rw [Function.comp_apply, lookup_of_mem hkeys hin]
      simp only [hp, hd.2.1]
      rfl
    · refine List.nodup_append.2 ⟨labels_nodup _ _, labels_nodup _ _, ?_⟩
      rintro l h l' h' rfl
      exact labels_disjoint _ _ l h h'
    · intro row hrow
      obtain ⟨i, hi, rfl⟩ := List.getElem_of_mem hrow
      rw [List.getElem_zipWith, List.length_append, List.length_append, hlab, hlab,
        hx' _ (List.getElem_mem _), hy' _ (List.getElem_mem _)])
  refine ⟨_, out, h1, ?_, ?_, ?_, ?_⟩
  · have h4' : choose (tasks.map fun t => (t.id, t)) (some shownIds) = .ok picked := h4
    simp only [visualise, h4', bind, Except.bind]
    rw [← hcov'.1, List.mapM_map]
    exact h6
  · rw [← h7.length_eq, hlen]
    rfl
  · have : out.map Prod.fst = es.map fun e => e.call.id regFormat ++ ['.', 'p', 'd', 'f'] :=
      forall2_map (h7.imp fun _ _ h => by obtain ⟨t, x, y, _, h, _⟩ := h; exact h)
    rw [this]
    have h8 := shownIds_found.1
    rw [← hcov'.1] at h8
    have h9 := h8.map (f := fun l => l ++ ['.', 'p', 'd', 'f']) fun a b h => List.append_cancel_right h
    rw [List.map_map] at h9
    exact h9
  · intro f hf
    obtain ⟨e, he, h⟩ := forall2_left h7 f hf
    exact ⟨e, hcov'.2.2 e he, h⟩

/-! ### Examples -/

example (run : String → String → ℕ → ℤ → Option ℝ) : ∃ all ts tasks,
    Registry.benchmarkTasks tree table (fun _ => .error .valueError) = .ok all ∧
    tasksOf exampleLib (fun _ => ()) (fun _ => []) all uniformise = .ok ts ∧ ts.mapM infoOf = .ok tasks ∧ tasks.length = 40 ∧
    ∃ t, figureSamples uniformise tasks run = .ok t := by
  obtain ⟨all, ts, tasks, h1, h2, h3, h4, -, -, -, ⟨t, h5, -⟩, -⟩ := full_workflows tree_ideal table_ideal
    (fun _ => .error .valueError) exampleLib (fun _ => ()) (fun _ => []) uniformise .uniformised (.tail _ (.tail _ (.head _))) run
  exact ⟨all, ts, tasks, h1, h2, h3, by rw [h4, List.length_map, entries_length], t, h5⟩

example (run : String → String → ℕ → ℤ → Option ℝ) : ∃ all ts,
    Registry.benchmarkTasks tree table (fun _ => .error .valueError) = .ok all ∧
    tasksOf exampleLib (fun _ => ()) (fun _ => []) all (ksgSetup ksgIds.reverse) = .ok ts := by
  obtain ⟨all, ts, es, h1, h2, -⟩ := chosen_workflows tree_ideal table_ideal (fun _ => .error .valueError) exampleLib (fun _ => ())
    (fun _ => []) _ _ _ (.inr ⟨rfl, List.reverse_perm _, rfl⟩) run
  exact ⟨all, ts, h1, h2⟩

/-- There is an order for which the workflow `benchmark_neural_arch` can fail. -/
example : ∃ es, Covers (neuralArch ksgIds) es ∧
    figureEstimates (neuralArch ksgIds) (es.map (wanted .rescaled)) (fun _ _ _ _ => some (-1)) = .error .valueError := by
  obtain ⟨es, h1, h2⟩ := covers_of_found (c := neuralArch ksgIds) rfl ksgIds_found (.refl _)
  refine ⟨es, h1, arch_workflow_fails es ksgIds h1 ?_⟩
  rw [← List.length_pos_iff_ne_nil, h2]
  decide

example : ∃ all out, Registry.benchmarkTasks tree table (fun _ => .error .valueError) = .ok all ∧ visualise all = .ok out ∧
    out.length = 17 := by
  obtain ⟨all, out, h1, h2, h3, -⟩ := tasks_shown tree_ideal table_ideal (fun _ => .error .valueError)
  exact ⟨all, out, h1, h2, h3⟩

/-- Two estimators, one of them with a trained critic, two numbers of samples and two seeds. -/
def smallSetup : Setup where
  ests := [(['M', 'I', 'N', 'E'], .mine [4]), (['C', 'C', 'A'], .cca)]
  names := []
  chosen := none
  prep := .rescaled
  ns := [100, 2000]
  seeds := [0, 1]

theorem smallSetup_sound : Sound smallSetup 2000 := sound_of (by decide +kernel) (by decide +kernel) (by decide +kernel)
  (by decide +kernel) (by decide +kernel)

/-- The runs of MINE give 1 and 1/20, those of CCA 1 and NaN. -/
noncomputable def smallRun (e : String) (_ : String) (_ : ℕ) (s : ℤ) : Option ℝ :=
  if s = 0 then some 1 else if e = "MINE" then some (1 / 20) else none

/-- The second run of MINE has failed, and it is counted. -/
example : Failed smallSetup smallRun "MINE" "a" 2000 1 ∧ ¬ Failed smallSetup smallRun "MINE" "a" 2000 0 ∧
    ∃ t, figureFailures smallSetup [⟨"a", "A", 1⟩] smallRun = .ok t ∧ t.map Prod.fst = ["A"] := by
  have ht : IsTrained smallSetup "MINE" := ⟨_, List.mem_cons_self, rfl, trivial⟩
  refine ⟨⟨ht, 1 / 20, by simp [smallRun], .inr ⟨0, by simp [smallSetup], 1, by simp [smallRun], by norm_num⟩⟩, ?_, ?_⟩
  · rintro ⟨-, v, hv, h⟩
    simp only [smallRun, if_true, Option.some.injEq] at hv
    subst hv
    rcases h with h | ⟨s, hs, w, hw, h⟩
    · norm_num at h
    · have : w ≤ 1 := by
        simp only [smallRun] at hw
        split_ifs at hw <;> first
          | (simp only [Option.some.injEq] at hw; subst hw; norm_num)
      linarith
  · exact ⟨_, failures_figure smallSetup_sound (by simp) ⟨"MINE", List.mem_cons_self, ht⟩, rfl⟩

/-- CCA needs 100 samples here: its estimates are good for both numbers of samples. -/
example : ∃ (cols : List String) (text : String → String → String),
    figureSamples smallSetup [⟨"a", "A", 1⟩] smallRun = .ok [("A", cols.map fun e => (shownName smallSetup e, text e "a"))] ∧
    text "CCA" "a" = "100" := by
  have hcca : ¬ IsTrained smallSetup "CCA" := by
    rintro ⟨x, hx, he, ht⟩
    simp only [smallSetup, List.mem_cons, List.not_mem_nil, or_false] at hx
    rcases hx with rfl | rfl
    · exact absurd he (by decide)
    · exact ht
  obtain ⟨cols, text, h1, -, -, h4⟩ := samples_figure (run := smallRun) (tasks := [⟨"a", "A", 1⟩]) smallSetup_sound (by simp) (by simp)
    (by simp) ⟨"CCA", List.mem_cons_of_mem _ List.mem_cons_self, hcca⟩
  refine ⟨cols, text, h1, ?_⟩
  have hc := (h4 "CCA" (List.mem_cons_of_mem _ List.mem_cons_self) ⟨"a", "A", 1⟩ (by simp)).number 100
  have hest : ∀ n, estimatesOf smallSetup smallRun "CCA" "a" n = [1] := fun n => by
    rw [estimatesOf, usable_untrained _ _ _ hcca]
    simp [smallSetup, smallRun]
  have hgood : ∀ n, GoodAt smallSetup smallRun 1 "CCA" "a" n := fun n => by
    simp only [GoodAt, hest]
    refine ⟨by simp, by simp, ?_⟩
    simp only [zero_lt_one, decide_true, List.filter_cons_of_pos, List.filter_nil, List.map_cons, List.map_nil, List.sum_cons,
      List.sum_nil, List.length_cons, List.length_nil]
    norm_num
    exact Real.log_pos (by norm_num)
  rw [hc ⟨⟨⟨by simp [smallSetup], by rw [usable_untrained _ _ _ hcca]; simp [smallSetup]⟩, fun m _ _ => hgood m⟩, ?_⟩]
  · rfl
  · rintro k ⟨⟨hk, -⟩, -⟩
    simp only [smallSetup, List.mem_cons, List.not_mem_nil, or_false] at hk
    omega

end BMI.Paper
