import Verif.Lemmas.PaperBenchmark

/-! C91: what the benchmark workflows of the paper run and show. -/

namespace BMI.Paper

open BMI.Registry BMI.TaskIds BMI.FigureTables
open BMI.Tables (Row average estimates)

variable {c : Setup} {tasks : List TaskInfo} {run : String → String → ℕ → ℤ → Option ℝ} {N : ℕ}

theorem named_rows (h : Sound c N) : ∀ e ∈ estIds c, (∃ r ∈ rows c tasks run, r.est = e) → nameOf c e = some (shownName c e) := by
  intro e he _
  obtain ⟨x, hx, rfl⟩ := List.mem_map.1 he
  obtain ⟨n, hn⟩ := Option.isSome_iff_exists.1 (h.named x hx)
  rw [shownName, hn]
  rfl

open Classical in
/-- **C91** The figure of the estimates, if each task has a run that has not failed: one row per task, in order and under its name,
with the average of the estimates of the runs with the most samples that have not failed, for each estimator which has such runs,
followed by the mutual information of this task. -/
theorem estimates_figure (h : Sound c N) (ht : (tasks.map TaskInfo.id).Nodup)
    (hshow : ∀ t ∈ tasks, ∃ e ∈ estIds c, usable c run e t.id N ≠ []) :
    figureEstimates c tasks run = .ok (tasks.map fun t =>
      (t.name, (((estIds c).filter fun e => ∃ u ∈ tasks, usable c run e u.id N ≠ []).map fun e =>
        (shownName c e, average (estimatesOf c run e t.id N))) ++ [("True MI", some t.mi)])) := by
  have hs : ∀ t ∈ tasks, ∃ r ∈ shown (neural c) (rows c tasks run), r.task = t.id := by
    intro t htt
    obtain ⟨e, he, hu⟩ := hshow t htt
    obtain ⟨s, hs⟩ := List.exists_mem_of_ne_nil _ hu
    exact ⟨_, (mem_shown_rows h _).2 ⟨e, he, t, htt, s, hs, rfl⟩, rfl⟩
  rw [figureEstimates, miTable_spec _ _ _ _ _ (shownName c) (named_rows h) hs]
  congr 1
  refine List.map_congr_left fun t htt => Prod.ext rfl ?_
  dsimp only
  have hf : ((estIds c).filter fun e => ∃ r ∈ shown (neural c) (rows c tasks run), r.est = e)
      = (estIds c).filter fun e => ∃ u ∈ tasks, usable c run e u.id N ≠ [] := by
    refine List.filter_congr fun e he => decide_eq_decide.2 ⟨?_, ?_⟩
    · rintro ⟨r, hr, rfl⟩
      obtain ⟨e, _, u, hu, s, hs, rfl⟩ := (mem_shown_rows h r).1 hr
      exact ⟨u, hu, List.ne_nil_of_mem hs⟩
    · rintro ⟨u, hu, hne⟩
      obtain ⟨s, hs⟩ := List.exists_mem_of_ne_nil _ hne
      exact ⟨_, (mem_shown_rows h _).2 ⟨e, he, u, hu, s, hs, rfl⟩, rfl⟩
  rw [hf]
  congr 1
  refine List.map_congr_left fun e he => Prod.ext rfl ?_
  dsimp only
  rw [shown_cell h ht e (List.mem_of_mem_filter he) t htt]

/-- **C91** Otherwise the figure of the estimates cannot be made. -/
theorem estimates_figure_missing (h : Sound c N) (t : TaskInfo) (htt : t ∈ tasks) (ht : (tasks.map TaskInfo.id).Nodup)
    (hmiss : ∀ e ∈ estIds c, usable c run e t.id N = []) : figureEstimates c tasks run = .error .valueError := by
  refine miTable_missing _ _ _ _ _ (shownName c) (named_rows h) t htt ?_
  intro r hr hrt
  obtain ⟨e, he, u, hu, s, hs, rfl⟩ := (mem_shown_rows h r).1 hr
  obtain rfl : u = t := task_unique ht hu htt hrt
  rw [hmiss e he] at hs
  cases hs

/-- Runs of estimators without a trained critic do not fail. -/
theorem usable_untrained (e t : String) (n : ℕ) (he : ¬ IsTrained c e) : usable c run e t n = c.seeds := by
  classical
  rw [usable, List.filter_eq_self]
  exact fun s _ => decide_eq_true fun hf => he hf.1

/-- **C91** All runs of an estimator with a trained critic on a task have failed exactly if all of them gave negative numbers. -/
theorem usable_nil_iff (e t : String) (n : ℕ) (he : IsTrained c e) :
    usable c run e t n = [] ↔ ∀ s ∈ c.seeds, ∃ v < 0, run e t n s = some v := by
  classical
  rw [usable, List.filter_eq_nil_iff]
  constructor
  · intro h
    have hneg : ∀ s ∈ c.seeds, ∃ v, run e t n s = some v := by
      intro s hs
      have := h s hs
      rw [decide_eq_true_eq, not_not] at this
      obtain ⟨_, v, hv, _⟩ := this
      exact ⟨v, hv⟩
    rcases hl : c.seeds.filterMap (run e t n) with _ | ⟨a, l⟩
    · intro s hs
      obtain ⟨v, hv⟩ := hneg s hs
      have : v ∈ c.seeds.filterMap (run e t n) := List.mem_filterMap.2 ⟨s, hs, hv⟩
      rw [hl] at this
      cases this
    · obtain ⟨m, hm, hmax⟩ := (c.seeds.filterMap (run e t n)).toFinset.exists_max_image id
        (by rw [List.toFinset_nonempty_iff, hl]; exact List.cons_ne_nil _ _)
      obtain ⟨s₀, hs₀, hm₀⟩ := List.mem_filterMap.1 (List.mem_toFinset.1 hm)
      have h0 := h s₀ hs₀
      rw [decide_eq_true_eq, not_not] at h0
      obtain ⟨_, v, hv, hor⟩ := h0
      rw [hm₀, Option.some.injEq] at hv
      subst hv
      have hm0 : m < 0 := by
        rcases hor with h0 | ⟨s', hs', w, hw, hlt⟩
        · exact h0
        · have hle : w ≤ m := hmax w (List.mem_toFinset.2 (List.mem_filterMap.2 ⟨s', hs', hw⟩))
          linarith
      intro s hs
      obtain ⟨v, hv⟩ := hneg s hs
      have hle : v ≤ m := hmax v (List.mem_toFinset.2 (List.mem_filterMap.2 ⟨s, hs, hv⟩))
      exact ⟨v, by linarith, hv⟩
  · intro h s hs
    obtain ⟨v, hv, hr⟩ := h s hs
    rw [decide_eq_true_eq, not_not]
    exact ⟨he, v, hr, .inl hv⟩

/-- **C91** With an estimator that needs no training, the figure of the estimates can be made whatever the runs gave. -/
theorem estimates_figure_made (h : Sound c N) (ht : (tasks.map TaskInfo.id).Nodup) (hu : ∃ e ∈ estIds c, ¬ IsTrained c e) :
    ∃ table, figureEstimates c tasks run = .ok table ∧ table.map Prod.fst = tasks.map TaskInfo.name ∧
      ∀ e ∈ estIds c, ¬ IsTrained c e → ∀ row ∈ table, shownName c e ∈ row.2.map Prod.fst := by
  classical
  obtain ⟨e₀, he₀, hu₀⟩ := hu
  have hne : ∀ e, ¬ IsTrained c e → ∀ t : String, usable c run e t N ≠ [] := fun e he t => by
    rw [usable_untrained e t N he]; exact h.seeds
  refine ⟨_, estimates_figure h ht fun t _ => ⟨e₀, he₀, hne e₀ hu₀ t.id⟩, by simp [List.map_map, Function.comp_def], ?_⟩
  intro e he hue row hrow
  obtain ⟨t, htt, rfl⟩ := List.mem_map.1 hrow
  simp only [List.map_append, List.map_map, List.mem_append, List.mem_map, List.mem_filter]
  exact .inl ⟨e, ⟨he, decide_eq_true ⟨t, htt, hne e hue t.id⟩⟩, rfl⟩

/-- **C91** Without such an estimator, the figure of the estimates can be made exactly if on each task some run did not give a
negative number. -/
theorem estimates_figure_iff (h : Sound c N) (ht : (tasks.map TaskInfo.id).Nodup) (hu : ∀ e ∈ estIds c, IsTrained c e) :
    (∃ table, figureEstimates c tasks run = .ok table) ↔
      ∀ t ∈ tasks, ∃ e ∈ estIds c, ∃ s ∈ c.seeds, ∀ v < 0, run e t.id N s ≠ some v := by
  have key : ∀ t : String, (∃ e ∈ estIds c, usable c run e t N ≠ []) ↔
      ∃ e ∈ estIds c, ∃ s ∈ c.seeds, ∀ v < 0, run e t N s ≠ some v := by
    intro t
    refine exists_congr fun e => and_congr_right fun he => ?_
    rw [ne_eq, usable_nil_iff e t N (hu e he)]
    push Not
    rfl
  constructor
  · rintro ⟨table, htab⟩ t htt
    rw [← key]
    by_contra hno
    push Not at hno
    rw [estimates_figure_missing h t htt ht hno] at htab
    cases htab
  · intro hall
    exact ⟨_, estimates_figure h ht fun t htt => (key t.id).2 (hall t htt)⟩

open Classical in
/-- **C91** The figure of the failures: one row per task and one column per estimator with a trained critic, with the number of
failed runs with the most samples. -/
theorem failures_figure (h : Sound c N) (ht : (tasks.map TaskInfo.id).Nodup) (hu : ∃ e ∈ estIds c, IsTrained c e) :
    figureFailures c tasks run = .ok (tasks.map fun t =>
      (t.name, ((estIds c).filter fun e => IsTrained c e).map fun e =>
        (shownName c e, some (c.seeds.countP fun s => Failed c run e t.id N s)))) := by
  obtain ⟨s₀, hs₀⟩ := List.exists_mem_of_ne_nil _ h.seeds
  have hrow : ∀ e ∈ estIds c, ∀ t ∈ tasks, (⟨e, t.id, N, run e t.id N s₀, t.mi⟩ : Row) ∈ largest (rows c tasks run) :=
    fun e he t htt => (mem_largest_rows h _).2 ⟨e, he, t, htt, s₀, hs₀, rfl⟩
  rw [figureFailures, failsTable_spec _ _ _ _ _ (shownName c) (named_rows h)]
  congr 1
  obtain ⟨e₀, he₀, hu₀⟩ := hu
  have hrows : (tasks.filter fun t => ∃ r ∈ largest (rows c tasks run), neural c r.est = true ∧ r.task = t.id) = tasks := by
    rw [List.filter_eq_self]
    exact fun t htt => decide_eq_true ⟨_, hrow e₀ he₀ t htt, (neural_iff e₀).2 hu₀, rfl⟩
  rw [hrows]
  refine List.map_congr_left fun t htt => Prod.ext rfl ?_
  dsimp only
  have hcols : ((estIds c).filter fun e => neural c e = true ∧ ∃ r ∈ largest (rows c tasks run), r.est = e)
      = (estIds c).filter fun e => IsTrained c e :=
    List.filter_congr fun e he => decide_eq_decide.2
      ⟨fun hh => (neural_iff e).1 hh.1, fun hh => ⟨(neural_iff e).2 hh, _, hrow e he t htt, rfl⟩⟩
  rw [hcols]
  refine List.map_congr_left fun e he => Prod.ext rfl ?_
  dsimp only
  have he' := List.mem_of_mem_filter he
  rw [if_pos ⟨_, hrow e he' t htt, rfl, rfl⟩]
  congr 1
  have e1 : ((largest (rows c tasks run)).countP fun r =>
      r.est = e ∧ r.task = t.id ∧ neuralFail (neural c) (rows c tasks run) r = true)
      = ((largest (rows c tasks run)).filter fun r => r.est = e ∧ r.task = t.id).countP
        fun r => neuralFail (neural c) (rows c tasks run) r := by
    rw [List.countP_filter]
    refine List.countP_congr fun r _ => ?_
    simp only [decide_eq_true_eq, Bool.and_eq_true]
    tauto
  rw [e1, largest_cell h ht e he' t htt, List.countP_map]
  refine List.countP_congr fun s hs => ?_
  rw [Function.comp_apply, decide_eq_true_eq]
  exact fail_iff e he' t htt N h.largest.1 s hs

/-- **C91** An estimator with a trained critic has fewer failures than seeds, unless all its runs gave negative numbers. -/
theorem failures_all_iff (e t : String) (n : ℕ) (he : IsTrained c e) [DecidablePred fun s => Failed c run e t n s] :
    (c.seeds.countP fun s => Failed c run e t n s) = c.seeds.length ↔ ∀ s ∈ c.seeds, ∃ v < 0, run e t n s = some v := by
  classical
  rw [← usable_nil_iff e t n he, usable, List.filter_eq_nil_iff, List.countP_eq_length]
  refine forall₂_congr fun s _ => ?_
  simp

/-! ### Numbers of samples -/

theorem goodAt_iff (h : Sound c N) (ht : (tasks.map TaskInfo.id).Nodup) (e : String) (he : e ∈ estIds c) (t : TaskInfo)
    (htt : t ∈ tasks) (n : ℕ) (hn : n ∈ c.ns) (τ : ℝ) :
    Good τ (atN (runs (neural c) (rows c tasks run) e t.id) n) ↔ GoodAt c run τ e t.id n := by
  have hfm : (atN (runs (neural c) (rows c tasks run) e t.id) n).filterMap Row.mi = estimatesOf c run e t.id n := by
    rw [runs_atN h ht e he t htt n hn, List.filterMap_map, estimatesOf]
    rfl
  rw [Good, GoodAt, positives, hfm]
  rw [show (1.5 : ℝ) = 3 / 2 by norm_num]
  refine and_congr ?_ Iff.rfl
  rw [← hfm, List.mem_filterMap]
  push Not
  rfl

theorem sizes_runs (e : String) (he : e ∈ estIds c) (t : TaskInfo) (ht : (tasks.map TaskInfo.id).Nodup)
    (htt : t ∈ tasks) : sizes (runs (neural c) (rows c tasks run) e t.id) = (fun n : ℕ => (n : ℤ)) '' Tested c run e t.id := by
  ext z
  simp only [sizes, Set.mem_setOf_eq, Set.mem_image, Tested]
  constructor
  · rintro ⟨r, hr, rfl⟩
    obtain ⟨n, hn, s, hs, rfl⟩ := (mem_runs e he t ht htt r).1 hr
    exact ⟨n, ⟨hn, List.ne_nil_of_mem hs⟩, rfl⟩
  · rintro ⟨n, ⟨hn, hne⟩, rfl⟩
    obtain ⟨s, hs⟩ := List.exists_mem_of_ne_nil _ hne
    exact ⟨_, (mem_runs e he t ht htt _).2 ⟨n, hn, s, hs, rfl⟩, rfl⟩

theorem cell_says (h : Sound c N) (ht : (tasks.map TaskInfo.id).Nodup) (e : String) (he : e ∈ estIds c) (t : TaskInfo)
    (htt : t ∈ tasks) (τ : ℝ) (cell : Option Needed) (hs : Says τ (runs (neural c) (rows c tasks run) e t.id) cell) :
    CellSays c run τ N e t.id (annotation N (cell.getD .nan)) := by
  have hsz := sizes_runs (run := run) e he t ht htt
  have hg : ∀ n ∈ Tested c run e t.id, Good τ (atN (runs (neural c) (rows c tasks run) e t.id) n) ↔ GoodAt c run τ e t.id n :=
    fun n hn => goodAt_iff h ht e he t htt n hn.1 τ
  refine ⟨fun h0 => ?_, fun n hn => ?_, fun m hm hbad => ?_⟩
  · have : runs (neural c) (rows c tasks run) e t.id = [] := by
      rw [List.eq_nil_iff_forall_not_mem]
      intro r hr
      have : r.n ∈ sizes (runs (neural c) (rows c tasks run) e t.id) := ⟨r, hr, rfl⟩
      rw [hsz, h0] at this
      simp at this
    rw [hs.empty.2 this]
    rfl
  · have : IsNeeded (sizes (runs (neural c) (rows c tasks run) e t.id))
        (fun m => Good τ (atN (runs (neural c) (rows c tasks run) e t.id) m)) n := by
      rw [IsNeeded, hsz]
      refine ⟨⟨⟨n, hn.1.1, rfl⟩, ?_⟩, ?_⟩
      · rintro _ ⟨m, hm, rfl⟩ hle
        exact (hg m hm).2 (hn.1.2 m hm (Int.ofNat_le.1 hle))
      · rintro _ ⟨⟨k, hk, rfl⟩, hall⟩
        refine Int.ofNat_le.2 (hn.2 ⟨hk, fun m hm hle => ?_⟩)
        exact (hg m hm).1 (hall _ ⟨m, hm, rfl⟩ (Int.ofNat_le.2 hle))
    rw [(hs.num n).2 this]
    simp only [Option.getD_some, annotation]
    by_cases hlt : n < 1000
    · rw [if_pos hlt, if_pos (by exact_mod_cast hlt)]
      rfl
    · rw [if_neg hlt, if_neg (by exact_mod_cast hlt)]
      rw [show ((n : ℤ) / 1000) = ((n / 1000 : ℕ) : ℤ) by norm_cast]
      rfl
  · have : NeverReached (sizes (runs (neural c) (rows c tasks run) e t.id))
        (fun m => Good τ (atN (runs (neural c) (rows c tasks run) e t.id) m)) := by
      refine ⟨m, ?_, fun hh => hbad ((hg m hm.1).1 hh)⟩
      rw [hsz]
      refine ⟨⟨m, hm.1, rfl⟩, ?_⟩
      rintro _ ⟨k, hk, rfl⟩
      exact Int.ofNat_le.2 (hm.2 hk)
    rw [hs.inf.2 this]
    rfl

/-- **C91** The figure with the numbers of samples, for tasks with positive mutual information: with an estimator that needs no
training there is one row per task, and each cell says how many samples the estimator needs on this task. -/
theorem samples_figure (h : Sound c N) (ht : (tasks.map TaskInfo.id).Nodup) (hne : tasks ≠ [])
    (hpos : ∀ t ∈ tasks, 0 < t.mi) (hu : ∃ e ∈ estIds c, ¬ IsTrained c e) :
    ∃ (cols : List String) (text : String → String → String),
      figureSamples c tasks run = .ok (tasks.map fun t => (t.name, cols.map fun e => (shownName c e, text e t.id))) ∧
      cols.Sublist (estIds c) ∧ (∀ e ∈ estIds c, e ∈ cols ↔ ∃ t ∈ tasks, Tested c run e t.id ≠ ∅) ∧
      ∀ e ∈ estIds c, ∀ t ∈ tasks, CellSays c run t.mi N e t.id (text e t.id) := by
  classical
  set truth : String → ℝ := fun i => ((tasks.find? fun t => t.id = i).map TaskInfo.mi).getD 0 with htruth
  have htr : ∀ t ∈ tasks, truth t.id = t.mi := by
    intro t htt
    rcases hf : tasks.find? (fun u => u.id = t.id) with _ | u
    · rw [List.find?_eq_none] at hf
      exact absurd (decide_eq_true rfl) (hf t htt)
    · have h1 : u.id = t.id := by simpa using List.find?_some hf
      have h2 : u ∈ tasks := List.mem_of_find?_eq_some hf
      rw [htruth]
      dsimp only
      rw [hf, task_unique ht h2 htt h1]
      rfl
  have hrt : ∀ r ∈ rows c tasks run, r.miTrue = truth r.task ∧ 0 < r.miTrue := by
    intro r hr
    obtain ⟨e, _, t, htt, n, _, s, _, rfl⟩ := (mem_rows r).1 hr
    exact ⟨(htr t htt).symm, hpos t htt⟩
  obtain ⟨rs, cols, cell, h1, h2, h3, h4, h5, h6⟩ := samplesTable_spec (neural c) (rows c tasks run) (estIds c) tasks (nameOf c)
    (shownName c) truth (named_rows h) (fun r hr => (hrt r hr).1) (fun r hr => (hrt r hr).2)
  obtain ⟨e₀, he₀, hu₀⟩ := hu
  have hruns : ∀ e ∈ estIds c, ∀ t ∈ tasks, runs (neural c) (rows c tasks run) e t.id ≠ [] ↔ Tested c run e t.id ≠ ∅ := by
    intro e he t htt
    rw [← Set.nonempty_iff_ne_empty]
    constructor
    · intro hh
      obtain ⟨r, hr⟩ := List.exists_mem_of_ne_nil _ hh
      obtain ⟨n, hn, s, hs, -⟩ := (mem_runs e he t ht htt r).1 hr
      exact ⟨n, hn, List.ne_nil_of_mem hs⟩
    · rintro ⟨n, hn, hh⟩
      obtain ⟨s, hs⟩ := List.exists_mem_of_ne_nil _ hh
      exact List.ne_nil_of_mem ((mem_runs e he t ht htt _).2 ⟨n, hn, s, hs, rfl⟩)
  have hrs : rs = tasks := by
    refine h2.eq_of_length_le ?_
    have hsub : tasks ⊆ rs := by
      intro t htt
      refine (h4 t htt).2 ⟨e₀, (hruns e₀ he₀ t htt).2 ?_⟩
      rw [← Set.nonempty_iff_ne_empty]
      exact ⟨N, h.largest.1, by rw [usable_untrained _ _ _ hu₀]; exact h.seeds⟩
    exact (List.Nodup.of_map _ ht).subperm hsub |>.length_le
  subst hrs
  obtain ⟨t₀, ht₀⟩ := List.exists_mem_of_ne_nil _ hne
  obtain ⟨s₀, hs₀⟩ := List.exists_mem_of_ne_nil _ h.seeds
  have hmax : indexMax ((rows c rs run).map Row.n) = some (N : ℤ) := by
    rw [indexMax_spec]
    refine ⟨List.mem_map.2 ⟨_, (mem_rows _).2 ⟨e₀, he₀, t₀, ht₀, N, h.largest.1, s₀, hs₀, rfl⟩, rfl⟩, ?_⟩
    rintro _ hz
    obtain ⟨r, hr, rfl⟩ := List.mem_map.1 hz
    exact rows_n_le h r hr
  refine ⟨cols, fun e t => annotation N ((cell e t).getD .nan), ?_, h3, ?_, ?_⟩
  · simp only [figureSamples, h1, bind, Except.bind, hmax, Option.getD_some, Int.toNat_natCast, List.map_map, Function.comp_def]
  · intro e he
    rw [h5 e he]
    constructor
    · rintro ⟨t, hh⟩
      obtain ⟨r, hr⟩ := List.exists_mem_of_ne_nil _ hh
      have hr' := hr
      rw [runs, List.mem_filter, kept, List.mem_filter, decide_eq_true_eq] at hr'
      obtain ⟨e', _, u, hu, n, _, s, _, rfl⟩ := (mem_rows r).1 hr'.1.1
      obtain rfl : u.id = t := hr'.2.2
      exact ⟨u, hu, (hruns e he u hu).1 hh⟩
    · rintro ⟨t, htt, hh⟩
      exact ⟨t.id, (hruns e he t htt).2 hh⟩
  · intro e he t htt
    have := h6 e t.id
    rw [htr t htt] at this
    exact cell_says h ht e he t htt t.mi (cell e t.id) this

end BMI.Paper
