import Verif.Spec.PaperBenchmark

/-! Lemmas for the benchmark workflows of the paper: the rows of results.csv. -/

namespace BMI.Paper

open BMI.Registry BMI.TaskIds BMI.FigureTables
open BMI.Tables (Row average estimates)

theorem ofList_inj {a b : List Char} (h : String.ofList a = String.ofList b) : a = b := by
  have := congrArg String.toList h
  simpa using this

theorem filter_flatMap_key {A B K : Type} [DecidableEq K] (l : List A) (key : A → K) (hnd : (l.map key).Nodup) (f : A → List B)
    (kb : B → K) (hf : ∀ a ∈ l, ∀ b ∈ f a, kb b = key a) (a : A) (ha : a ∈ l) :
    (l.flatMap f).filter (fun b => kb b = key a) = f a := by
  induction l with
  | nil => cases ha
  | cons x l ih =>
    rw [List.flatMap_cons, List.filter_append]
    rw [List.map_cons, List.nodup_cons] at hnd
    have hall : ∀ (y : A) (hy : y ∈ x :: l), key y = key a → (f y).filter (fun b => kb b = key a) = f y := fun y hy h =>
      List.filter_eq_self.2 fun b hb => by rw [decide_eq_true_eq, hf y hy b hb, h]
    have hnone : ∀ (y : A) (hy : y ∈ x :: l), key y ≠ key a → (f y).filter (fun b => kb b = key a) = [] := fun y hy h =>
      List.filter_eq_nil_iff.2 fun b hb => by rw [decide_eq_true_eq, hf y hy b hb]; exact h
    rcases List.mem_cons.1 ha with rfl | ha'
    · rw [hall a List.mem_cons_self rfl]
      have : (l.flatMap f).filter (fun b => kb b = key a) = [] := by
        rw [List.filter_eq_nil_iff]
        intro b hb
        obtain ⟨y, hy, hb⟩ := List.mem_flatMap.1 hb
        rw [decide_eq_true_eq, hf y (List.mem_cons_of_mem _ hy) b hb]
        exact fun h => hnd.1 (List.mem_map.2 ⟨y, hy, h⟩)
      rw [this, List.append_nil]
    · rw [hnone x List.mem_cons_self (fun h => hnd.1 (List.mem_map.2 ⟨a, ha', h.symm⟩)), List.nil_append]
      exact ih hnd.2 (fun y hy => hf y (List.mem_cons_of_mem _ hy)) ha'

variable {c : Setup} {tasks : List TaskInfo} {run : String → String → ℕ → ℤ → Option ℝ} {N : ℕ}

theorem estIds_nodup (h : Sound c N) : (estIds c).Nodup := by
  have : estIds c = (c.ests.map Prod.fst).map String.ofList := by rw [List.map_map]; rfl
  rw [this]
  exact h.nodup.map fun a b => ofList_inj

theorem mem_rows (r : Row) : r ∈ rows c tasks run ↔ ∃ e ∈ estIds c, ∃ t ∈ tasks, ∃ n ∈ c.ns, ∃ s ∈ c.seeds,
    r = ⟨e, t.id, (n : ℕ), run e t.id n s, t.mi⟩ := by
  simp only [rows, List.mem_flatMap, List.mem_map, estIds]
  constructor
  · rintro ⟨e, he, t, ht, n, hn, s, hs, rfl⟩
    exact ⟨_, ⟨e, he, rfl⟩, t, ht, n, hn, s, hs, rfl⟩
  · rintro ⟨_, ⟨e, he, rfl⟩, t, ht, n, hn, s, hs, rfl⟩
    exact ⟨e, he, t, ht, n, hn, s, hs, rfl⟩

theorem rows_length : (rows c tasks run).length = c.ests.length * (tasks.length * (c.ns.length * c.seeds.length)) := by
  simp [rows, List.length_flatMap]

/-- The rows of one estimator, task and number of samples. -/
theorem rows_cell (h : Sound c N) (ht : (tasks.map TaskInfo.id).Nodup) (e : String) (he : e ∈ estIds c) (t : TaskInfo)
    (htt : t ∈ tasks) (n : ℕ) (hn : n ∈ c.ns) :
    ((rows c tasks run).filter fun r => r.est = e ∧ r.task = t.id ∧ r.n = (n : ℤ))
      = c.seeds.map fun s => ⟨e, t.id, n, run e t.id n s, t.mi⟩ := by
  obtain ⟨x, hx, rfl⟩ := List.mem_map.1 he
  have e1 : ((rows c tasks run).filter fun r => r.est = String.ofList x.1 ∧ r.task = t.id ∧ r.n = (n : ℤ))
      = (((rows c tasks run).filter fun r => r.est = String.ofList x.1).filter fun r => r.task = t.id).filter
        fun r => r.n = (n : ℤ) := by
    rw [List.filter_filter, List.filter_filter]
    refine List.filter_congr fun r _ => ?_
    simp only [← Bool.decide_and]
    exact decide_eq_decide.2 ⟨fun h => ⟨⟨h.2.2, h.2.1⟩, h.1⟩, fun h => ⟨h.2, h.1.2, h.1.1⟩⟩
  rw [e1]
  have hk : (c.ests.map fun e => String.ofList e.1).Nodup := estIds_nodup h
  have h1 : (rows c tasks run).filter (fun r => r.est = String.ofList x.1) = _ :=
    filter_flatMap_key c.ests (fun e => String.ofList e.1) hk _ Row.est (fun a _ b hb => by
      simp only [List.mem_flatMap, List.mem_map] at hb
      obtain ⟨t, _, n, _, s, _, rfl⟩ := hb
      rfl) x hx
  rw [h1]
  have h2 := filter_flatMap_key tasks TaskInfo.id ht
    (fun t => c.ns.flatMap fun (n : ℕ) => c.seeds.map fun s =>
      (⟨String.ofList x.1, t.id, (n : ℕ), run (String.ofList x.1) t.id n s, t.mi⟩ : Row)) Row.task (fun a _ b hb => by
      simp only [List.mem_flatMap, List.mem_map] at hb
      obtain ⟨n, _, s, _, rfl⟩ := hb
      rfl) t htt
  rw [h2]
  exact filter_flatMap_key c.ns (fun n : ℕ => (n : ℤ)) (h.sizes.map fun a b hab => by exact_mod_cast hab)
    (fun n : ℕ => c.seeds.map fun s =>
      (⟨String.ofList x.1, t.id, (n : ℕ), run (String.ofList x.1) t.id n s, t.mi⟩ : Row)) Row.n (fun a _ b hb => by
      simp only [List.mem_map] at hb
      obtain ⟨s, _, rfl⟩ := hb
      rfl) n hn

theorem trained_iff (k : Kind) : (k.isBase || k.isMine) = true ↔ k.Trained := by
  cases k <;> simp [Kind.isBase, Kind.isMine, Kind.Trained]

theorem neural_iff (e : String) : neural c e = true ↔ IsTrained c e := by
  rw [neural, List.any_eq_true]
  refine exists_congr fun x => and_congr_right fun _ => ?_
  rw [Bool.and_eq_true, decide_eq_true_eq, trained_iff]

theorem task_unique (ht : (tasks.map TaskInfo.id).Nodup) {t u : TaskInfo} (h1 : t ∈ tasks) (h2 : u ∈ tasks) (h : t.id = u.id) :
    t = u := List.inj_on_of_nodup_map ht h1 h2 h

theorem fail_iff (e : String) (he : e ∈ estIds c) (t : TaskInfo) (htt : t ∈ tasks)
    (n : ℕ) (hn : n ∈ c.ns) (s : ℤ) (hs : s ∈ c.seeds) :
    neuralFail (neural c) (rows c tasks run) ⟨e, t.id, n, run e t.id n s, t.mi⟩ = true ↔ Failed c run e t.id n s := by
  rw [neuralFail_iff, neural_iff, Failed]
  dsimp only
  refine and_congr_right fun _ => exists_congr fun v => and_congr_right fun hv => or_congr Iff.rfl ?_
  have hval : ∀ r ∈ rows c tasks run, r.est = e → r.task = t.id → r.n = n → ∀ w, r.mi = some w →
      ∃ s' ∈ c.seeds, run e t.id n s' = some w := by
    intro r hr h1 h2 h3 w hw
    obtain ⟨e', _, t', ht', n', _, s', hs', rfl⟩ := (mem_rows r).1 hr
    dsimp only at h1 h2 h3 hw
    rw [h1, h2, show n' = n by exact_mod_cast h3] at hw
    exact ⟨s', hs', hw⟩
  have hrow : ∀ s' ∈ c.seeds, (⟨e, t.id, n, run e t.id n s', t.mi⟩ : Row) ∈ rows c tasks run := fun s' hs' =>
    (mem_rows _).2 ⟨e, he, t, htt, n, hn, s', hs', rfl⟩
  constructor
  · rintro ⟨r, hr, h1, h2, h3, w, hw, -, hlt⟩
    obtain ⟨s', hs', hw'⟩ := hval r hr h1 h2 h3 w hw
    exact ⟨s', hs', w, hw', by linarith⟩
  · rintro ⟨s', hs', w, hw, hlt⟩
    have hne : c.seeds.filterMap (run e t.id n) ≠ [] :=
      List.ne_nil_of_mem (List.mem_filterMap.2 ⟨s', hs', hw⟩)
    obtain ⟨m, hm, hmax⟩ : ∃ m ∈ c.seeds.filterMap (run e t.id n), ∀ w ∈ c.seeds.filterMap (run e t.id n), w ≤ m := by
      obtain ⟨m, hm, h⟩ := (c.seeds.filterMap (run e t.id n)).toFinset.exists_max_image id
        (List.toFinset_nonempty_iff _ |>.2 hne)
      exact ⟨m, List.mem_toFinset.1 hm, fun w hw => h w (List.mem_toFinset.2 hw)⟩
    obtain ⟨s₁, hs₁, hm₁⟩ := List.mem_filterMap.1 hm
    refine ⟨_, hrow s₁ hs₁, rfl, rfl, rfl, m, hm₁, ?_, ?_⟩
    · intro r hr h1 h2 h3 w' hw'
      obtain ⟨s₂, hs₂, hw₂⟩ := hval r hr h1 h2 h3 w' hw'
      exact hmax w' (List.mem_filterMap.2 ⟨s₂, hs₂, hw₂⟩)
    · have := hmax w (List.mem_filterMap.2 ⟨s', hs', hw⟩)
      linarith

theorem rows_n_le (h : Sound c N) (r : Row) (hr : r ∈ rows c tasks run) : r.n ≤ N := by
  obtain ⟨e, _, t, _, n, hn, s, _, rfl⟩ := (mem_rows r).1 hr
  exact Int.ofNat_le.2 (h.largest.2 hn)

/-- The rows with the largest number of samples. -/
theorem mem_largest_rows (h : Sound c N) (r : Row) : r ∈ largest (rows c tasks run) ↔
    ∃ e ∈ estIds c, ∃ t ∈ tasks, ∃ s ∈ c.seeds, r = ⟨e, t.id, N, run e t.id N s, t.mi⟩ := by
  rw [mem_largest]
  constructor
  · rintro ⟨hr, hmax⟩
    obtain ⟨e, he, t, ht, n, hn, s, hs, rfl⟩ := (mem_rows r).1 hr
    have h1 := hmax _ ((mem_rows _).2 ⟨e, he, t, ht, N, h.largest.1, s, hs, rfl⟩)
    have h2 := h.largest.2 hn
    have h1 : N ≤ n := Int.ofNat_le.1 h1
    obtain rfl : n = N := le_antisymm h2 h1
    exact ⟨e, he, t, ht, s, hs, rfl⟩
  · rintro ⟨e, he, t, ht, s, hs, rfl⟩
    exact ⟨(mem_rows _).2 ⟨e, he, t, ht, N, h.largest.1, s, hs, rfl⟩, rows_n_le h⟩

open Classical in
theorem mem_shown_rows (h : Sound c N) (r : Row) : r ∈ shown (neural c) (rows c tasks run) ↔
    ∃ e ∈ estIds c, ∃ t ∈ tasks, ∃ s ∈ usable c run e t.id N, r = ⟨e, t.id, N, run e t.id N s, t.mi⟩ := by
  rw [mem_shown, ← mem_largest, mem_largest_rows h]
  constructor
  · rintro ⟨⟨e, he, t, ht, s, hs, rfl⟩, hf⟩
    refine ⟨e, he, t, ht, s, List.mem_filter.2 ⟨hs, ?_⟩, rfl⟩
    rw [decide_eq_true_eq, ← fail_iff e he t ht N h.largest.1 s hs, hf]
    simp
  · rintro ⟨e, he, t, ht, s, hs, rfl⟩
    obtain ⟨hs, hf⟩ := List.mem_filter.1 hs
    rw [decide_eq_true_eq] at hf
    refine ⟨⟨e, he, t, ht, s, hs, rfl⟩, ?_⟩
    rw [Bool.eq_false_iff]
    exact fun hh => hf ((fail_iff e he t ht N h.largest.1 s hs).1 hh)

theorem filter_largest (h : Sound c N) (p : Row → Bool) (hp : ∀ r ∈ rows c tasks run, p r = true → r.n = N) :
    (largest (rows c tasks run)).filter p = (rows c tasks run).filter p := by
  rw [largest, List.filter_filter]
  refine List.filter_congr fun r hr => ?_
  cases hpr : p r with
  | false => rfl
  | true =>
    have : r ∈ largest (rows c tasks run) := by
      rw [mem_largest]
      exact ⟨hr, fun s hs => (hp r hr hpr).symm ▸ rows_n_le h s hs⟩
    rw [largest, List.mem_filter] at this
    simpa using this.2

theorem largest_cell (h : Sound c N) (ht : (tasks.map TaskInfo.id).Nodup) (e : String) (he : e ∈ estIds c) (t : TaskInfo)
    (htt : t ∈ tasks) : ((largest (rows c tasks run)).filter fun r => r.est = e ∧ r.task = t.id)
      = c.seeds.map fun s => ⟨e, t.id, N, run e t.id N s, t.mi⟩ := by
  rw [← rows_cell h ht e he t htt N h.largest.1,
    ← filter_largest h (fun r => r.est = e ∧ r.task = t.id ∧ r.n = (N : ℤ)) (fun r _ hr => (of_decide_eq_true hr).2.2)]
  refine List.filter_congr fun r hr => decide_eq_decide.2 ⟨fun hh => ⟨hh.1, hh.2, ?_⟩, fun hh => ⟨hh.1, hh.2.1⟩⟩
  obtain ⟨_, _, _, _, _, _, rfl⟩ := (mem_largest_rows h r).1 hr
  rfl

open Classical in
theorem shown_cell (h : Sound c N) (ht : (tasks.map TaskInfo.id).Nodup) (e : String) (he : e ∈ estIds c) (t : TaskInfo)
    (htt : t ∈ tasks) : estimates (shown (neural c) (rows c tasks run)) e t.id = estimatesOf c run e t.id N := by
  rw [estimates, shown, List.filter_filter]
  have e1 : ((largest (rows c tasks run)).filter fun r =>
      decide (r.est = e ∧ r.task = t.id) && !neuralFail (neural c) (rows c tasks run) r)
      = ((largest (rows c tasks run)).filter fun r => r.est = e ∧ r.task = t.id).filter
        fun r => !neuralFail (neural c) (rows c tasks run) r := by
    rw [List.filter_filter]
    exact List.filter_congr fun r _ => Bool.and_comm _ _
  rw [e1, largest_cell h ht e he t htt, List.filter_map, List.filterMap_map, estimatesOf, usable]
  have e2 : c.seeds.filter ((fun r => !neuralFail (neural c) (rows c tasks run) r) ∘
      fun s => (⟨e, t.id, N, run e t.id N s, t.mi⟩ : Row)) = c.seeds.filter fun s => ¬ Failed c run e t.id N s := by
    refine List.filter_congr fun s hs => ?_
    rw [Bool.eq_iff_iff, Function.comp_apply, Bool.not_eq_true', Bool.eq_false_iff, ne_eq,
      fail_iff e he t htt N h.largest.1 s hs, decide_eq_true_eq]
  rw [e2]
  rfl

open Classical in
/-- The runs kept, of one estimator and task. -/
theorem runs_atN (h : Sound c N) (ht : (tasks.map TaskInfo.id).Nodup) (e : String) (he : e ∈ estIds c) (t : TaskInfo)
    (htt : t ∈ tasks) (n : ℕ) (hn : n ∈ c.ns) : atN (runs (neural c) (rows c tasks run) e t.id) n
      = (usable c run e t.id n).map fun s => ⟨e, t.id, n, run e t.id n s, t.mi⟩ := by
  rw [atN, runs, kept, List.filter_filter, List.filter_filter]
  have e1 : ((rows c tasks run).filter fun r => (decide (r.n = (n : ℤ)) && (decide (r.est = e ∧ r.task = t.id) &&
      !neuralFail (neural c) (rows c tasks run) r)))
      = ((rows c tasks run).filter fun r => r.est = e ∧ r.task = t.id ∧ r.n = (n : ℤ)).filter
        fun r => !neuralFail (neural c) (rows c tasks run) r := by
    rw [List.filter_filter]
    refine List.filter_congr fun r _ => ?_
    rw [Bool.eq_iff_iff]
    simp only [Bool.and_eq_true, decide_eq_true_eq]
    tauto
  simp only [Bool.and_assoc] at e1 ⊢
  rw [e1, rows_cell h ht e he t htt n hn, List.filter_map, usable]
  congr 1
  refine List.filter_congr fun s hs => ?_
  rw [Bool.eq_iff_iff, Function.comp_apply, Bool.not_eq_true', Bool.eq_false_iff, ne_eq,
    fail_iff e he t htt n hn s hs, decide_eq_true_eq]

open Classical in
theorem mem_runs (e : String) (he : e ∈ estIds c) (t : TaskInfo) (ht : (tasks.map TaskInfo.id).Nodup) (htt : t ∈ tasks) (r : Row) :
    r ∈ runs (neural c) (rows c tasks run) e t.id ↔
      ∃ n ∈ c.ns, ∃ s ∈ usable c run e t.id n, r = ⟨e, t.id, (n : ℕ), run e t.id n s, t.mi⟩ := by
  rw [runs, List.mem_filter, kept, List.mem_filter, decide_eq_true_eq]
  constructor
  · rintro ⟨⟨hr, hf⟩, h1, h2⟩
    obtain ⟨e', he', t', ht', n, hn, s, hs, rfl⟩ := (mem_rows r).1 hr
    dsimp only at h1 h2
    subst h1
    obtain rfl : t' = t := task_unique ht ht' htt h2
    refine ⟨n, hn, s, List.mem_filter.2 ⟨hs, ?_⟩, rfl⟩
    rw [Bool.not_eq_true', Bool.eq_false_iff, ne_eq, fail_iff e' he t' htt n hn s hs] at hf
    exact decide_eq_true hf
  · rintro ⟨n, hn, s, hs, rfl⟩
    obtain ⟨hs, hf⟩ := List.mem_filter.1 hs
    refine ⟨⟨(mem_rows _).2 ⟨e, he, t, htt, n, hn, s, hs, rfl⟩, ?_⟩, rfl, rfl⟩
    rw [Bool.not_eq_true', Bool.eq_false_iff, ne_eq, fail_iff e he t htt n hn s hs]
    exact of_decide_eq_true hf

end BMI.Paper
