import Verif.Model.Tables
import Mathlib.Tactic.Linarith
import Mathlib.Tactic.NormNum
import Mathlib.Tactic.Positivity
import Mathlib.Data.Real.Archimedean

/-! C50: what the benchmark tables contain. -/

namespace BMI.Tables

/-! ### Specification -/

/-- The estimates of an estimator on a task that belong into a table, without NaN. -/
def estimates (rows : List Row) (e t : String) : List ℝ :=
  (rows.filter fun r => r.est = e ∧ r.task = t).filterMap Row.mi

/-- Average of a list of numbers; NaN for the empty list. -/
noncomputable def average (l : List ℝ) : Option ℝ := if l = [] then none else some (l.sum / l.length)

/-- The results with the requested number of samples. -/
def atSize (rows : List Row) (n : ℤ) : List Row := rows.filter fun r => r.n = n

/-! ### Lemmas -/

theorem mean_group (rows : List Row) (e t : String) :
    mean ((group rows (e, t)).map Row.mi) = average (estimates rows e t) := by
  have : ((group rows (e, t)).map Row.mi).filterMap id = estimates rows e t := by
    rw [List.filterMap_map, estimates, group]
    congr 1
    refine List.filter_congr fun r _ => ?_
    simp
  simp only [mean, average, this]

theorem mem_groupKeys (rows : List Row) (e t : String) :
    (e, t) ∈ groupKeys rows ↔ ∃ r ∈ rows, r.est = e ∧ r.task = t := by
  simp [groupKeys]

theorem find_entries (ks : List (String × String)) (v : String × String → Option ℝ) (e t : String) :
    ((ks.map fun k => ((k.1, k.2, v k) : Entry)).find? fun d => d.1 = e ∧ d.2.1 = t) =
      if (e, t) ∈ ks then some (e, t, v (e, t)) else none := by
  induction ks with
  | nil => simp
  | cons k ks ih =>
    rw [List.map_cons, List.find?_cons]
    by_cases h : k.1 = e ∧ k.2 = t
    · have : k = (e, t) := Prod.ext h.1 h.2
      subst this
      simp
    · have hne : (e, t) ≠ k := fun h' => h ⟨by rw [← h'], by rw [← h']⟩
      simp only [h, decide_false, Bool.false_eq_true, List.mem_cons, hne, false_or]
      exact ih

theorem keys_nodup (rows : List Row) (v : String × String → Option ℝ) :
    (((groupKeys rows).map fun k => ((k.1, k.2, v k) : Entry)).map fun e => (e.1, e.2.1)).Nodup := by
  rw [List.map_map]
  have : ((fun e : Entry => (e.1, e.2.1)) ∘ fun k : String × String => ((k.1, k.2, v k) : Entry)) = id := by
    funext k; rfl
  rw [this, List.map_id]
  exact List.nodup_dedup _

theorem trueKeys_nodup (results : List Row) : ((trueEntries results).map fun e => (e.1, e.2.1)).Nodup := by
  rw [trueEntries, List.map_map]
  exact (List.nodup_dedup _).map fun a b h => by simpa using h

/-- Rows over which the means are taken. -/
noncomputable def used (results : List Row) (convergedOnly : Bool) : List Row :=
  if convergedOnly then results.filter (converged results) else results

theorem used_subset {results : List Row} {c : Bool} {r : Row} (h : r ∈ used results c) : r ∈ results := by
  unfold used at h
  split_ifs at h
  · exact List.mem_of_mem_filter h
  · exact h

/-! ### Benchmark table -/

/-- The table exists when no estimator is called "True MI"; every cell is the average of the (non-NaN) estimates of
all results of the estimator on the task, whatever their number of samples; the column "True MI" has the `mi_true` of
the first result of the task. -/
theorem benchmarkTable_spec (results : List Row) (n : Option ℤ) (c : Bool) (hname : ∀ r ∈ results, r.est ≠ "True MI") :
    ∃ T, benchmarkTable results n c = .ok T ∧
      (∀ t e, e ≠ "True MI" → T.cell t e = average (estimates (used results c) e t)) ∧
      (∀ t, T.cell t "True MI" = (results.find? fun r => r.task = t).map Row.miTrue) ∧
      (∀ t, t ∈ T.tasks ↔ ∃ r ∈ results, r.task = t) := by
  set means : List Entry := (groupKeys (used results c)).map fun k =>
    (k.1, k.2, mean ((group (used results c) k).map Row.mi)) with hmeans
  have hnd : ((means ++ trueEntries results).map fun e => (e.1, e.2.1)).Nodup := by
    rw [List.map_append]
    refine (keys_nodup _ _).append (trueKeys_nodup results) ?_
    intro k hk hk'
    obtain ⟨e, he, rfl⟩ := List.mem_map.1 hk
    obtain ⟨⟨a, b⟩, hk2, rfl⟩ := List.mem_map.1 he
    obtain ⟨r, hr, h1, -⟩ := (mem_groupKeys _ _ _).1 hk2
    obtain ⟨e', he', h2⟩ := List.mem_map.1 hk'
    obtain ⟨t, -, rfl⟩ := List.mem_map.1 he'
    simp only [Prod.mk.injEq] at h2
    exact hname r (used_subset hr) (h1.trans h2.1.symm)
  have htab : benchmarkTable results n c = pivot (means ++ trueEntries results) := rfl
  refine ⟨_, by rw [htab, pivot, if_pos hnd], fun t e he => ?_, fun t => ?_, fun t => ?_⟩
  · simp only [List.find?_append]
    have h1 := find_entries (groupKeys (used results c)) (fun k => mean ((group (used results c) k).map Row.mi)) e t
    rw [← hmeans] at h1
    rw [h1]
    have h2 : (trueEntries results).find? (fun d => d.1 = e ∧ d.2.1 = t) = none := by
      rw [List.find?_eq_none]
      intro d hd
      obtain ⟨u, -, rfl⟩ := List.mem_map.1 hd
      simp [Ne.symm he]
    rw [h2]
    by_cases hmem : (e, t) ∈ groupKeys (used results c)
    · simp [hmem, mean_group]
    · simp only [hmem, if_false, Option.or_none, Option.bind_none]
      have : estimates (used results c) e t = [] := by
        rw [estimates, List.filterMap_eq_nil_iff]
        intro r hr
        rw [List.mem_filter] at hr
        exact absurd ((mem_groupKeys _ _ _).2 ⟨r, hr.1, by simpa using hr.2⟩) hmem
      simp [average, this]
  · simp only [List.find?_append]
    have h1 := find_entries (groupKeys (used results c)) (fun k => mean ((group (used results c) k).map Row.mi))
      "True MI" t
    rw [← hmeans] at h1
    have h2 : ("True MI", t) ∉ groupKeys (used results c) := by
      intro h
      obtain ⟨r, hr, h3, -⟩ := (mem_groupKeys _ _ _).1 h
      exact hname r (used_subset hr) h3
    rw [h1, if_neg h2, Option.none_or]
    have h3 : ∀ (ts : List String) (v : String → Option ℝ),
        ((ts.map fun u => (("True MI", u, v u) : Entry)).find? fun d => d.1 = "True MI" ∧ d.2.1 = t) =
          if t ∈ ts then some ("True MI", t, v t) else none := by
      intro ts v
      induction ts with
      | nil => simp
      | cons u us ih =>
        rw [List.map_cons, List.find?_cons]
        by_cases hu : u = t
        · subst hu; simp
        · simp only [hu, and_false, decide_false, Bool.false_eq_true, List.mem_cons, Ne.symm hu, false_or]
          exact ih
    unfold trueEntries
    rw [h3]
    by_cases ht : t ∈ (results.map Row.task).dedup
    · simp [ht]
    · simp only [ht, if_false, Option.bind_none]
      symm
      rw [Option.map_eq_none_iff, List.find?_eq_none]
      intro r hr h
      exact ht (by rw [List.mem_dedup]; exact List.mem_map.2 ⟨r, hr, by simpa using h⟩)
  · simp only [List.mem_dedup, List.map_append, List.mem_append]
    constructor
    · rintro (h | h)
      · obtain ⟨e, he, rfl⟩ := List.mem_map.1 h
        obtain ⟨⟨a, b⟩, hk2, rfl⟩ := List.mem_map.1 he
        obtain ⟨r, hr, -, h2⟩ := (mem_groupKeys _ _ _).1 hk2
        exact ⟨r, used_subset hr, h2⟩
      · obtain ⟨e, he, rfl⟩ := List.mem_map.1 h
        obtain ⟨u, hu, rfl⟩ := List.mem_map.1 he
        rw [List.mem_dedup] at hu
        obtain ⟨r, hr, rfl⟩ := List.mem_map.1 hu
        exact ⟨r, hr, rfl⟩
    · rintro ⟨r, hr, rfl⟩
      refine Or.inr (List.mem_map.2 ⟨_, List.mem_map.2 ⟨r.task, ?_, rfl⟩, rfl⟩)
      rw [List.mem_dedup]
      exact List.mem_map.2 ⟨r, hr, rfl⟩

/-- The requested number of samples has no influence at all. -/
theorem benchmarkTable_ignores_n_samples (results : List Row) (n n' : Option ℤ) (c : Bool) :
    benchmarkTable results n c = benchmarkTable results n' c := rfl

/-- C50 when every result has the requested number of samples: the cells are the means over these results. -/
theorem benchmarkTable_mean_partial (results : List Row) (n : ℤ) (hn : ∀ r ∈ results, r.n = n)
    (hname : ∀ r ∈ results, r.est ≠ "True MI") :
    ∃ T, benchmarkTable results (some n) false = .ok T ∧
      ∀ t e, e ≠ "True MI" → T.cell t e = average (estimates (atSize results n) e t) := by
  obtain ⟨T, h1, h2, -⟩ := benchmarkTable_spec results (some n) false hname
  refine ⟨T, h1, fun t e he => ?_⟩
  have : atSize results n = results := List.filter_eq_self.2 fun r hr => by simpa using hn r hr
  rw [h2 t e he, this]
  rfl

/-- Two results of the same estimator and task with different numbers of samples. -/
def twoSizes : List Row := [⟨"KSG", "1v1", 100, some 1, 2⟩, ⟨"KSG", "1v1", 1000, some 2, 2⟩]

/-- C50 is false in general: the table for 1000 samples averages over the runs with 100 samples too. -/
theorem benchmarkTable_mean_false : ∃ T, benchmarkTable twoSizes (some 1000) false = .ok T ∧
    T.cell "1v1" "KSG" = some (3 / 2) ∧ average (estimates (atSize twoSizes 1000) "KSG" "1v1") = some 2 := by
  obtain ⟨T, h1, h2, -⟩ := benchmarkTable_spec twoSizes (some 1000) false (by simp [twoSizes])
  refine ⟨T, h1, ?_, ?_⟩
  · rw [h2 _ _ (by decide)]
    simp [used, estimates, twoSizes, average]
    norm_num
  · simp [atSize, estimates, twoSizes, average]

/-- A result of an estimator called "True MI" makes the table fail. -/
theorem benchmarkTable_name_clash (results : List Row) (n : Option ℤ) (r : Row) (hr : r ∈ results)
    (hname : r.est = "True MI") : benchmarkTable results n false = .error .valueError := by
  unfold benchmarkTable
  simp only [Bool.false_eq_true, if_false, pivot]
  rw [if_neg]
  rw [List.map_append, List.nodup_append]
  rintro ⟨-, -, h⟩
  refine h ("True MI", r.task) ?_ ("True MI", r.task) ?_ rfl
  · refine List.mem_map.2 ⟨_, List.mem_map.2 ⟨("True MI", r.task), ?_, rfl⟩, rfl⟩
    exact (mem_groupKeys _ _ _).2 ⟨r, hr, hname, rfl⟩
  · refine List.mem_map.2 ⟨_, List.mem_map.2 ⟨r.task, ?_, rfl⟩, rfl⟩
    rw [List.mem_dedup]
    exact List.mem_map.2 ⟨r, hr, rfl⟩

/-! ### Convergence -/

theorem maximum_spec (vs : List (Option ℝ)) (m : ℝ) : maximum vs = some m ↔ IsGreatest {v | some v ∈ vs} m := by
  have hf : ∀ v, v ∈ vs.filterMap id ↔ some v ∈ vs := by intro v; simp
  have hfold : ∀ (ws : List ℝ) (w : ℝ), IsGreatest {v | v ∈ w :: ws} (ws.foldl max w) := by
    intro ws
    induction ws with
    | nil => intro w; simp
    | cons a ws ih =>
      intro w
      obtain ⟨i1, i2⟩ := ih (max w a)
      rw [List.foldl_cons]
      refine ⟨?_, fun v hv => ?_⟩
      · rcases List.mem_cons.1 i1 with h | h
        · rw [h]
          rcases max_choice w a with h' | h' <;> rw [h'] <;> simp
        · exact List.mem_cons_of_mem _ (List.mem_cons_of_mem _ h)
      · have hm : max w a ≤ ws.foldl max (max w a) := i2 (by simp)
        rcases List.mem_cons.1 hv with rfl | hv
        · exact (le_max_left _ _).trans hm
        · rcases List.mem_cons.1 hv with rfl | hv
          · exact (le_max_right _ _).trans hm
          · exact i2 (List.mem_cons_of_mem _ hv)
  unfold maximum
  cases hv : vs.filterMap id with
  | nil =>
    simp only [hv, reduceCtorEq, false_iff]
    rintro ⟨h, -⟩
    have := (hf m).2 h
    rw [hv] at this
    simp at this
  | cons w ws =>
    have hset : {v | some v ∈ vs} = {v | v ∈ w :: ws} := by
      ext v
      rw [Set.mem_setOf_eq, ← hf, hv]
      rfl
    simp only [Option.some.injEq, hset]
    exact ⟨fun h => h ▸ hfold ws w, fun h => (hfold ws w).unique h⟩

/-- A run counts as converged if its estimate exceeds a tenth of the largest estimate of the same estimator, task and
number of samples. -/
theorem converged_iff (results : List Row) (r : Row) : converged results r = true ↔
    ∃ v m, r.mi = some v ∧
      IsGreatest {w | ∃ s ∈ results, s.est = r.est ∧ s.task = r.task ∧ s.n = r.n ∧ s.mi = some w} m ∧ m / 10 < v := by
  have hset : ∀ m, maximum ((results.filter fun s => s.est = r.est ∧ s.task = r.task ∧ s.n = r.n).map Row.mi) = some m ↔
      IsGreatest {w | ∃ s ∈ results, s.est = r.est ∧ s.task = r.task ∧ s.n = r.n ∧ s.mi = some w} m := by
    intro m
    rw [maximum_spec]
    have : {v | some v ∈ (results.filter fun s => s.est = r.est ∧ s.task = r.task ∧ s.n = r.n).map Row.mi} =
        {w | ∃ s ∈ results, s.est = r.est ∧ s.task = r.task ∧ s.n = r.n ∧ s.mi = some w} := by
      ext v
      simp only [List.mem_map, List.mem_filter, decide_eq_true_eq, Set.mem_setOf_eq]
      constructor
      · rintro ⟨s, ⟨h1, h2, h3, h4⟩, h5⟩; exact ⟨s, h1, h2, h3, h4, h5⟩
      · rintro ⟨s, h1, h2, h3, h4, h5⟩; exact ⟨s, ⟨h1, h2, h3, h4⟩, h5⟩
    rw [this]
  unfold converged
  simp only
  constructor
  · intro h
    split at h
    · next v m h1 h2 =>
      refine ⟨v, m, h1, (hset m).1 h2, ?_⟩
      have := of_decide_eq_true h
      norm_num at this
      linarith
    · simp at h
  · rintro ⟨v, m, h1, h2, h3⟩
    rw [h1, (hset m).2 h2]
    simp only [decide_eq_true_eq, gt_iff_lt]
    norm_num
    linarith

/-- The run with the largest estimate of its group has converged exactly if that estimate is positive. -/
theorem largest_converged_iff (results : List Row) (r : Row) (v : ℝ) (hv : r.mi = some v)
    (hmax : IsGreatest {w | ∃ s ∈ results, s.est = r.est ∧ s.task = r.task ∧ s.n = r.n ∧ s.mi = some w} v) :
    converged results r = true ↔ 0 < v := by
  rw [converged_iff]
  constructor
  · rintro ⟨w, m, h1, h2, h3⟩
    rw [hv, Option.some.injEq] at h1
    subst h1
    rw [h2.unique hmax] at h3
    linarith
  · intro h
    exact ⟨v, v, hv, hmax, by linarith⟩

/-- The convergence table: the cell is the fraction of converged runs of the estimator on the task among all of them,
whatever their number of samples; NaN if there are none. -/
theorem convergenceTable_spec (results : List Row) (n : Option ℤ) :
    ∃ T, convergenceTable results n = .ok T ∧ ∀ t e,
      T.cell t e = if ∃ r ∈ results, r.est = e ∧ r.task = t then
        some ((((results.filter fun r => r.est = e ∧ r.task = t).filter (converged results)).length : ℝ) /
          ((results.filter fun r => r.est = e ∧ r.task = t).length : ℝ)) else none := by
  have hnd := keys_nodup results fun k => some
    ((((group results k).map (converged results)).count true : ℝ) /
      ((((group results k).map (converged results)).count true : ℝ) +
        (((group results k).map (converged results)).count false : ℝ)))
  have htab : convergenceTable results n = pivot ((groupKeys results).map fun k => ((k.1, k.2, some
    ((((group results k).map (converged results)).count true : ℝ) /
      ((((group results k).map (converged results)).count true : ℝ) +
        (((group results k).map (converged results)).count false : ℝ)))) : Entry)) := rfl
  refine ⟨_, by rw [htab, pivot, if_pos hnd], fun t e => ?_⟩
  simp only [find_entries (groupKeys results) (fun k => some
    ((((group results k).map (converged results)).count true : ℝ) /
      ((((group results k).map (converged results)).count true : ℝ) +
        (((group results k).map (converged results)).count false : ℝ)))) e t, mem_groupKeys]
  by_cases h : ∃ r ∈ results, r.est = e ∧ r.task = t
  · have hgrp : group results (e, t) = results.filter fun r => r.est = e ∧ r.task = t := by
      unfold group
      refine List.filter_congr fun r _ => ?_
      simp
    rw [if_pos h, if_pos h, Option.bind_some, hgrp]
    set g := results.filter fun r => r.est = e ∧ r.task = t
    have c1 : ((g.map (converged results)).count true) = (g.filter (converged results)).length := by
      rw [List.count, List.countP_map, List.countP_eq_length_filter]
      congr 1
      refine List.filter_congr fun r _ => ?_
      simp
    have c2 : (g.map (converged results)).count true + (g.map (converged results)).count false = g.length := by
      have key : ∀ l : List Bool, l.count true + l.count false = l.length := by
        intro l
        induction l with
        | nil => rfl
        | cons b l ih => cases b <;> simp <;> omega
      rw [key, List.length_map]
    rw [← Nat.cast_add, c2, c1]
  · rw [if_neg h, if_neg h, Option.bind_none]

/-- The requested number of samples has no influence on the convergence table either. -/
theorem convergenceTable_ignores_n_samples (results : List Row) (n n' : Option ℤ) :
    convergenceTable results n = convergenceTable results n' := rfl

/-- Every entry of the convergence table lies between 0 and 1. -/
theorem convergenceTable_fraction (results : List Row) (n : Option ℤ) (T : Table)
    (h : convergenceTable results n = .ok T) (t e : String) (v : ℝ) (hv : T.cell t e = some v) : 0 ≤ v ∧ v ≤ 1 := by
  obtain ⟨T', h1, h2⟩ := convergenceTable_spec results n
  rw [h, Except.ok.injEq] at h1
  subst h1
  rw [h2] at hv
  split_ifs at hv with hc
  rw [Option.some.injEq] at hv
  subst hv
  refine ⟨by positivity, div_le_one_of_le₀ ?_ (by positivity)⟩
  exact_mod_cast List.length_filter_le _ _

/-! ### The hypotheses can be met -/

example : ∃ T, benchmarkTable [⟨"KSG", "1v1", 100, some 1, 2⟩, ⟨"KSG", "1v1", 100, some 2, 2⟩, ⟨"KSG", "1v1", 100, none, 2⟩]
      (some 100) false = .ok T ∧ T.cell "1v1" "KSG" = some (3 / 2) := by
  obtain ⟨T, h1, h2⟩ := benchmarkTable_mean_partial
    [⟨"KSG", "1v1", 100, some 1, 2⟩, ⟨"KSG", "1v1", 100, some 2, 2⟩, ⟨"KSG", "1v1", 100, none, 2⟩] 100 (by simp) (by simp)
  refine ⟨T, h1, ?_⟩
  rw [h2 _ _ (by decide)]
  simp [atSize, estimates, average]
  norm_num

example : converged twoSizes ⟨"KSG", "1v1", 100, some 1, 2⟩ = true := by
  rw [largest_converged_iff twoSizes ⟨"KSG", "1v1", 100, some 1, 2⟩ 1 rfl]
  · norm_num
  · constructor
    · exact ⟨⟨"KSG", "1v1", 100, some 1, 2⟩, by simp [twoSizes], rfl, rfl, rfl, rfl⟩
    · rintro w ⟨s, hs, -, -, h3, h4⟩
      simp only [twoSizes, List.mem_cons, List.not_mem_nil, or_false] at hs
      rcases hs with rfl | rfl
      · simp only [Option.some.injEq] at h4; exact h4.symm.le
      · simp at h3

end BMI.Tables
