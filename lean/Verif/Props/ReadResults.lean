import Verif.Model.ReadResults
import Verif.Props.RunEstimator
import Verif.Props.Tables

/-! C68: reading results back, and the table of the paper. -/

namespace BMI.ReadResults

open BMI.Run (Dict get_set get_update)
open BMI.Tables (Row average)
open BMI.TaskIds (Call)
open BMI.Workflow (CfgF cfgFormat setupV2)

variable {V : Type}

theorem get_del (d : Dict V) (k k' : String) : (del d k).get k' = if k' = k then none else d.get k' := by
  induction d with
  | nil => simp [del, Dict.get]
  | cons e d ih =>
    obtain ⟨k1, v1⟩ := e
    by_cases h : k1 = k
    · subst h
      have h1 : del ((k1, v1) :: d) k1 = del d k1 := by simp [del]
      rw [h1, ih]
      by_cases h2 : k' = k1
      · simp [h2]
      · simp [Dict.get, h2, Ne.symm h2]
    · have h1 : del ((k1, v1) :: d) k = (k1, v1) :: del d k := by simp [del, h]
      rw [h1, Dict.get, ih]
      by_cases h2 : k1 = k'
      · subst h2
        simp [Dict.get, h]
      · simp [Dict.get, h2]

/-- A line of results.csv whose dictionaries can be read. -/
structure Readable (Y : Yaml V) (row : Dict V) (p i : Dict V) : Prop where
  params : ∃ c v, row.get "task_params" = some c ∧ Y.load c = .ok v ∧ Y.asDict v = .ok p
  info : ∃ c v, row.get "additional_information" = some c ∧ Y.load c = .ok v ∧ Y.asDict v = .ok i
  nodup : (p.map Prod.fst).Nodup

/-- **C68**: `read_results` with its default arguments: every parameter of the task becomes a column; every other column of the
line except the two dictionaries is as in the file.  So a parameter with the name of a column replaces it. -/
theorem readRow_get (Y : Yaml V) (row p i : Dict V) (h : Readable Y row p i) :
    ∃ out, readRow Y true false row = .ok out ∧ out.get "task_params" = none ∧
      (∀ k v, k ≠ "task_params" → p.get k = some v → out.get k = some v) ∧
      (∀ k, k ≠ "task_params" → k ≠ "additional_information" → p.get k = none → out.get k = row.get k) := by
  obtain ⟨c, v, hc, hl, hd⟩ := h.params
  obtain ⟨c', v', hc', hl', -⟩ := h.info
  refine ⟨del (((row.set "task_params" v).set "additional_information" v').update p) "task_params", ?_, ?_, ?_, ?_⟩
  · have g1 : (row.set "task_params" v).get "additional_information" = some c' := by
      rw [get_set, if_neg (by decide), hc']
    have g2 : ((row.set "task_params" v).set "additional_information" v').get "task_params" = some v := by
      rw [get_set, if_neg (by decide), get_set, if_pos rfl]
    simp only [readRow, loadCol, lookup, hc, hl, g1, hl', unpack, g2, hd, bind, Except.bind, if_true, Bool.false_eq_true,
      if_false]
  · rw [get_del, if_pos rfl]
  · intro k w hk hp
    rw [get_del, if_neg hk, get_update _ _ _ h.nodup, hp]
    rfl
  · intro k hk hk' hp
    rw [get_del, if_neg hk, get_update _ _ _ h.nodup, hp]
    change Dict.get _ k = _
    rw [get_set, if_neg (Ne.symm hk'), get_set, if_neg (Ne.symm hk)]

/-- **C68**: `read_results` asked for the additional information, with or without the parameters of the task: every entry of the
additional information becomes a column; so does every parameter, if asked for, unless the additional information has an entry of that
name; every other column except the two dictionaries is as in the file. -/
theorem readRow_info (Y : Yaml V) (params : Bool) (row p i : Dict V) (h : Readable Y row p i) (hi : (i.map Prod.fst).Nodup)
    (hp : p.get "additional_information" = none) :
    ∃ out, readRow Y params true row = .ok out ∧ out.get "additional_information" = none ∧
      (∀ k v, k ≠ "additional_information" → i.get k = some v → out.get k = some v) ∧
      (∀ k v, k ≠ "task_params" → params = true → i.get k = none → p.get k = some v → out.get k = some v) ∧
      (∀ k, k ≠ "task_params" → k ≠ "additional_information" → i.get k = none → (params = true → p.get k = none) →
        out.get k = row.get k) := by
  obtain ⟨c, v, hc, hl, hd⟩ := h.params
  obtain ⟨c', v', hc', hl', hd'⟩ := h.info
  have g1 : (row.set "task_params" v).get "additional_information" = some c' := by
    rw [get_set, if_neg (by decide), hc']
  have g2 : ((row.set "task_params" v).set "additional_information" v').get "task_params" = some v := by
    rw [get_set, if_neg (by decide), get_set, if_pos rfl]
  have g3 : ((row.set "task_params" v).set "additional_information" v').get "additional_information" = some v' := by
    rw [get_set, if_pos rfl]
  cases params with
  | false =>
    refine ⟨del (((row.set "task_params" v).set "additional_information" v').update i) "additional_information", ?_, ?_, ?_, ?_, ?_⟩
    · simp only [readRow, loadCol, lookup, hc, hl, g1, hl', unpack, g3, hd', bind, Except.bind, if_true, Bool.false_eq_true, if_false]
    · rw [get_del, if_pos rfl]
    · intro k w hk h1
      rw [get_del, if_neg hk, get_update _ _ _ hi, h1]
      rfl
    · intro k w _ h0
      cases h0
    · intro k hk hk' h1 _
      rw [get_del, if_neg hk', get_update _ _ _ hi, h1]
      change Dict.get _ k = _
      rw [get_set, if_neg (Ne.symm hk'), get_set, if_neg (Ne.symm hk)]
  | true =>
    have g4 : (del (((row.set "task_params" v).set "additional_information" v').update p) "task_params").get "additional_information"
        = some v' := by
      rw [get_del, if_neg (by decide), get_update _ _ _ h.nodup, hp]
      exact g3
    refine ⟨del ((del (((row.set "task_params" v).set "additional_information" v').update p) "task_params").update i)
      "additional_information", ?_, ?_, ?_, ?_, ?_⟩
    · simp only [readRow, loadCol, lookup, hc, hl, g1, hl', unpack, g2, hd, g4, hd', bind, Except.bind, if_true]
    · rw [get_del, if_pos rfl]
    · intro k w hk h1
      rw [get_del, if_neg hk, get_update _ _ _ hi, h1]
      rfl
    · intro k w hk _ h1 h2
      have hk' : k ≠ "additional_information" := fun e => by rw [e, hp] at h2; cases h2
      rw [get_del, if_neg hk', get_update _ _ _ hi, h1]
      change Dict.get _ k = _
      rw [get_del, if_neg hk, get_update _ _ _ h.nodup, h2]
      rfl
    · intro k hk hk' h1 h2
      rw [get_del, if_neg hk', get_update _ _ _ hi, h1]
      change Dict.get _ k = _
      rw [get_del, if_neg hk, get_update _ _ _ h.nodup, h2 rfl]
      change Dict.get _ k = _
      rw [get_set, if_neg (Ne.symm hk'), get_set, if_neg (Ne.symm hk)]

/-- **C68**: one row for each line of the file, in the same order. -/
theorem readResults_rows (Y : Yaml V) (params info : Bool) (rows : List (Dict V)) (out : List (Dict V))
    (h : readResults Y params info rows = .ok out) :
    List.Forall₂ (fun row o => readRow Y params info row = .ok o) rows out := by
  induction rows generalizing out with
  | nil =>
    simp only [readResults, List.mapM_nil, pure, Except.pure, Except.ok.injEq] at h
    subst h
    exact .nil
  | cons r rows ih =>
    rw [readResults, List.mapM_cons] at h
    rcases hr : readRow Y params info r with e | o
    · rw [hr] at h; cases h
    · rcases hrs : rows.mapM (readRow Y params info) with e | os
      · rw [hr, hrs] at h; cases h
      · rw [hr, hrs] at h
        cases h
        exact .cons hr (ih os hrs)

/-- **C68**: a measured column is lost exactly by a parameter of the same name: the parameter is shown instead. -/
theorem collision_replaces (Y : Yaml V) (row p i : Dict V) (h : Readable Y row p i) (v : V)
    (hp : p.get "mi_true" = some v) : ∃ out, readRow Y true false row = .ok out ∧ out.get "mi_true" = some v := by
  obtain ⟨out, h1, _, h2, _⟩ := readRow_get Y row p i h
  exact ⟨out, h1, h2 _ _ (by decide) hp⟩

theorem set_keys_subset (d : Dict V) (k : String) (v : V) (k' : String) :
    k' ∈ (d.set k v).map Prod.fst ↔ k' = k ∨ k' ∈ d.map Prod.fst := by
  induction d with
  | nil => simp [Run.Dict.set]
  | cons e d ih =>
    obtain ⟨k1, v1⟩ := e
    by_cases h : k1 = k
    · subst h
      simp [Run.Dict.set]
    · simp only [Run.Dict.set, if_neg h, List.map_cons, List.mem_cons, ih]
      tauto

theorem set_nodup (d : Dict V) (k : String) (v : V) (h : (d.map Prod.fst).Nodup) : ((d.set k v).map Prod.fst).Nodup := by
  induction d with
  | nil => simp [Run.Dict.set]
  | cons e d ih =>
    obtain ⟨k1, v1⟩ := e
    rw [List.map_cons, List.nodup_cons] at h
    by_cases h' : k1 = k
    · subst h'
      simpa [Run.Dict.set] using h
    · simp only [Run.Dict.set, if_neg h', List.map_cons, List.nodup_cons]
      refine ⟨?_, ih h.2⟩
      rw [set_keys_subset]
      rintro (h1 | h1)
      · exact h' h1
      · exact h.1 h1

/-- The names of parameters. -/
def paramNames : List String :=
  ["epsilon", "gaussian_correlation", "dim_x", "dim_y", "n_interacting", "alpha", "lambd", "epsilon_x", "epsilon_y", "beta_x",
   "beta_y", "eta_x", "eta_y", "off_diag", "covariance", "strength", "dof", "dispersion", "speed", "distance",
   "n_components", "wave_amplitude", "wave_frequency", "inlier_fraction", "n_quantiles", "normalize_speed"]

theorem params_names {F : Type} (one : F) (t : Call F) :
    (∀ k ∈ (params one t).map Prod.fst, k ∈ paramNames) ∧ ((params one t).map Prod.fst).Nodup := by
  have step : ∀ (d : Dict (PVal F)) (k : String) (v : PVal F), k ∈ paramNames →
      ((∀ k ∈ d.map Prod.fst, k ∈ paramNames) ∧ (d.map Prod.fst).Nodup) →
      (∀ k' ∈ (d.set k v).map Prod.fst, k' ∈ paramNames) ∧ ((d.set k v).map Prod.fst).Nodup := by
    intro d k v hk ⟨h1, h2⟩
    refine ⟨fun k' hk' => ?_, set_nodup d k v h2⟩
    rcases (set_keys_subset d k v k').1 hk' with rfl | h
    · exact hk
    · exact h1 k' h
  induction t with
  | uniformise t nq ih => exact step _ _ _ (by simp [paramNames]) ih
  | gaussianise t nq ih => exact step _ _ _ (by simp [paramNames]) ih
  | power t α ih => exact step _ _ _ (by simp [paramNames]) ih
  | spiral t s b ih => exact step _ _ _ (by simp [paramNames]) (step _ _ _ (by simp [paramNames]) ih)
  | asinh t ih => exact ih
  | halfCube t ih => exact ih
  | normalCdf t ih => exact ih
  | wiggly t ih => exact ih
  | rotate t ih => exact ih
  | swissroll t ih => exact ih
  | rescale t ih => exact ih
  | _ => exact ⟨by simp [params, paramNames], by simp [params]⟩

/-- **C68**: no task made by the constructors of the package, however nested, has a parameter named like a column of
results.csv; so reading its results loses no measured column. -/
theorem params_disjoint {F : Type} (one : F) (t : Call F) : ∀ k ∈ columns, (params one t).get k = none := by
  intro k hk
  have hno : k ∉ (params one t).map Prod.fst := by
    intro h
    have h1 := (params_names one t).1 k h
    revert hk h1
    have : ∀ k ∈ columns, k ∉ paramNames := by decide +kernel
    exact fun hk h1 => this k hk h1
  have hget : ∀ d : Dict (PVal F), k ∉ d.map Prod.fst → d.get k = none := by
    intro d
    induction d with
    | nil => intro _; rfl
    | cons e d ih =>
      obtain ⟨k1, v1⟩ := e
      intro h
      simp only [List.map_cons, List.mem_cons, not_or] at h
      rw [Dict.get, if_neg (Ne.symm h.1), ih h.2]
  exact hget _ hno

/-- **C68**: with such a task all measured columns of a line survive reading. -/
theorem shipped_survive {F : Type} (one : F) (Y : Yaml (PVal F)) (t : Call F) (row i : Dict (PVal F))
    (h : ∃ c v, row.get "task_params" = some c ∧ Y.load c = .ok v ∧ Y.asDict v = .ok (params one t))
    (h' : ∃ c v, row.get "additional_information" = some c ∧ Y.load c = .ok v ∧ Y.asDict v = .ok i) :
    ∃ out, readRow Y true false row = .ok out ∧
      ∀ k ∈ columns, k ≠ "task_params" → k ≠ "additional_information" → out.get k = row.get k := by
  obtain ⟨out, h1, _, _, h4⟩ := readRow_get Y row _ i ⟨h, h', (params_names one t).2⟩
  exact ⟨out, h1, fun k hk hk1 hk2 => h4 k hk1 hk2 (params_disjoint one t k hk)⟩

/-- **C68**, disagreement: a parameter of the base task is overwritten by one of a transformation with the same name: the
exponent of `transform_power` replaces the `alpha` of a latent variable model, a second spiral the speed of the first. -/
theorem params_overwritten {F : Type} (one : F) (dx dy n : ℕ) (α α' l β η e s s' : F) (t : Call F) (b b' : Bool) :
    params one (.power (.lvm dx dy n α l β η) e) = params one (.power (.lvm dx dy n α' l β η) e) ∧
    (params one (.spiral (.spiral t s b) s' b')).get "speed" = some (.float s') := by
  refine ⟨rfl, ?_⟩
  simp only [params, Run.Dict.update, List.foldl_cons, List.foldl_nil]
  rw [get_set, if_neg (by decide), get_set, if_pos rfl]

/-- **C68**: the bound on the estimates keeps exactly the rows below it, in order; NaN is dropped. -/
theorem belowMax_spec (less : V → Bool) (rows out : List (Dict V)) (h : belowMax less rows = .ok out) :
    out.Sublist rows ∧ ∀ r, r ∈ out ↔ r ∈ rows ∧ ∃ v, r.get "mi_estimate" = some v ∧ less v = true := by
  rw [belowMax] at h
  split_ifs at h
  cases h
  refine ⟨List.filter_sublist, fun r => ?_⟩
  rw [List.mem_filter]
  refine and_congr_right fun _ => ?_
  cases r.get "mi_estimate" <;> simp

/-- **C68**: an empty table cannot be bounded. -/
theorem belowMax_empty (less : V → Bool) : belowMax less [] = .error .keyError := rfl

/-! ### The table of the paper -/

/-- **C68**: the standard deviation shown is never too small, at least 0.01, and less than 0.01 too large. -/
theorem shownStd_spec (s : ℝ) (hs : 0 ≤ s) : s ≤ shownStd s ∧ 0.01 ≤ shownStd s ∧ shownStd s < s + 0.01 ∨
    s = 0 ∧ shownStd s = 0.01 := by
  have h1 := Int.le_ceil (100 * s)
  have h2 := Int.ceil_lt_add_one (100 * s)
  rcases hs.eq_or_lt with rfl | hpos
  · exact Or.inr ⟨rfl, by norm_num [shownStd]⟩
  · refine Or.inl ⟨le_max_of_le_left (by linarith), le_max_right _ _, max_lt (by linarith) (by linarith)⟩

/-- **C68**: every identifier of the benchmark v2 has a name in the table, and different names. -/
theorem paperNames_complete :
    (∀ t ∈ setupV2.tasks, (paperNames.get (String.ofList (t.id cfgFormat))).isSome) ∧
    (paperNames.map Prod.snd).Nodup ∧ (paperNames.map Prod.fst).Nodup := by
  refine ⟨by decide +kernel, by decide +kernel, by decide +kernel⟩

/-- The estimates of some runs that are numbers. -/
def numbers (results : List Row) (e t : String) : List ℝ := Tables.estimates results e t

theorem std_eq (results : List Row) (e t : String) : std ((Tables.group results (e, t)).map Row.mi) =
    if (numbers results e t).length < 2 then none else
      some (Real.sqrt (((numbers results e t).map fun w =>
        (w - (numbers results e t).sum / (numbers results e t).length) ^ 2).sum /
          (((numbers results e t).length : ℝ) - 1))) := by
  have : ((Tables.group results (e, t)).map Row.mi).filterMap id = numbers results e t := by
    rw [List.filterMap_map, numbers, Tables.estimates, Tables.group]
    congr 1
    refine List.filter_congr fun r _ => ?_
    simp
  simp only [std, this]

/-- What a cell of the paper says. -/
structure Shows (ws : List ℝ) (m s : Option ℝ) : Prop where
  mean : m = average ws
  none : s = none ↔ ws.length < 2
  std : ∀ d, s = some d → ∃ σ, 0 ≤ σ ∧ σ ^ 2 * ((ws.length : ℝ) - 1) = (ws.map fun w => (w - ws.sum / ws.length) ^ 2).sum ∧
    d = shownStd σ

/-- **C68**: the table of the paper exists if all tasks have a name and no estimator is called "True MI"; it has one entry for
each pair of an estimator and a task, with the mean of the estimates and their standard deviation rounded up, over runs of all
sizes, and the ground truth of each task. -/
theorem paperTable_spec (results : List Row) (hname : ∀ r ∈ results, r.est ≠ "True MI")
    (nm : String → String) (htask : ∀ r ∈ results, paperNames.get r.task = some (nm r.task)) :
    ∃ T, paperTable results = .ok T ∧
      (∀ r ∈ results, ∃ m s, (r.est, nm r.task, Cell.runs m s) ∈ T ∧ Shows (numbers results r.est r.task) m s) ∧
      (∀ e n m s, (e, n, Cell.runs m s) ∈ T → ∃ r ∈ results, r.est = e ∧ nm r.task = n ∧
        Shows (numbers results r.est r.task) m s) ∧
      (∀ r ∈ results, ∃ r' ∈ results, r'.task = r.task ∧ ("True MI", nm r.task, Cell.truth r'.miTrue) ∈ T) ∧
      (∀ e n v, (e, n, Cell.truth v) ∈ T → e = "True MI" ∧ ∃ r ∈ results, nm r.task = n ∧ r.miTrue = v) ∧
      (T.map fun e => (e.1, e.2.1)).Nodup := by
  set merged : List (String × String × Cell) := (Tables.groupKeys results).map fun k =>
    (k.1, k.2, Cell.runs (Tables.mean ((Tables.group results k).map Row.mi))
      ((std ((Tables.group results k).map Row.mi)).map shownStd)) with hmerged
  set truths : List (String × String × Cell) := (results.map Row.task).dedup.filterMap fun t =>
    (results.find? fun r => r.task = t).map fun r => ("True MI", t, Cell.truth r.miTrue) with htruths
  have hkeys1 : (merged.map fun e => (e.1, e.2.1)) = Tables.groupKeys results := by
    rw [hmerged, List.map_map]
    exact List.map_id' _
  have htruth : ∀ x, x ∈ truths ↔ ∃ t r, (results.find? fun r => r.task = t) = some r ∧
      x = ("True MI", t, Cell.truth r.miTrue) := by
    intro x
    rw [htruths, List.mem_filterMap]
    constructor
    · rintro ⟨t, _, hx⟩
      rw [Option.map_eq_some_iff] at hx
      obtain ⟨r, hr, rfl⟩ := hx
      exact ⟨t, r, hr, rfl⟩
    · rintro ⟨t, r, hr, rfl⟩
      refine ⟨t, ?_, by rw [hr]; rfl⟩
      rw [List.mem_dedup]
      have h1 := List.mem_of_find?_eq_some hr
      have h2 := List.find?_some hr
      exact List.mem_map.2 ⟨r, h1, by simpa using h2⟩
  have hkeys2 : (truths.map fun e => (e.1, e.2.1)) = (results.map Row.task).dedup.map fun t => ("True MI", t) := by
    have hmf : ∀ (l : List String) (f : String → String × String), l.map f = l.filterMap fun t => some (f t) :=
      fun l f => (congrFun (List.filterMap_eq_map (f := f)).symm l)
    rw [htruths, List.map_filterMap, hmf]
    refine List.filterMap_congr fun t ht => ?_
    rw [List.mem_dedup, List.mem_map] at ht
    obtain ⟨r, hr, rfl⟩ := ht
    rcases hf : results.find? fun r' => r'.task = r.task with _ | r'
    · rw [List.find?_eq_none] at hf
      exact absurd (hf r hr) (by simp)
    · simp only [hf]
      rfl
  have hnd : ((merged ++ truths).map fun e => (e.1, e.2.1)).Nodup := by
    rw [List.map_append, hkeys1, hkeys2]
    refine (List.nodup_dedup _).append ((List.nodup_dedup _).map fun a b h => by simpa using h) ?_
    intro k hk hk'
    obtain ⟨t, _, rfl⟩ := List.mem_map.1 hk'
    obtain ⟨r, hr, h1, _⟩ := (Tables.mem_groupKeys _ _ _).1 hk
    exact hname r hr h1
  have hent : paperEntries results 5000 = .ok (merged ++ truths) := by
    simp only [paperEntries, ← hmerged, ← htruths]
    rw [if_pos hnd]
  have htaskmem : ∀ x ∈ merged ++ truths, ∃ r ∈ results, r.task = x.2.1 := by
    intro x hx
    rcases List.mem_append.1 hx with h | h
    · obtain ⟨⟨a, b⟩, hk, rfl⟩ := List.mem_map.1 h
      obtain ⟨r, hr, _, h2⟩ := (Tables.mem_groupKeys _ _ _).1 hk
      exact ⟨r, hr, h2⟩
    · obtain ⟨t, r, hr, rfl⟩ := (htruth x).1 h
      exact ⟨r, List.mem_of_find?_eq_some hr, by simpa using List.find?_some hr⟩
  have hmap : ∀ l : List (String × String × Cell), (∀ x ∈ l, ∃ r ∈ results, r.task = x.2.1) →
      (l.mapM fun e => (do
        let name ← lookup paperNames e.2.1
        Except.ok (e.1, name, e.2.2) : Except Err (String × String × Cell)))
        = .ok (l.map fun e => (e.1, nm e.2.1, e.2.2)) := by
    intro l
    induction l with
    | nil => intro _; rfl
    | cons x l ih =>
      intro h
      obtain ⟨r, hr, hrt⟩ := h x List.mem_cons_self
      have hx := htask r hr
      rw [hrt] at hx
      rw [List.mapM_cons, ih fun y hy => h y (List.mem_cons_of_mem _ hy)]
      simp only [lookup, hx, bind, Except.bind, pure, Except.pure, List.map_cons]
  have hshow : ∀ e t, Shows (numbers results e t) (Tables.mean ((Tables.group results (e, t)).map Row.mi))
      ((std ((Tables.group results (e, t)).map Row.mi)).map shownStd) := by
    intro e t
    rw [std_eq]
    refine ⟨Tables.mean_group _ _ _, ?_, ?_⟩
    · split_ifs with h <;> simp [h]
    · intro d hd
      split_ifs at hd with h
      · simp at hd
      · simp only [Option.map_some, Option.some.injEq] at hd
        refine ⟨_, Real.sqrt_nonneg _, ?_, hd.symm⟩
        have hlen : (2 : ℝ) ≤ (numbers results e t).length := by exact_mod_cast not_lt.1 h
        rw [Real.sq_sqrt, div_mul_cancel₀]
        · linarith
        · refine div_nonneg (List.sum_nonneg ?_) (by linarith)
          intro x hx
          obtain ⟨w, _, rfl⟩ := List.mem_map.1 hx
          positivity
  have hfinal : paperTable results = .ok ((merged ++ truths).map fun e => (e.1, nm e.2.1, e.2.2)) := by
    simp only [paperTable, hent, bind, Except.bind]
    exact hmap _ htaskmem
  have hinj : ∀ r ∈ results, ∀ r' ∈ results, nm r.task = nm r'.task → r.task = r'.task := by
    intro r hr r' hr' h
    have h1 := htask r hr
    have h2 := htask r' hr'
    rw [← h] at h2
    have key : ∀ (d : List (String × String)), (d.map Prod.snd).Nodup → ∀ a b v, Dict.get d a = some v → Dict.get d b = some v → a = b := by
      intro d
      induction d with
      | nil => intro _ a b v ha; cases ha
      | cons x d ih =>
        obtain ⟨k, w⟩ := x
        intro hn a b v ha hb
        rw [List.map_cons, List.nodup_cons] at hn
        have hmem : ∀ c, Dict.get d c = some v → v ∈ d.map Prod.snd := by
          intro c
          clear ih hn ha hb
          induction d with
          | nil => intro h; cases h
          | cons y d ih' =>
            obtain ⟨k', w'⟩ := y
            intro h
            rw [Dict.get] at h
            split_ifs at h
            · cases h; simp
            · exact List.mem_cons_of_mem _ (ih' h)
        rw [Dict.get] at ha hb
        split_ifs at ha hb with h1 h2 h2
        · exact h1.symm.trans h2
        · cases ha; exact absurd (hmem _ hb) hn.1
        · cases hb; exact absurd (hmem _ ha) hn.1
        · exact ih hn.2 a b v ha hb
    exact key _ paperNames_complete.2.1 _ _ _ h1 h2
  refine ⟨_, hfinal, ?_, ?_, ?_, ?_, ?_⟩
  · intro r hr
    refine ⟨_, _, List.mem_map.2 ⟨_, List.mem_append_left _ (List.mem_map.2 ⟨(r.est, r.task),
      (Tables.mem_groupKeys _ _ _).2 ⟨r, hr, rfl, rfl⟩, rfl⟩), rfl⟩, hshow _ _⟩
  · intro e n m s h
    obtain ⟨x, hx, heq⟩ := List.mem_map.1 h
    rcases List.mem_append.1 hx with hx | hx
    · obtain ⟨⟨a, b⟩, hk, rfl⟩ := List.mem_map.1 hx
      obtain ⟨r, hr, rfl, rfl⟩ := (Tables.mem_groupKeys _ _ _).1 hk
      simp only [Prod.mk.injEq, Cell.runs.injEq] at heq
      obtain ⟨rfl, rfl, rfl, rfl⟩ := heq
      exact ⟨r, hr, rfl, rfl, hshow _ _⟩
    · obtain ⟨t, r, hr, rfl⟩ := (htruth x).1 hx
      simp at heq
  · intro r hr
    rcases hf : results.find? fun r' => r'.task = r.task with _ | r'
    · rw [List.find?_eq_none] at hf
      exact absurd (hf r hr) (by simp)
    · exact ⟨r', List.mem_of_find?_eq_some hf, by simpa using List.find?_some hf,
        List.mem_map.2 ⟨_, List.mem_append_right _ ((htruth _).2 ⟨r.task, r', hf, rfl⟩), rfl⟩⟩
  · intro e n v h
    obtain ⟨x, hx, heq⟩ := List.mem_map.1 h
    rcases List.mem_append.1 hx with hx | hx
    · obtain ⟨⟨a, b⟩, hk, rfl⟩ := List.mem_map.1 hx
      simp at heq
    · obtain ⟨t, r, hr, rfl⟩ := (htruth x).1 hx
      simp only [Prod.mk.injEq, Cell.truth.injEq] at heq
      obtain ⟨rfl, rfl, rfl⟩ := heq
      have ht : r.task = t := by simpa using List.find?_some hr
      exact ⟨rfl, r, List.mem_of_find?_eq_some hr, by rw [ht], rfl⟩
  · rw [List.map_map]
    have : (((merged ++ truths).map fun e => (e.1, e.2.1)).map fun p => (p.1, nm p.2)).Nodup := by
      refine List.Nodup.map_on ?_ hnd
      intro a ha b hb hab
      obtain ⟨x, hx, rfl⟩ := List.mem_map.1 ha
      obtain ⟨y, hy, rfl⟩ := List.mem_map.1 hb
      obtain ⟨r, hr, hrt⟩ := htaskmem x hx
      obtain ⟨r', hr', hrt'⟩ := htaskmem y hy
      simp only [Prod.mk.injEq] at hab ⊢
      refine ⟨hab.1, ?_⟩
      rw [← hrt, ← hrt']
      exact hinj r hr r' hr' (by rw [hrt, hrt']; exact hab.2)
    rw [List.map_map] at this
    exact this

/-- **C68**, disagreement: the table says 5000 samples, but the runs of other sizes are averaged in. -/
theorem paperEntries_ignores_size (results : List Row) (n n' : ℤ) : paperEntries results n = paperEntries results n' := rfl

/-! ### Examples -/

/-- Runs with two sizes. -/
noncomputable def exampleRuns : List Row := [⟨"CCA", "1v1-AI", 5000, some 1, 1⟩, ⟨"CCA", "1v1-AI", 100, some 3, 1⟩]

example : ∃ T m s, paperTable exampleRuns = .ok T ∧ ("CCA", "AI", Cell.runs m s) ∈ T ∧ m = some 2 ∧ s.isSome := by
  obtain ⟨T, hT, h1, _⟩ := paperTable_spec exampleRuns (by simp [exampleRuns]) (fun t => (paperNames.get t).getD "") (by
    intro r hr
    simp only [exampleRuns, List.mem_cons, List.not_mem_nil, or_false] at hr
    rcases hr with rfl | rfl <;> decide +kernel)
  obtain ⟨m, s, hm, hs⟩ := h1 ⟨"CCA", "1v1-AI", 5000, some 1, 1⟩ (by simp [exampleRuns])
  have hn : numbers exampleRuns "CCA" "1v1-AI" = [1, 3] := by
    simp [numbers, Tables.estimates, exampleRuns]
  have hlab : (paperNames.get "1v1-AI").getD "" = "AI" := by decide +kernel
  dsimp only at hm hs
  rw [hlab] at hm
  rw [hn] at hs
  refine ⟨T, m, s, hT, hm, ?_, ?_⟩
  · rw [hs.mean]
    rw [average, if_neg (by simp)]
    norm_num
  · rw [Option.isSome_iff_ne_none]
    intro h
    exact absurd (hs.none.1 h) (by norm_num)

/-- YAML values for the examples: dictionaries of natural numbers. -/
inductive Ex where
  | num (n : ℕ)
  | dict (d : List (String × ℕ))

/-- A reader for the examples. -/
def exYaml : Yaml Ex where
  load := .ok
  asDict
    | .dict d => .ok (d.map fun e => (e.1, .num e.2))
    | .num _ => .error .typeError

example : Readable exYaml [("mi_true", .num 1), ("task_params", .dict [("dof", 3)]), ("additional_information", .dict [])]
    [("dof", .num 3)] [] :=
  ⟨⟨_, _, rfl, rfl, rfl⟩, ⟨_, _, rfl, rfl, rfl⟩, by simp⟩

/-- A parameter called `mi_true`. -/
example : ∃ out, readRow exYaml true false
    [("mi_true", .num 1), ("task_params", .dict [("mi_true", 3)]), ("additional_information", .dict [])] = .ok out ∧
      out.get "mi_true" = some (.num 3) :=
  collision_replaces exYaml _ [("mi_true", .num 3)] [] ⟨⟨_, _, rfl, rfl, rfl⟩, ⟨_, _, rfl, rfl, rfl⟩, by simp⟩ _ rfl

example : belowMax (fun n : ℕ => n < 3) [[("mi_estimate", 1)], [("mi_estimate", 5)], [("seed", 1)]]
    = .ok [[("mi_estimate", 1)]] := by decide

end BMI.ReadResults
