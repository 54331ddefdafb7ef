import Verif.Lemmas.Workflow
import Verif.Model.Configs
import Verif.Props.Task
import Verif.Props.RunEstimator
import Mathlib.Data.List.ProdSigma
import Mathlib.Data.List.Forall2

/-!
# C66 – the benchmark workflow
-/

namespace BMI.Workflow

open BMI.Training (Fl)
open BMI.Task (Task)
open BMI.Run (Dict RunResult Outcome Ended runEstimator Reported)
open BMI.SampleIO (Csv readSample NdArr)

variable {α F V C P : Type} [LinearOrder α] [Zero α]

/-- A usable configuration: names that can be part of a path, readable tasks with different identifiers, seeds that are not
negative, samplers that sample, estimators that do not kill the interpreter, results that can be written. -/
structure Ready (cfg : Config α F V C P) : Prop where
  est_nodup : (cfg.estimators.map Prod.fst).Nodup
  est_name : ∀ e ∈ cfg.estimators, e.1.toList ≠ [] ∧ '\n' ∉ e.1.toList
  est_alive : ∀ e ∈ cfg.estimators, (∀ p, e.2.onPath p ≠ .abort) ∧ ∀ x y, e.2.onData x y ≠ .abort
  task_nodup : (cfg.tasks.map Task.taskId).Nodup
  task_name : ∀ t ∈ cfg.tasks, t.taskId.toList ≠ [] ∧ '\n' ∉ t.taskId.toList ∧ '/' ∉ t.taskId.toList
  task_id : ∀ t ∈ cfg.tasks, t.id = .ok t.taskId
  seeds : ∀ s ∈ cfg.seeds, 0 ≤ s
  sample : ∀ t ∈ cfg.tasks, ∀ n ∈ cfg.ns, ∀ s ∈ cfg.seeds, ∃ (m dx dy : ℕ) (x : Fin m → Fin dx → C)
    (y : Fin m → Fin dy → C), 0 < dx + dy ∧ t.sampler.sample n s = .ok (.mat m dx x, .mat m dy y)
  yaml : ∀ d, ∃ d', cfg.yaml d = .ok d'

/-- The combinations that are to be run. -/
def combinations (cfg : Config α F V C P) : List ((String × Est F V C) × Task α C P × ℕ × ℤ) :=
  cfg.estimators ×ˢ (cfg.tasks ×ˢ (cfg.ns ×ˢ cfg.seeds))

/-- The path of a combination. -/
def pathOf (c : (String × Est F V C) × Task α C P × ℕ × ℤ) : List Char :=
  fill resultPat [c.1.1.toList, c.2.1.taskId.toList, intStr c.2.2.1, intStr c.2.2.2]

/-- What a line of the results table should say about the combination `e`, `t`, `n`, `s`: it reports what the estimator did
on the sample of that task of that size with that seed, together with the number the task itself advertises. -/
structure IsLine (cfg : Config α F V C P) (e : String × Est F V C) (t : Task α C P) (n : ℕ) (s : ℤ)
    (l : Line α F V P) : Prop where
  true_mi : t.sampler.mi = .ok l.miTrue
  name : l.taskName = t.taskName
  params : l.taskParams = t.params.getD []
  run : ∀ (m dx dy : ℕ) (x : Fin m → Fin dx → C) (y : Fin m → Fin dy → C),
    t.sampler.sample n s = .ok (.mat m dx x, .mat m dy y) →
    ∃ file r, SampleIO.saveSample (.mat m dx x) (.mat m dy y) = .ok file ∧
      Reported cfg.nan (cfg.measured (pathOf (e, t, n, s))) cfg.str
        (if e.2.external then e.2.onPath (fill samplePat [t.taskId.toList, intStr n, intStr s], file)
          else e.2.onData (List.ofFn fun i => List.ofFn fun j => cfg.csv (x i j))
            (List.ofFn fun i => List.ofFn fun j => cfg.csv (y i j)))
        m e.1 t.taskId (some s) [] r ∧
      cfg.yaml r.info = .ok l.result.info ∧ l.result = { r with info := l.result.info }

theorem get_of_mem {W : Type} {d : Dict W} (hn : (d.map Prod.fst).Nodup) {k : String} {v : W}
    (h : (k, v) ∈ d) : d.get k = some v := by
  induction d with
  | nil => simp at h
  | cons a d ih =>
    obtain ⟨k', v'⟩ := a
    simp only [List.map_cons, List.nodup_cons] at hn
    rcases List.mem_cons.1 h with h | h
    · cases h
      simp [Run.Dict.get]
    · have : k' ≠ k := by
        rintro rfl
        exact hn.1 (List.mem_map.2 ⟨_, h, rfl⟩)
      simp [Run.Dict.get, this, ih hn.2 h]

theorem set_new {W : Type} (d : Dict W) (k : String) (v : W) (h : k ∉ d.map Prod.fst) :
    d.set k v = d ++ [(k, v)] := by
  induction d with
  | nil => rfl
  | cons a d ih =>
    obtain ⟨k', v'⟩ := a
    simp only [List.map_cons, List.mem_cons, not_or] at h
    simp [Run.Dict.set, Ne.symm h.1, ih h.2]

theorem tasksDict_ok (ts : List (Task α C P)) (hid : ∀ t ∈ ts, t.id = .ok t.taskId)
    (hn : (ts.map Task.taskId).Nodup) : tasksDict ts = .ok (ts.map fun t => (t.taskId, t)) := by
  suffices H : ∀ (ts acc : List (Task α C P)), (∀ t ∈ ts, t.id = .ok t.taskId) →
      ((acc ++ ts).map Task.taskId).Nodup →
      ts.foldlM (fun (d : Dict (Task α C P)) t => t.id.map fun i => d.set i t) (acc.map fun t => (t.taskId, t))
        = Except.ok ((acc ++ ts).map fun t => (t.taskId, t)) from H ts [] hid hn
  intro ts
  induction ts with
  | nil => intro acc _ _; simp [pure, Except.pure]
  | cons t ts ih =>
    intro acc hid hn
    rw [List.foldlM_cons, hid t List.mem_cons_self]
    have hnew : t.taskId ∉ (acc.map fun t => (t.taskId, t)).map Prod.fst := by
      rw [List.map_append, List.map_cons, List.nodup_append] at hn
      intro hmem
      rw [List.map_map] at hmem
      exact hn.2.2 _ hmem _ List.mem_cons_self rfl
    have := ih (acc ++ [t]) (fun t' ht' => hid t' (List.mem_cons_of_mem _ ht')) (by simpa using hn)
    rw [List.map_append, List.map_singleton, ← set_new _ _ _ hnew, List.append_assoc, List.singleton_append] at this
    exact this

theorem mapM_forall2 {A B E : Type} (R : A → B → Prop) (f : A → Except E B) (l : List A)
    (h : ∀ a ∈ l, ∃ b, f a = .ok b ∧ R a b) : ∃ bs, l.mapM f = .ok bs ∧ List.Forall₂ R l bs := by
  induction l with
  | nil => exact ⟨[], rfl, .nil⟩
  | cons a l ih =>
    obtain ⟨b, hb, hr⟩ := h a List.mem_cons_self
    obtain ⟨bs, hbs, hrs⟩ := ih fun a' ha' => h a' (List.mem_cons_of_mem _ ha')
    refine ⟨b :: bs, ?_, .cons hr hrs⟩
    rw [List.mapM_cons, hb, hbs]
    rfl

theorem expand_eq (cfg : Config α F V C P) :
    expand (cfg.estimators.map Prod.fst) ((cfg.tasks.map fun t => (t.taskId, t)).map Prod.fst) cfg.ns cfg.seeds
      = (combinations cfg).map pathOf := by
  simp only [expand, combinations, SProd.sprod, List.product, List.map_flatMap, List.flatMap_map, List.map_map]
  rfl

theorem intStr_digits {z : ℤ} (h : 0 ≤ z) : intStr z ≠ [] ∧ ∀ d ∈ intStr z, d.isDigit := by
  cases z with
  | ofNat n => exact ⟨TaskIds.nat_ne_nil n, fun d hd => TaskIds.nat_digit hd⟩
  | negSucc n => exact absurd h (by simp)

/-- One job of a usable configuration. -/
theorem job_spec (cfg : Config α F V C P) (h : Ready cfg) (e : String × Est F V C) (he : e ∈ cfg.estimators)
    (t : Task α C P) (ht : t ∈ cfg.tasks) (n : ℕ) (hn : n ∈ cfg.ns) (s : ℤ) (hs : s ∈ cfg.seeds) :
    ∃ l, (applyEstimator cfg (cfg.tasks.map fun t => (t.taskId, t)) (pathOf (e, t, n, s))).bind
        (join (cfg.tasks.map fun t => (t.taskId, t))) = .ok l ∧ IsLine cfg e t n s l := by
  obtain ⟨hse, hsd⟩ := intStr_digits (h.seeds s hs)
  obtain ⟨hne, hnd⟩ := intStr_digits (z := (n : ℤ)) (by omega)
  obtain ⟨ht1, ht2, ht3⟩ := h.task_name t ht
  obtain ⟨he1, he2⟩ := h.est_name e he
  obtain ⟨m, dx, dy, x, y, hd, hsam⟩ := h.sample t ht n hn s hs
  have hget : Run.Dict.get (cfg.tasks.map fun t => (t.taskId, t)) t.taskId = some t :=
    get_of_mem (by rw [List.map_map]; exact h.task_nodup) (List.mem_map.2 ⟨t, ht, rfl⟩)
  have hgete : cfg.estimators.get e.1 = some e.2 := get_of_mem h.est_nodup he
  obtain ⟨file, hsave, hread, _⟩ := SampleIO.read_save cfg.csv m dx dy x y hd
  have hpyn : pyNat (intStr (n : ℤ)) = some n := digitsVal_toDigits n
  have hfile : sampleTask (cfg.tasks.map fun t => (t.taskId, t))
      (fill samplePat [t.taskId.toList, intStr n, intStr s]) = .ok file := by
    rw [sampleTask, matchPat_sample _ _ _ ht1 ht2 hne hse hnd hsd]
    simp only [hpyn, pyInt_intStr, orRaise, String.ofList_toList, hget, bind, Except.bind, Task.saveSample,
      Task.sample, hsam, hsave, lift]
  have hal : (if e.2.external then e.2.onPath (fill samplePat [t.taskId.toList, intStr n, intStr s], file)
      else e.2.onData (List.ofFn fun i => List.ofFn fun j => cfg.csv (x i j))
        (List.ofFn fun i => List.ofFn fun j => cfg.csv (y i j))) ≠ .abort := by
    obtain ⟨h1, h2⟩ := h.est_alive e he
    split
    · exact h1 _
    · exact h2 _ _
  obtain ⟨r, hr, hrep⟩ := Run.run_reports cfg.nan cfg.str e.2.external e.2.onPath e.2.onData
    (cfg.measured (pathOf (e, t, n, s))) e.1 (fill samplePat [t.taskId.toList, intStr n, intStr s], file)
    (List.ofFn fun i => List.ofFn fun j => cfg.csv (x i j)) (List.ofFn fun i => List.ofFn fun j => cfg.csv (y i j))
    t.taskId (some s) none hal
  obtain ⟨d', hd'⟩ := h.yaml r.info
  have happ : applyEstimator cfg (cfg.tasks.map fun t => (t.taskId, t)) (pathOf (e, t, n, s))
      = .ok { r with info := d' } := by
    rw [applyEstimator, pathOf, matchPat_result _ _ _ _ he1 he2 ht1 ht2 ht3 hne hse hnd hsd]
    simp only [hfile, orRaise, String.ofList_toList, hgete, pyInt_intStr, bind, Except.bind, hread, Except.map,
      rowsOnly]
    rw [pathOf] at hr
    rw [hr]
    simp only [viaYaml, hd', lift, Except.map]
  obtain ⟨⟨dx', hx⟩, ⟨dy', hy⟩, a, hm, ha⟩ := (Task.id_ok_iff t).1 (h.task_id t ht)
  obtain ⟨_, g2, _, _, g5, g6⟩ := Task.task_advertises t dx' dy' a hx hy hm ha
  have htid : r.taskId = t.taskId := hrep.ids.2.1
  refine ⟨⟨{ r with info := d' }, .num a, t.taskName, t.params.getD []⟩, ?_, ?_⟩
  · rw [happ]
    simp only [Except.bind, join, bind, htid, hget, orRaise, g2, g5, g6, hm, lift]
  · refine ⟨hm, rfl, rfl, ?_⟩
    intro m' dx2 dy2 x' y' hs'
    rw [hsam] at hs'
    simp only [Except.ok.injEq, Prod.mk.injEq, NdArr.mat.injEq] at hs'
    obtain ⟨⟨rfl, rfl, hx'⟩, _, rfl, hy'⟩ := hs'
    cases eq_of_heq hx'
    cases eq_of_heq hy'
    refine ⟨file, r, hsave, ?_, hd', rfl⟩
    rw [List.length_ofFn] at hrep
    exact hrep

/-- **C66**: the workflow of a usable configuration produces results.csv, with exactly one line for each combination of an
estimator, a task, a number of samples and a seed, in this order, and the line tells the truth about its combination. -/
theorem results_spec (cfg : Config α F V C P) (h : Ready cfg) :
    ∃ lines, results cfg = .ok lines ∧
      List.Forall₂ (fun c l => IsLine cfg c.1 c.2.1 c.2.2.1 c.2.2.2 l) (combinations cfg) lines := by
  have hmap : ∀ c ∈ combinations cfg, ∃ l,
      (applyEstimator cfg (cfg.tasks.map fun t => (t.taskId, t)) (pathOf c)).bind
        (join (cfg.tasks.map fun t => (t.taskId, t))) = .ok l ∧ IsLine cfg c.1 c.2.1 c.2.2.1 c.2.2.2 l := by
    rintro ⟨e, t, n, s⟩ hc
    simp only [combinations, List.mem_product] at hc
    exact job_spec cfg h e hc.1 t hc.2.1 n hc.2.2.1 s hc.2.2.2
  obtain ⟨lines, h1, h2⟩ := mapM_forall2 _ (fun c : (String × Est F V C) × Task α C P × ℕ × ℤ =>
    (applyEstimator cfg (cfg.tasks.map fun t => (t.taskId, t)) (pathOf c)).bind
      (join (cfg.tasks.map fun t => (t.taskId, t)))) (combinations cfg) hmap
  refine ⟨lines, ?_, h2⟩
  simp only [results, tasksDict_ok cfg.tasks h.task_id h.task_nodup, lift, bind, Except.bind]
  rw [expand_eq, List.mapM_map]
  exact h1

/-- **C66**: the number of lines. -/
theorem results_length (cfg : Config α F V C P) (h : Ready cfg) :
    ∃ lines, results cfg = .ok lines ∧
      lines.length = cfg.estimators.length * (cfg.tasks.length * (cfg.ns.length * cfg.seeds.length)) := by
  obtain ⟨lines, h1, h2⟩ := results_spec cfg h
  refine ⟨lines, h1, ?_⟩
  rw [← h2.length_eq, combinations, List.length_product, List.length_product, List.length_product]

/-- **C66**: no two lines are about the same run, if sizes and seeds are not repeated and samplers return as many points as
asked for. -/
theorem results_nodup (cfg : Config α F V C P) (h : Ready cfg) (hns : cfg.ns.Nodup) (hseeds : cfg.seeds.Nodup)
    (hsize : ∀ t ∈ cfg.tasks, ∀ n ∈ cfg.ns, ∀ s ∈ cfg.seeds, ∀ (m dx dy : ℕ) (x : Fin m → Fin dx → C)
      (y : Fin m → Fin dy → C), t.sampler.sample n s = .ok (.mat m dx x, .mat m dy y) → m = n) :
    ∃ lines, results cfg = .ok lines ∧
      (lines.map fun l => (l.result.estimatorId, l.result.taskId, l.result.nSamples, l.result.seed)).Nodup := by
  obtain ⟨lines, h1, h2⟩ := results_spec cfg h
  refine ⟨lines, h1, ?_⟩
  have hkey : lines.map (fun l => (l.result.estimatorId, l.result.taskId, l.result.nSamples, l.result.seed))
      = (combinations cfg).map fun c => (c.1.1, c.2.1.taskId, c.2.2.1, some c.2.2.2) := by
    have hmem : ∀ c ∈ combinations cfg, c.1 ∈ cfg.estimators ∧ c.2.1 ∈ cfg.tasks ∧ c.2.2.1 ∈ cfg.ns ∧
        c.2.2.2 ∈ cfg.seeds := by
      rintro ⟨e, t, n, s⟩ hc
      simpa only [combinations, List.mem_product] using hc
    generalize combinations cfg = cs at h2 hmem
    clear h1
    induction h2 with
    | nil => rfl
    | @cons c l cs ls hl _ ih =>
      obtain ⟨e, t, n, s⟩ := c
      obtain ⟨he, ht, hn, hs⟩ := hmem _ List.mem_cons_self
      dsimp only at he ht hn hs hl
      obtain ⟨m, dx, dy, x, y, _, hsam⟩ := h.sample t ht n hn s hs
      obtain ⟨file, r, _, hrep, _, hr⟩ := hl.run m dx dy x y hsam
      have hm := hsize t ht n hn s hs m dx dy x y hsam
      obtain ⟨i1, i2, i3, i4⟩ := hrep.ids
      rw [List.map_cons, List.map_cons, ih fun c hc => hmem c (List.mem_cons_of_mem _ hc), hr]
      simp only [i1, i2, i3, i4, hm]
  rw [hkey, combinations]
  have hprod : ((cfg.estimators.map Prod.fst) ×ˢ ((cfg.tasks.map Task.taskId) ×ˢ (cfg.ns ×ˢ cfg.seeds.map some))).Nodup :=
    h.est_nodup.product (h.task_nodup.product (hns.product (hseeds.map (Option.some_injective _))))
  have heq : (cfg.estimators ×ˢ (cfg.tasks ×ˢ (cfg.ns ×ˢ cfg.seeds))).map
        (fun c => (c.1.1, c.2.1.taskId, c.2.2.1, some c.2.2.2))
      = (cfg.estimators.map Prod.fst) ×ˢ ((cfg.tasks.map Task.taskId) ×ˢ (cfg.ns ×ˢ cfg.seeds.map some)) := by
    simp only [SProd.sprod, List.product, List.map_flatMap, List.flatMap_map, List.map_map]
    rfl
  rw [heq]
  exact hprod

/-- **C66**, why seeds must not be negative: the path of a sample is split at the last minus sign, so that the number of samples
reads `500-`, and the job fails. -/
theorem negative_seed_fails (tasks : Dict (Task α C P)) (t : List Char) (ht : t ≠ []) (htn : '\n' ∉ t) (n k : ℕ) :
    sampleTask tasks (fill samplePat [t, intStr n, intStr (Int.negSucc k)]) = .error (.raised .valueError) := by
  have hn : ∀ d ∈ intStr (n : ℤ), d.isDigit := (intStr_digits (z := (n : ℤ)) (by omega)).2
  have hneg : intStr (Int.negSucc k) = '-' :: Nat.toDigits 10 (k + 1) := rfl
  rw [sampleTask, hneg, matchPat_sample_neg t _ (Nat.toDigits 10 (k + 1)) ht htn (TaskIds.nat_ne_nil (k + 1)) hn
    fun d hd => TaskIds.nat_digit (n := k + 1) hd]
  have : pyNat (intStr (n : ℤ) ++ ['-']) = none := by
    rw [pyNat, digitsVal, if_neg]
    rintro ⟨_, h⟩
    rw [List.all_append] at h
    exact absurd (Bool.and_eq_true_iff.1 h).2 (by decide)
  simp only [this, orRaise, bind, Except.bind]

/-- **C66**, why task identifiers must not contain slashes: the part before the slash is taken for a part of the name of the
estimator. -/
theorem slash_misattributed (e t₁ t₂ : List Char) (n s : ℕ) (he : e ≠ []) (hen : '\n' ∉ e) (ht₁ : '\n' ∉ t₁)
    (ht : t₂ ≠ []) (htn : '\n' ∉ t₂) (hts : '/' ∉ t₂) :
    matchPat resultPat (fill resultPat [e, t₁ ++ '/' :: t₂, intStr n, intStr s])
      = some [e ++ '/' :: t₁, t₂, intStr n, intStr s] := by
  have h : fill resultPat [e, t₁ ++ '/' :: t₂, intStr n, intStr s]
      = fill resultPat [e ++ '/' :: t₁, t₂, intStr n, intStr s] := by
    simp [resultPat, fill]
  obtain ⟨h1, h2⟩ := intStr_digits (z := (n : ℤ)) (by omega)
  obtain ⟨h3, h4⟩ := intStr_digits (z := (s : ℤ)) (by omega)
  rw [h]
  refine matchPat_result _ _ _ _ (by simp) ?_ ht htn hts h1 h3 h2 h4
  simp only [List.mem_append, List.mem_cons, not_or]
  exact ⟨hen, by decide, ht₁⟩

/-- The last task with an identifier. -/
def lastWith (ts : List (Task α C P)) (k : String) : Option (Task α C P) :=
  ts.reverse.find? fun t => t.taskId = k

theorem set_keys {W : Type} (d : Dict W) (k : String) (v : W) :
    (d.set k v).map Prod.fst = if k ∈ d.map Prod.fst then d.map Prod.fst else d.map Prod.fst ++ [k] := by
  induction d with
  | nil => simp [Run.Dict.set]
  | cons a d ih =>
    obtain ⟨k', v'⟩ := a
    by_cases h : k' = k
    · simp [Run.Dict.set, h]
    · have h' : ¬ k = k' := fun e => h e.symm
      simp only [Run.Dict.set, if_neg h, List.map_cons, ih, List.mem_cons, h', false_or]
      split <;> rfl

/-- **C66**, why identifiers must differ: of several tasks with one identifier only the last one is run. -/
theorem same_id_last_wins (ts : List (Task α C P)) (hid : ∀ t ∈ ts, t.id = .ok t.taskId) :
    ∃ d, tasksDict ts = .ok d ∧ (d.map Prod.fst).Nodup ∧ ∀ k, d.get k = lastWith ts k := by
  suffices H : ∀ (ts acc : List (Task α C P)) (d : Dict (Task α C P)), (∀ t ∈ ts, t.id = .ok t.taskId) →
      (d.map Prod.fst).Nodup → (∀ k, d.get k = lastWith acc k) →
      ∃ d', ts.foldlM (fun (d : Dict (Task α C P)) t => t.id.map fun i => d.set i t) d = Except.ok d' ∧
        (d'.map Prod.fst).Nodup ∧ ∀ k, d'.get k = lastWith (acc ++ ts) k from
    H ts [] [] hid List.nodup_nil fun k => rfl
  intro ts
  induction ts with
  | nil => intro acc d _ h1 h2; exact ⟨d, rfl, h1, by simpa using h2⟩
  | cons t ts ih =>
    intro acc d hid h1 h2
    rw [List.foldlM_cons, hid t List.mem_cons_self]
    have := ih (acc ++ [t]) (d.set t.taskId t) (fun t' ht' => hid t' (List.mem_cons_of_mem _ ht')) ?_ ?_
    · rw [List.append_assoc, List.singleton_append] at this
      exact this
    · rw [set_keys]
      split
      · exact h1
      · rename_i hnew
        exact List.nodup_append.2 ⟨h1, by simp, by
          rintro a ha b hb rfl
          rw [List.mem_singleton] at hb
          exact hnew (hb ▸ ha)⟩
    · intro k
      rw [Run.get_set, h2]
      unfold lastWith
      rw [List.reverse_append, List.reverse_singleton, List.singleton_append, List.find?_cons]
      by_cases hk : t.taskId = k <;> simp [hk]

/-- **C66**: identifiers made by the task constructors can be part of a path, whatever the arguments, if floats are printed
without slashes and line breaks. -/
theorem callId_name {Fl' : Type} (fm : TaskIds.Format Fl')
    (hr : ∀ a, '/' ∉ fm.repr a ∧ '\n' ∉ fm.repr a) (h5 : ∀ a, '/' ∉ fm.fix5 a ∧ '\n' ∉ fm.fix5 a)
    (t : TaskIds.Call Fl') : t.id fm ≠ [] ∧ '\n' ∉ t.id fm ∧ '/' ∉ t.id fm := by
  have hn : ∀ n : ℕ, '/' ∉ TaskIds.nat n ∧ '\n' ∉ TaskIds.nat n := fun n =>
    ⟨digits_ne _ (fun d hd => TaskIds.nat_digit hd) (by decide), digits_ne _ (fun d hd => TaskIds.nat_digit hd) (by decide)⟩
  have hr1 := fun a => (hr a).1
  have hr2 := fun a => (hr a).2
  have h51 := fun a => (h5 a).1
  have h52 := fun a => (h5 a).2
  have hn1 := fun a => (hn a).1
  have hn2 := fun a => (hn a).2
  induction t <;> simp_all [TaskIds.Call.id]

/-- **C66**: the shipped configurations: identifiers of tasks and names of estimators differ and can be part of a path, and
seeds are not negative; so no task or run is lost. -/
theorem setups_usable (c : Setup) (h : c = setupV1 ∨ c = setupV2 ∨ c = setupDemo) :
    (c.tasks.map (TaskIds.Call.id cfgFormat)).Nodup ∧ c.estimators.Nodup ∧
    (∀ t ∈ c.tasks, t.id cfgFormat ≠ [] ∧ '\n' ∉ t.id cfgFormat ∧ '/' ∉ t.id cfgFormat) ∧
    (∀ e ∈ c.estimators, e ≠ [] ∧ '\n' ∉ e) ∧ (∀ s ∈ c.seeds, 0 ≤ s) ∧ c.ns.Nodup ∧ c.seeds.Nodup := by
  have hids : ∀ t : TaskIds.Call CfgF, t.id cfgFormat ≠ [] ∧ '\n' ∉ t.id cfgFormat ∧ '/' ∉ t.id cfgFormat :=
    callId_name cfgFormat (by intro a; cases a <;> decide) (by intro a; cases a <;> decide)
  rcases h with rfl | rfl | rfl
  all_goals
    refine ⟨by decide +kernel, by decide +kernel, fun t _ => hids t, by decide +kernel, by decide +kernel,
      by decide +kernel, by decide +kernel⟩

/-! ### Examples -/

/-- A configuration with two estimators, one of which always fails, and one task. -/
def exampleConfig : Config ℤ (Option ℤ) String ℤ ℕ where
  estimators := [("CCA", ⟨false, fun _ => .exc "" none, fun x _ => .ret ⟨some x.length, none, []⟩⟩),
    ("R/x", ⟨true, fun _ => .exc "no R" none, fun _ _ => .exc "" none⟩)]
  tasks := [⟨⟨.ok 1, .ok 1, .ok (.num 3), fun n s => .ok (.mat n 1 fun i _ => i + s, .mat n 1 fun i _ => i)⟩, "t-1", "T", none⟩]
  ns := [2, 5]
  seeds := [0, 7]
  nan := none
  str := id
  csv := id
  yaml := .ok
  measured := fun _ => some 0

theorem exampleConfig_ready : Ready exampleConfig where
  est_nodup := by decide
  est_name := by decide
  est_alive := by simp [exampleConfig]
  task_nodup := by simp [exampleConfig]
  task_name := by
    intro t ht
    simp only [exampleConfig, List.mem_singleton] at ht
    subst ht
    dsimp only
    decide
  task_id := by
    intro t ht
    simp only [exampleConfig, List.mem_singleton] at ht
    subst ht
    rfl
  seeds := by decide
  sample := by
    intro t ht n hn s hs
    simp only [exampleConfig, List.mem_singleton] at ht
    subst ht
    exact ⟨n, 1, 1, _, _, by omega, rfl⟩
  yaml := fun d => ⟨d, rfl⟩

example : ∃ lines, results exampleConfig = .ok lines ∧ lines.length = 8 := results_length _ exampleConfig_ready

example : ∃ lines, results exampleConfig = .ok lines ∧
    (lines.map fun l => (l.result.estimatorId, l.result.taskId, l.result.nSamples, l.result.seed)).Nodup := by
  refine results_nodup _ exampleConfig_ready (by decide) (by decide) ?_
  intro t ht n hn s hs m dx dy x y h
  simp only [exampleConfig, List.mem_singleton] at ht
  subst ht
  simp only [Except.ok.injEq, Prod.mk.injEq, NdArr.mat.injEq] at h
  exact h.1.1.symm

/-- A task whose seed is negative. -/
example (tasks : Dict (Task ℤ ℤ ℕ)) : sampleTask tasks "tasks/b/500--1.csv".toList = .error (.raised .valueError) :=
  negative_seed_fails tasks ['b'] (by simp) (by decide) 500 0

/-- Two tasks with one identifier. -/
example (f g : ℕ → ℤ → Except Err (NdArr ℤ × NdArr ℤ)) :
    ∃ d, tasksDict (α := ℤ) (P := ℕ) [⟨⟨.ok 1, .ok 1, .ok (.num 3), f⟩, "t", "A", none⟩,
      ⟨⟨.ok 1, .ok 2, .ok (.num 4), g⟩, "t", "B", none⟩] = .ok d ∧
      d.map (fun kt => (kt.1, kt.2.taskName)) = [("t", "B")] := ⟨_, rfl, rfl⟩

/-- `results/KSG/a/b/500-1.yaml` is taken for a run of `KSG/a` on the task `b`. -/
example : matchPat resultPat "results/KSG/a/b/500-1.yaml".toList
    = some ["KSG/a".toList, "b".toList, "500".toList, "1".toList] := by decide +kernel

example : (matchPat samplePat "tasks/b/500--1.csv".toList) = some ["b".toList, "500-".toList, "1".toList] := by
  decide +kernel

/-- **C66**: what a job that makes a sample does if it cannot: an unknown task is a KeyError, and exceptions of the task are passed on
unchanged. -/
theorem sampleTask_outcome (tasks : Dict (Task α C P)) (t : String) (ht : t.toList ≠ []) (htn : '\n' ∉ t.toList) (n s : ℕ) :
    (tasks.get t = none → sampleTask tasks (fill samplePat [t.toList, intStr n, intStr s]) = .error (.raised .keyError)) ∧
      ∀ T, tasks.get t = some T →
        (∀ e, T.saveSample n s = .error e → sampleTask tasks (fill samplePat [t.toList, intStr n, intStr s]) = .error (.raised e)) ∧
        ∀ f, T.saveSample n s = .ok f → sampleTask tasks (fill samplePat [t.toList, intStr n, intStr s]) = .ok f := by
  obtain ⟨hne, hnd⟩ := intStr_digits (z := (n : ℤ)) (by omega)
  obtain ⟨hse, hsd⟩ := intStr_digits (z := (s : ℤ)) (by omega)
  have hpyn : pyNat (intStr (n : ℤ)) = some n := digitsVal_toDigits n
  rw [sampleTask, matchPat_sample _ _ _ ht htn hne hse hnd hsd]
  simp only [hpyn, pyInt_intStr, orRaise, String.ofList_toList, bind, Except.bind]
  refine ⟨fun h => by rw [h], fun T h => ?_⟩
  rw [h]
  exact ⟨fun e he => by simp only [he, lift], fun f hf => by simp only [hf, lift]⟩

/-- **C66**: a job that applies an estimator fails as the job that makes its sample, and with a KeyError if the estimator is unknown. -/
theorem applyEstimator_fails (cfg : Config α F V C P) (tasks : Dict (Task α C P)) (e t : String) (he : e.toList ≠ []) (hen : '\n' ∉ e.toList)
    (ht : t.toList ≠ []) (htn : '\n' ∉ t.toList) (hts : '/' ∉ t.toList) (n s : ℕ) :
    (∀ x, sampleTask tasks (fill samplePat [t.toList, intStr n, intStr s]) = .error x →
      applyEstimator cfg tasks (fill resultPat [e.toList, t.toList, intStr n, intStr s]) = .error x) ∧
    ((∃ f, sampleTask tasks (fill samplePat [t.toList, intStr n, intStr s]) = .ok f) → cfg.estimators.get e = none →
      applyEstimator cfg tasks (fill resultPat [e.toList, t.toList, intStr n, intStr s]) = .error (.raised .keyError)) := by
  obtain ⟨hne, hnd⟩ := intStr_digits (z := (n : ℤ)) (by omega)
  obtain ⟨hse, hsd⟩ := intStr_digits (z := (s : ℤ)) (by omega)
  rw [applyEstimator, matchPat_result _ _ _ _ he hen ht htn hts hne hse hnd hsd]
  refine ⟨fun x hx => by simp only [hx, bind, Except.bind], ?_⟩
  rintro ⟨f, hf⟩ h
  simp only [hf, bind, Except.bind, String.ofList_toList, h, orRaise]

/-- **C66**: if some task has no identifier, there is no table of results, only the exception that the task raises. -/
theorem results_without_ids (cfg : Config α F V C P) (e : Err) (h : tasksDict cfg.tasks = .error e) : results cfg = .error (.raised e) := by
  simp only [results, h, lift, bind, Except.bind]

/-- A task that is not there. -/
example : sampleTask ([] : Dict (Task ℚ ℕ ℕ)) (fill samplePat ["1v1-normal-0.75".toList, intStr 100, intStr 0]) = .error (.raised .keyError) :=
  (sampleTask_outcome [] "1v1-normal-0.75" (by decide) (by decide) 100 0).1 rfl

end BMI.Workflow
