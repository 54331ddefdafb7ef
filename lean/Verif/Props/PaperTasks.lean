import Verif.Props.PaperBenchmark
import Verif.Props.Scaling
import Verif.Props.Workflow
import Verif.Lemmas.FactsPositive

/-! C91: the tasks of the benchmark workflows of the paper, and the workflows as configured. -/

namespace BMI.Paper

open MeasureTheory BMI.Registry BMI.TaskIds BMI.FigureTables BMI.Samplers BMI.Student BMI.Scaling BMI.Task
open BMI.Tables (Row average estimates)

variable {Key State V : Type} [MeasurableSpace Key] [MeasurableSpace State] {R : JaxRandom Key} {κ : Measure Key}
  {N : NpRandom State} {μ : Measure State}

theorem forall2_trans {A B C : Type} {P : A → B → Prop} {Q : B → C → Prop} {l : List A} {m : List B} {k : List C}
    (h1 : List.Forall₂ P l m) (h2 : List.Forall₂ Q m k) : List.Forall₂ (fun a c => ∃ b, P a b ∧ Q b c) l k := by
  induction h1 generalizing k with
  | nil => cases h2; exact .nil
  | cons h _ ih =>
    cases h2 with
    | cons h' ht => exact .cons ⟨_, h, h'⟩ (ih ht)

theorem forall2_left {A B : Type} {P : A → B → Prop} {l : List A} {m : List B} (h : List.Forall₂ P l m) :
    ∀ b ∈ m, ∃ a ∈ l, P a b := by
  induction h with
  | nil => exact fun b hb => absurd hb List.not_mem_nil
  | cons h _ ih =>
    intro b hb
    rcases List.mem_cons.1 hb with rfl | hb
    · exact ⟨_, List.mem_cons_self, h⟩
    · obtain ⟨a, ha, h⟩ := ih b hb
      exact ⟨a, List.mem_cons_of_mem _ ha, h⟩

theorem forall2_mapM {A B C E : Type} {f : B → Except E C} {Q : A → C → Prop} {l : List A} {m : List B}
    (h : List.Forall₂ (fun a b => ∃ c, f b = .ok c ∧ Q a c) l m) : ∃ k, m.mapM f = .ok k ∧ List.Forall₂ Q l k := by
  induction h with
  | nil => exact ⟨[], rfl, .nil⟩
  | cons h _ ih =>
    obtain ⟨c, e1, e2⟩ := h
    obtain ⟨k, e3, e4⟩ := ih
    refine ⟨c :: k, ?_, .cons e2 e4⟩
    rw [List.mapM_cons, e1, e3]
    rfl

/-- The dictionary of the tasks of the benchmark. -/
theorem all_tasks (hR : IdealRandom R κ) (hN : IdealStudent N μ) (other : Call RegF → Except Err (Built Key State)) :
    ∃ tasks : List (TaskObj Key State), Registry.benchmarkTasks R N other = .ok (tasks.map fun t => (t.id, t)) ∧
      List.Forall₂ (Described R κ N μ) Registry.entries tasks ∧ (tasks.map TaskObj.id).Nodup := by
  obtain ⟨tasks, h1, h2⟩ := Registry.mapM_forall2 (Q := Described R κ N μ) Registry.entries (entry_described hR hN other)
  have hid : tasks.map TaskObj.id = registry.map (Call.id regFormat) := by
    rw [← entries_calls, List.map_map]
    exact forall2_map (h2.imp fun _ _ h => h.1)
  have hnd : (tasks.map TaskObj.id).Nodup := by rw [hid]; exact registry_ids_nodup
  refine ⟨tasks, ?_, h2, hnd⟩
  have := foldl_insert tasks [] (by simpa using hnd)
  simp only [Registry.benchmarkTasks, h1, bind, Except.bind]
  exact congrArg _ this

theorem lookup_of_mem {T : Type} {all : List (List Char × T)} (hn : (all.map Prod.fst).Nodup) {i : List Char} {t : T}
    (h : (i, t) ∈ all) : all.lookup i = some t := by
  induction all with
  | nil => cases h
  | cons a all ih =>
    rw [List.map_cons, List.nodup_cons] at hn
    rcases List.mem_cons.1 h with rfl | h
    · simp
    · have hne : (i == a.1) = false := by
        rw [beq_eq_false_iff_ne]
        rintro rfl
        exact hn.1 (List.mem_map.2 ⟨_, h, rfl⟩)
      rw [List.lookup_cons, hne]
      exact ih hn.2 h

/-- The tasks a workflow asks for are found. -/
theorem chosen_ok {c : Setup} {es : List Entry} (hc : Covers c es) (tasks : List (TaskObj Key State))
    (h2 : List.Forall₂ (Described R κ N μ) Registry.entries tasks) (hnd : (tasks.map TaskObj.id).Nodup) :
    ∃ picked, choose (tasks.map fun t => (t.id, t)) c.chosen = .ok picked ∧
      List.Forall₂ (fun e kt => kt ∈ (tasks.map fun t => (t.id, t)) ∧ kt.1 = kt.2.id ∧ Described R κ N μ e kt.2) es picked := by
  rw [Covers] at hc
  split at hc
  · rename_i hch
    subst hc
    refine ⟨_, by rw [hch]; rfl, ?_⟩
    rw [List.forall₂_map_right_iff]
    have hmem : ∀ t ∈ tasks, t ∈ tasks := fun t ht => ht
    clear hnd
    suffices H : ∀ (es : List Entry) (ts : List (TaskObj Key State)), List.Forall₂ (Described R κ N μ) es ts →
        (∀ t ∈ ts, t ∈ tasks) → List.Forall₂ (fun e t => (t.id, t) ∈ (tasks.map fun t => (t.id, t)) ∧ t.id = t.id ∧
          Described R κ N μ e t) es ts from H Registry.entries tasks h2 hmem
    intro es ts h
    induction h with
    | nil => exact fun _ => .nil
    | cons hd _ ih =>
      intro hall
      exact .cons ⟨List.mem_map.2 ⟨_, hall _ List.mem_cons_self, rfl⟩, rfl, hd⟩
        (ih fun t ht => hall t (List.mem_cons_of_mem _ ht))
  · rename_i ids hch
    obtain ⟨rfl, -, hes⟩ := hc
    have hkeys : ((tasks.map fun t => (t.id, t)).map Prod.fst).Nodup := by rw [List.map_map]; exact hnd
    have hfind : ∀ e ∈ Registry.entries, ∃ t ∈ tasks, Described R κ N μ e t := by
      intro e he
      exact forall2_left h2.flip e he
    rw [hch]
    simp only [choose, List.mapM_map]
    refine Registry.mapM_forall2 es fun e he => ?_
    obtain ⟨t, ht, hd⟩ := hfind e (hes e he)
    have hin : (e.call.id regFormat, t) ∈ tasks.map fun t => (t.id, t) := List.mem_map.2 ⟨t, ht, by rw [hd.1]⟩
    exact ⟨(e.call.id regFormat, t), by rw [Function.comp_apply, lookup_of_mem hkeys hin], hin, hd.1.symm, hd⟩

theorem factOf_pos (e : Entry) (he : e ∈ Registry.entries) : 0 < (factOf e).1 ∧ 0 < (factOf e).2.1 ∧ 0 < (factOf e).2.2 :=
  facts_pos _ (entries_facts ▸ List.mem_map.2 ⟨e, he, rfl⟩)

theorem entries_texts : ∀ e ∈ Registry.entries, e.name ≠ [] ∧ e.call.id regFormat ≠ [] := by
  decide +kernel

theorem ofList_ne {l : List Char} (h : l ≠ []) : String.ofList l ≠ "" := fun he => h (ofList_inj he)

/-- A task of the benchmark, as its user sees it. -/
theorem view_readable (params : List Char → List (String × V)) {e : Entry} (he : e ∈ Registry.entries) {t : TaskObj Key State}
    (hd : Described R κ N μ e t) : Readable (view params t) (factOf e).1 (factOf e).2.1 (factOf e).2.2 := by
  obtain ⟨h1, h2, h3⟩ := factOf_pos e he
  obtain ⟨-, -, d1, d2, d3, -⟩ := hd
  exact ⟨d1, d2, ⟨h1, h2⟩, by show Except.ok (Training.Fl.num t.sampler.mi) = _; rw [d3], h3.le⟩

theorem taskId_of_id {t : Task ℝ ℝ (String × V)} {i : String} (h : t.id = .ok i) : t.taskId = i := by
  unfold Task.id Task.metadata at h
  simp only [bind, Except.bind] at h
  split at h
  · cases h
  · split at h
    · cases h
    · split at h
      · cases h
      · split at h
        · exact Except.ok.inj h
        · cases h

/-- What holds of a preprocessed task. -/
structure Ready (R : JaxRandom Key) (κ : Measure Key) (N : NpRandom State) (μ : Measure State) (L : Lib) (p : Prep)
    (all : List (List Char × TaskObj Key State)) (e : Entry) (kt : String × Task ℝ ℝ (String × V)) : Prop where
  info : infoOf kt = .ok (wanted p e)
  id : kt.2.id = .ok kt.1
  dimX : kt.2.dimX = .ok (factOf e).1
  dimY : kt.2.dimY = .ok (factOf e).2.1
  sample : ∃ t, (e.call.id regFormat, t) ∈ all ∧ t.name = e.name ∧
    (e.call ≠ .bimodal .f0_75 → HonestTask R κ N μ (lawOf regVal e.call) t.sampler) ∧
    ∀ n z, kt.2.sample n z = (t.sampler.sample n z).bind fun xy =>
      (p.apply L (toNd xy.1)).bind fun x => (p.apply L (toNd xy.2)).map fun y => (x, y)

theorem ids_injOn : ∀ e ∈ Registry.entries, ∀ e' ∈ Registry.entries, e.call.id regFormat = e'.call.id regFormat → e = e' := by
  have h : (Registry.entries.map fun e => e.call.id regFormat).Nodup := by
    have := registry_ids_nodup
    rwa [← entries_calls, List.map_map] at this
  exact fun e he e' he' hh => List.inj_on_of_nodup_map h he he' hh

theorem covers_mem {c : Setup} {es : List Entry} (hc : Covers c es) : (∀ e ∈ es, e ∈ Registry.entries) ∧ es.Nodup := by
  rw [Covers] at hc
  split at hc
  · subst hc
    refine ⟨fun e he => he, ?_⟩
    have := names_nodup
    exact List.Nodup.of_map _ this
  · exact ⟨hc.2.2, hc.2.1⟩

theorem wanted_nodup (p : Prep) {es : List Entry} (hes : ∀ e ∈ es, e ∈ Registry.entries) (hnd : es.Nodup) :
    ((es.map (wanted p)).map TaskInfo.id).Nodup := by
  rw [List.map_map]
  refine (List.nodup_map_iff_inj_on hnd).2 fun e he e' he' hh => ?_
  have := ofList_inj hh
  exact ids_injOn e (hes e he) e' (hes e' he') (List.append_cancel_left this)

/-- **C91** The array which preprocessing sees has the rows of the sample: as many rows and columns, with the same numbers. -/
theorem toNd_rows (a : Samplers.Arr) (d : ℕ) (hne : a ≠ []) (ha : ∀ r ∈ a, r.length = d) :
    ∃ v : Fin a.length → Fin d → ℝ, toNd a = .mat a.length d v ∧ List.ofFn (fun i => List.ofFn (v i)) = a := by
  have hd : (a.headD []).length = d := by
    cases a with
    | nil => exact absurd rfl hne
    | cons r _ => exact ha r List.mem_cons_self
  subst hd
  refine ⟨_, rfl, List.ext_getElem (by simp) fun i h1 h2 => List.ext_getElem ?_ fun j h3 h4 => ?_⟩
  · rw [List.getElem_ofFn, List.length_ofFn, ha _ (List.getElem_mem h2)]
  · simp [List.getD_eq_getElem?_getD, List.getElem?_eq_getElem h4]

example : ∃ v : Fin 2 → Fin 3 → ℝ, toNd [[1, 2, 3], [4, 5, 6]] = .mat 2 3 v ∧
    List.ofFn (fun i => List.ofFn (v i)) = [[1, 2, 3], [4, 5, 6]] :=
  toNd_rows [[1, 2, 3], [4, 5, 6]] 3 (by simp) (by simp)

/-- **C91** The tasks of a workflow: all tasks it asks for exist and can be preprocessed.  Under keys that differ and are their own
identifiers they keep the order, the names (with the heading of the preprocessing), the dimensions and the mutual information; and
a sample is the sample of the original task for the same seed, X and Y preprocessed separately.  Apart from the bimodal task the
original task is honest. -/
theorem tasks_ready (hR : IdealRandom R κ) (hN : IdealStudent N μ) (other : Call RegF → Except Err (Built Key State)) (L : Lib)
    (num : ℕ → V) (params : List Char → List (String × V)) {c : Setup} {es : List Entry} (hc : Covers c es) :
    ∃ all ts, Registry.benchmarkTasks R N other = .ok all ∧ tasksOf L num params all c = .ok ts ∧
      ts.mapM infoOf = .ok (es.map (wanted c.prep)) ∧ ((es.map (wanted c.prep)).map TaskInfo.id).Nodup ∧
      (∀ t ∈ es.map (wanted c.prep), 0 < t.mi) ∧ List.Forall₂ (Ready R κ N μ L c.prep all) es ts := by
  obtain ⟨tasks, h1, h2, h3⟩ := all_tasks hR hN other
  obtain ⟨picked, h4, h5⟩ := chosen_ok (c := c) hc tasks h2 h3
  obtain ⟨hes, hnd⟩ := covers_mem hc
  have hids := wanted_nodup c.prep hes hnd
  have hpos : ∀ t ∈ es.map (wanted c.prep), 0 < t.mi := by
    intro t ht
    obtain ⟨e, he, rfl⟩ := List.mem_map.1 ht
    exact (factOf_pos e (hes e he)).2.2
  have h5' : List.Forall₂ (fun e kt => e ∈ Registry.entries ∧ kt ∈ (tasks.map fun t => (t.id, t)) ∧ kt.1 = kt.2.id ∧
      Described R κ N μ e kt.2) es picked := by
    clear h4 hids hpos hnd hc
    induction h5 with
    | nil => exact .nil
    | cons h _ ih =>
      exact .cons ⟨hes _ List.mem_cons_self, h⟩ (ih fun e he => hes e (List.mem_cons_of_mem _ he))
  suffices H : ∃ ts, tasksOf L num params (tasks.map fun t => (t.id, t)) c = .ok ts ∧
      List.Forall₂ (Ready R κ N μ L c.prep (tasks.map fun t => (t.id, t))) es ts by
    obtain ⟨ts, h6, h7⟩ := H
    refine ⟨_, ts, h1, h6, ?_, hids, hpos, h7⟩
    clear h6 hids hpos hnd hc h5 h5' h4
    induction h7 with
    | nil => rfl
    | cons h _ ih =>
      rw [List.mapM_cons, h.info, ih fun e he => hes e (List.mem_cons_of_mem _ he)]
      rfl
  have hlift : ∀ (e : Entry) (t : TaskObj Key State) (t' : Task ℝ ℝ (String × V)) (k nm : String), e ∈ Registry.entries →
      (t.id, t) ∈ (tasks.map fun t => (t.id, t)) → Described R κ N μ e t → t'.id = .ok k → t'.name = .ok nm →
      k = (wanted c.prep e).id → nm = (wanted c.prep e).name → t'.mi = .ok (.num (factOf e).2.2) →
      t'.dimX = .ok (factOf e).1 → t'.dimY = .ok (factOf e).2.1 →
      (∀ n z, t'.sample n z = ((view params t).sample n z).bind fun xy =>
        (c.prep.apply L xy.1).bind fun x => (c.prep.apply L xy.2).map fun y => (x, y)) →
      Ready R κ N μ L c.prep (tasks.map fun t => (t.id, t)) e (k, t') := by
    intro e t t' k nm he hin hd i1 i2 i3 i4 i5 i6 i7 i8
    refine ⟨?_, i1, i6, i7, t, by rw [← hd.1]; exact hin, hd.2.1, fun hb => ?_, fun n z => ?_⟩
    · simp only [infoOf, i2, i5, bind, Except.bind, i3, i4]
      rfl
    · have := hd.2.2.2.2.2
      rwa [if_neg hb] at this
    · rw [i8 n z]
      have : (view params t).sample n z = (t.sampler.sample n z).map fun xy => (toNd xy.1, toNd xy.2) := rfl
      rw [this]
      rcases t.sampler.sample n z with _ | xy <;> rfl
  have hv : List.Forall₂ (fun e (kt : String × Task ℝ ℝ (String × V)) => ∃ t : TaskObj Key State, e ∈ Registry.entries ∧
      (t.id, t) ∈ (tasks.map fun t => (t.id, t)) ∧ Described R κ N μ e t ∧ kt = (String.ofList t.id, view params t)) es
      (picked.map fun kt => (String.ofList kt.1, view params kt.2)) := by
    rw [List.forall₂_map_right_iff]
    refine h5'.imp fun e kt h => ⟨kt.2, h.1, ?_, h.2.2.2, by rw [h.2.2.1]⟩
    have := h.2.1
    rw [show kt = (kt.2.id, kt.2) from Prod.ext h.2.2.1 rfl] at this
    exact this
  set vs := picked.map fun kt => (String.ofList kt.1, view params kt.2) with hvs
  have hquant : ∀ (out : Output) (hp : c.prep = if out = .uniform then .uniformised else .gaussianised),
      ∃ ts, ((do
        let ts ← (vs.map Prod.snd).mapM fun t => transformQuantile L num out t none 100 0
        Workflow.tasksDict ts) : Except Err (List (String × Task ℝ ℝ (String × V)))) = .ok ts ∧
        List.Forall₂ (Ready R κ N μ L c.prep (tasks.map fun t => (t.id, t))) es ts := by
    intro out hp
    have hstep : List.Forall₂ (fun e (kt : String × Task ℝ ℝ (String × V)) => ∃ t', transformQuantile L num out kt.2 none 100 0
        = .ok t' ∧ t'.taskId = (wanted c.prep e).id ∧ Ready R κ N μ L c.prep (tasks.map fun t => (t.id, t)) e (t'.taskId, t'))
        es vs := by
      refine hv.imp fun e kt h => ?_
      obtain ⟨t, he, hin, hd, rfl⟩ := h
      have hb := view_readable params he hd
      obtain ⟨t', q1, q2, q3, q4, q5, q6, -, q8⟩ := quantile_task L num out (view params t) hb none 100 0
      have hk := taskId_of_id q2
      have hid : (if out = .uniform then "uniformise-" else "gaussianise-") ++ (view params t).taskId = (wanted c.prep e).id := by
        rw [hp, wanted]
        show _ ++ String.ofList t.id = _
        rw [hd.1]
        cases out <;> simp only [if_true, reduceCtorEq, if_false, Prep.inFront, String.ofList_append] <;> rfl
      have hnm : (if out = .uniform then "Uniformise @ " else "Gaussianise @ ") ++ (view params t).taskName
          = (wanted c.prep e).name := by
        rw [hp, wanted]
        show _ ++ String.ofList t.name = _
        rw [hd.2.1]
        cases out <;> simp only [if_true, reduceCtorEq, if_false, Prep.heading, String.ofList_append] <;> rfl
      refine ⟨t', q1, hk.trans hid, ?_⟩
      refine hlift e t t' t'.taskId _ he hin hd (by rw [hk]; exact q2) q3 (hk.trans hid) ?_ q6 q4 q5 fun n z => ?_
      · simpa using hnm
      · rw [q8 n z, hp]
        cases out <;> rfl
    have hstep' := (List.forall₂_map_right_iff (f := Prod.snd) (l := es) (u := vs) (R := fun e (t : Task ℝ ℝ (String × V)) =>
      ∃ t', transformQuantile L num out t none 100 0 = .ok t' ∧ t'.taskId = (wanted c.prep e).id ∧
        Ready R κ N μ L c.prep (tasks.map fun t => (t.id, t)) e (t'.taskId, t'))).2 hstep
    obtain ⟨ts, hm, hf⟩ := forall2_mapM hstep'
    have hnd' : (ts.map Task.taskId).Nodup := by
      have : ts.map Task.taskId = es.map (fun e => (wanted c.prep e).id) := forall2_map (hf.imp fun _ _ h => h.1)
      rw [this]
      rwa [List.map_map] at hids
    have hid : ∀ t ∈ ts, t.id = .ok t.taskId := by
      intro t ht
      obtain ⟨e, _, h⟩ := forall2_left hf t ht
      exact h.2.id
    refine ⟨ts.map fun t => (t.taskId, t), ?_, ?_⟩
    · simp only [hm, bind, Except.bind]
      exact Workflow.tasksDict_ok ts hid hnd'
    · rw [List.forall₂_map_right_iff]
      exact hf.imp fun _ _ h => h.2
  have htasks : tasksOf L num params (tasks.map fun t => (t.id, t)) c = (match c.prep with
      | Prep.rescaled => scaleTasks L.eps vs
      | Prep.gaussianised => do
        let ts ← (vs.map Prod.snd).mapM fun t => transformQuantile L num .normal t none 100 0
        Workflow.tasksDict ts
      | Prep.uniformised => do
        let ts ← (vs.map Prod.snd).mapM fun t => transformQuantile L num .uniform t none 100 0
        Workflow.tasksDict ts) := by
    simp only [tasksOf, h4, bind, Except.bind]
    rfl
  rw [htasks]
  cases hp : c.prep with
  | gaussianised => have := hquant .normal (by rw [hp]; rfl); rwa [hp] at this
  | uniformised => have := hquant .uniform (by rw [hp]; rfl); rwa [hp] at this
  | rescaled =>
    dsimp only
    obtain ⟨r, e1, e2⟩ := scaleTasks_spec L.eps vs (by
      intro kt hkt
      obtain ⟨e, -, t, he, -, hd, rfl⟩ := forall2_left hv kt hkt
      obtain ⟨n1, n2⟩ := entries_texts e he
      refine ⟨⟨_, _, _, view_readable params he hd⟩, ofList_ne (hd.1 ▸ n2), ofList_ne (hd.2.1 ▸ n1)⟩)
    refine ⟨r, e1, ?_⟩
    refine (forall2_trans hv e2).imp fun e kt' h => ?_
    obtain ⟨kt, ⟨t, he, hin, hd, rfl⟩, r1, r2, r3, r4, r5, r6, -, r8⟩ := h
    have hb := view_readable params he hd
    obtain ⟨b1, b2, b3, b4, b5, -⟩ := Task.task_advertises (view params t) _ _ _ hb.dimX hb.dimY hb.mi hb.nonneg
    obtain ⟨k, t'⟩ := kt'
    dsimp only at r1 r2 r3 r4 r5 r6 r8
    have := hlift e t t' k (String.ofList t.name) he hin hd ?_ ?_ ?_ ?_ ?_ ?_ ?_ ?_
    · exact hp ▸ this
    · rw [r2, b1, r1]; rfl
    · rw [r3, b2]; rfl
    · rw [r1, hp, wanted, hd.1]; rfl
    · rw [hp, wanted, hd.2.1]; rfl
    · rw [r6, b5, hb.mi]
    · rw [r4, b3, hb.dimX]
    · rw [r5, b4, hb.dimY]
    · intro n z
      rw [r8 n z, hp]
      rfl

end BMI.Paper
