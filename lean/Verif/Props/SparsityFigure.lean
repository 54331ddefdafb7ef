import Verif.Spec.SparsityFigure
import Verif.Props.Sparsity
import Verif.Props.HighMi

/-! C93: the workflow and the two figures between dense and sparse interactions. -/

namespace BMI.SparsityFigure

open MeasureTheory BMI.Samplers BMI.Search BMI.Student
open BMI.Concept (fixed)
open BMI.Training (Fl)
open BMI.Task (Task)
open BMI.Run (Dict)
open BMI.Workflow (Line Est)
open BMI.ReadResults (PVal lookup)
open BMI.MiFigure (Row Fig plotMi number below column Shows IsFigure Kept)
open BMI.TaskIds (Call Format)
open BMI.HighMi (World Usable compose average_near params_fact)

variable {Key V : Type} [MeasurableSpace Key]

/-! ## The tasks -/

theorem ten_pos : 0 < 10 := by norm_num

theorem desired_eq : desired = 1 := by norm_num [desired]

/-- The correlations of the covariance. -/
theorem shade_of {k : ℕ} {α l : ℝ} {C : Matrix (Fin (10 + 10)) (Fin (10 + 10)) ℝ} (h : IsLvmCovariance k α l 0 l C) :
    IsShade k α l (correlationOf C) := by
  have hv : (0 : ℝ) < 1 + α ^ 2 + l ^ 2 := by positivity
  have dx : ∀ i : Fin 10, C (Fin.castAdd 10 i) (Fin.castAdd 10 i) = 1 + α ^ 2 + l ^ 2 := by
    intro i
    rw [h.xx, if_pos rfl]
    split_ifs <;> ring
  have dy : ∀ i : Fin 10, C (Fin.natAdd 10 i) (Fin.natAdd 10 i) = 1 + α ^ 2 + l ^ 2 := by
    intro i
    rw [h.yy, if_pos rfl]
    split_ifs <;> ring
  refine ⟨fun i j => ?_, fun i j => ?_, fun i j => ?_, fun i j => ?_⟩
  · simp only [correlationOf, Matrix.of_apply, dx, Real.mul_self_sqrt hv.le]
    by_cases e : i = j
    · subst e
      rw [if_pos rfl, dx, div_self hv.ne']
    · rw [if_neg e, h.xx, if_neg e]
      congr 1
      ring
  · simp only [correlationOf, Matrix.of_apply, dy, Real.mul_self_sqrt hv.le]
    by_cases e : i = j
    · subst e
      rw [if_pos rfl, dy, div_self hv.ne']
    · rw [if_neg e, h.yy, if_neg e]
      congr 1
      ring
  · simp only [correlationOf, Matrix.of_apply, dx, dy, Real.mul_self_sqrt hv.le, h.xy, Fin.val_inj]
    by_cases e : i = j ∧ (i : ℕ) < k
    · rw [if_pos e, if_pos e]
    · rw [if_neg e, if_neg e, add_zero]
  · simp only [correlationOf, Matrix.of_apply, dx, dy, h.xy, h.yx]

theorem settings_eq : settings = (List.range 10).map (fun i : ℕ => (10, (i : ℝ) * (Sparsity.alpha0 / 9))) ++
    (List.range' 1 9).map fun k : ℕ => (k, (0 : ℝ)) := rfl

theorem settings_nonneg {p : ℕ × ℝ} (h : p ∈ settings) : 0 ≤ p.2 := by
  rcases List.mem_append.1 h with h | h
  · obtain ⟨i, -, rfl⟩ := List.mem_map.1 h
    have : (0 : ℝ) < top := by norm_num [top]
    dsimp only
    positivity
  · obtain ⟨i, -, rfl⟩ := List.mem_map.1 h
    exact le_rfl

/-- A task before it is rescaled. -/
structure IsMade (R : JaxRandom Key) (κ : Measure Key) (p : ℕ × ℝ) (t : Call ℝ × Sampler Key) : Prop where
  nonneg : 0 ≤ p.2
  lvm : ∃ l, 0 < l ∧ l < 10 ∧ Sparsity.IsLvmTask R κ 10 p.1 p.2 l t ∧ |t.2.mi - 1| < 1e-4

theorem forall2_mem {A B : Type} {S : A → B → Prop} {a : List A} {b : List B} (h : List.Forall₂ S a b) :
    List.Forall₂ (fun x y => x ∈ a ∧ S x y) a b := by
  rw [List.forall₂_iff_zip] at h ⊢
  exact ⟨h.1, fun hm => ⟨(List.of_mem_zip hm).1, h.2 hm⟩⟩

/-- **C93** The list of tasks. -/
theorem taskList_spec (R : JaxRandom Key) (κ : Measure Key) (hR : IdealRandom R κ) (uniform : ℝ → ℝ → ℕ → ℝ) {fm : Format ℝ} (hfm : Prints fm) :
    ∃ ts, Sparsity.taskList R uniform desired dim = .ok ts ∧ List.Forall₂ (IsMade R κ) settings ts ∧ (ts.map fun t => t.1.id fm).Nodup := by
  obtain ⟨ts, h1, h2⟩ := Sparsity.figure_tasks R κ hR uniform
  obtain ⟨ts', h3, -, h4⟩ := Sparsity.figure_ids R κ hR uniform fm ⟨hfm.close, hfm.nodash⟩
  obtain rfl : ts = ts' := Except.ok.inj (h1.symm.trans h3)
  rw [← settings_eq] at h2
  refine ⟨ts, by rw [desired_eq]; exact h1, (forall2_mem h2).imp fun p t h => ⟨settings_nonneg h.1, h.2⟩, h4⟩

theorem made_law {R : JaxRandom Key} {κ : Measure Key} {p : ℕ × ℝ} {t : Call ℝ × Sampler Key} {l : ℝ} (h : Sparsity.IsLvmTask R κ 10 p.1 p.2 l t) :
    ∃ M, IsShade p.1 p.2 l M ∧ Correct R κ t.2 10 10 (pairs M) := by
  obtain ⟨C, c1, c2⟩ := h.sampler
  exact ⟨_, shade_of c1, c2⟩

theorem made_readable {R : JaxRandom Key} {κ : Measure Key} {fm : Format ℝ} {p : ℕ × ℝ} {t : Call ℝ × Sampler Key} (h : IsMade R κ p t) :
    Scaling.Readable (toTask fm t) 10 10 t.2.mi := by
  obtain ⟨l, -, -, h, -⟩ := h.lvm
  obtain ⟨M, -, hQ⟩ := made_law h
  exact ⟨hQ.shape.2.2.1, hQ.shape.2.2.2.1, ⟨by norm_num, by norm_num⟩, rfl, hQ.nonneg⟩

theorem made_id {R : JaxRandom Key} {κ : Measure Key} {fm : Format ℝ} (hfm : Prints fm) {p : ℕ × ℝ} {t : Call ℝ × Sampler Key} (h : IsMade R κ p t) :
    t.1.id fm ≠ [] ∧ '\n' ∉ t.1.id fm ∧ '/' ∉ t.1.id fm := by
  obtain ⟨l, h0, -, h1, -⟩ := h.lvm
  rw [h1.params]
  have dig : ∀ c n, ¬ c.isDigit → c ∉ TaskIds.nat n := fun c n hc h => hc (TaskIds.nat_digit h)
  obtain ⟨a1, a2⟩ := hfm.plain p.2 h.nonneg
  obtain ⟨b1, b2⟩ := hfm.plain l h0.le
  obtain ⟨c1, c2⟩ := hfm.plain 0 le_rfl
  refine ⟨?_, ?_, ?_⟩
  · simp [Call.id]
  · simp [Call.id, a1, b1, c1, dig '\n' _ (by decide)]
  · simp [Call.id, a2, b2, c2, dig '/' _ (by decide)]

theorem task_of {R : JaxRandom Key} {κ : Measure Key} {fm : Format ℝ} {eps : ℝ} (heps : 0 < eps) {p : ℕ × ℝ} {m : Call ℝ × Sampler Key}
    (h : IsMade R κ p m) {t : String × Task ℝ ℝ (String × PVal ℝ)} (ht : t.1 = (toTask fm m).taskId ∧ t.2.id = (toTask fm m).id ∧
      t.2.name = (toTask fm m).name ∧ t.2.dimX = (toTask fm m).dimX ∧ t.2.dimY = (toTask fm m).dimY ∧ t.2.mi = (toTask fm m).mi ∧
      t.2.getParams = (toTask fm m).getParams ∧ ∀ n seed, t.2.sample n seed = ((toTask fm m).sample n seed).bind fun xy =>
        (Scaling.rescale eps xy.1).bind fun x => (Scaling.rescale eps xy.2).map fun y => (x, y)) : IsTask R κ eps p t := by
  obtain ⟨k1, k2, k3, k4, k5, k6, k7, k8⟩ := ht
  have r := made_readable (fm := fm) h
  obtain ⟨a1, a2, a3, a4, a5, a6⟩ := Task.task_advertises (toTask fm m) 10 10 m.2.mi r.dimX r.dimY r.mi r.nonneg
  obtain ⟨l, l1, l2, l3, l4⟩ := h.lvm
  obtain ⟨M, hM, hQ⟩ := made_law l3
  refine ⟨k2.trans (a1.trans (congrArg Except.ok k1.symm)), ⟨ReadResults.params 1 m.1, k7.trans a6, ?_, ?_⟩, l, M, m.2, l1, l2, hM, hQ, l4,
    k4.trans (a3.trans r.dimX), k5.trans (a4.trans r.dimY), k6.trans (a5.trans r.mi), fun n hn seed => ?_⟩
  · rw [l3.params]
    rfl
  · rw [l3.params]
    rfl
  · obtain ⟨x, y, e⟩ := Concept.sample_rows hQ n seed
    obtain ⟨w, w1, w2⟩ := CoolTasks.standardised heps hn ten_pos x
    obtain ⟨u, u1, u2⟩ := CoolTasks.standardised heps hn ten_pos y
    refine ⟨x, y, w, u, e, ?_, w2, u2⟩
    have hs : (toTask fm m).sample n seed = .ok (.mat n 10 x, .mat n 10 y) := by
      show (m.2.sample n (.seed seed)).map _ = _
      rw [e]
      simp only [Except.map]
      rw [CoolTasks.ndarray_rows hn, CoolTasks.ndarray_rows hn]
    rw [k8, hs]
    simp only [Except.bind, w1, u1, Except.map]

/-- What is known about the keys of the dictionary. -/
structure GoodKeys (ts : List (String × Task ℝ ℝ (String × PVal ℝ))) : Prop where
  nodup : (ts.map Prod.fst).Nodup
  name : ∀ t ∈ ts, t.1.toList ≠ [] ∧ '\n' ∉ t.1.toList ∧ '/' ∉ t.1.toList

/-- **C93** The 19 tasks. -/
theorem tasks_spec (R : JaxRandom Key) (κ : Measure Key) (hR : IdealRandom R κ) (uniform : ℝ → ℝ → ℕ → ℝ) {fm : Format ℝ} (hfm : Prints fm)
    {eps : ℝ} (heps : 0 < eps) :
    ∃ ts, tasks R uniform fm eps = .ok ts ∧ List.Forall₂ (IsTask R κ eps) settings ts ∧ GoodKeys ts := by
  obtain ⟨ms, h1, h2, h3⟩ := taskList_spec R κ hR uniform hfm
  have hr : ∀ m ∈ ms, ∃ p ∈ settings, IsMade R κ p m := fun m hm => GmmBenchmark.forall2_right h2 m hm
  have hn : (ms.map fun m => (toTask fm m).taskId).Nodup := by
    have : (ms.map fun m => (toTask fm m).taskId) = (ms.map fun t => t.1.id fm).map String.ofList := by
      rw [List.map_map]
      rfl
    rw [this]
    exact h3.map fun a b e => by simpa using congrArg String.toList e
  have hd := Workflow.tasksDict_ok (ms.map (toTask fm)) (by
    intro t ht
    obtain ⟨m, hm, rfl⟩ := List.mem_map.1 ht
    obtain ⟨p, -, hp⟩ := hr m hm
    have r := made_readable (fm := fm) hp
    exact (Task.task_advertises _ 10 10 _ r.dimX r.dimY r.mi r.nonneg).1) (by rw [List.map_map]; exact hn)
  obtain ⟨ts, h4, h5⟩ := Scaling.scaleTasks_spec eps ((ms.map (toTask fm)).map fun t => (t.taskId, t)) (by
    intro kt hkt
    rw [List.map_map] at hkt
    obtain ⟨m, hm, rfl⟩ := List.mem_map.1 hkt
    obtain ⟨p, -, hp⟩ := hr m hm
    refine ⟨⟨_, _, _, made_readable hp⟩, fun e => (made_id hfm hp).1 ?_, ?_⟩
    · simpa [toTask] using congrArg String.toList e
    · show ("Multinormal " ++ toString dim ++ " × " ++ toString dim ++ " (LVM)" : String) ≠ ""
      decide)
  refine ⟨ts, by simp only [tasks, h1, hd, bind, Except.bind]; exact h4, ?_, ?_, ?_⟩
  · rw [List.map_map, List.forall₂_map_left_iff] at h5
    exact compose h2 h5 fun p m t ha hb => task_of heps ha hb
  · have := GmmBenchmark.forall2_map_eq h5 Prod.fst Prod.fst fun q m h => h.1.symm
    rw [← this, List.map_map, List.map_map]
    exact hn
  · intro t ht
    obtain ⟨kt, hkt, hk⟩ := GmmBenchmark.forall2_right h5 t ht
    rw [List.map_map] at hkt
    obtain ⟨m, hm, rfl⟩ := List.mem_map.1 hkt
    obtain ⟨p, -, hp⟩ := hr m hm
    rw [hk.1]
    simpa [toTask] using made_id hfm hp

/-! ## The results -/

theorem task_known {R : JaxRandom Key} {κ : Measure Key} {eps : ℝ} {p : ℕ × ℝ} {t : String × Task ℝ ℝ (String × PVal ℝ)}
    (h : IsTask R κ eps p t) : t.2.taskId = t.1 ∧ (∃ a, |a - 1| < 1e-4 ∧ t.2.sampler.mi = .ok (.num a)) ∧
    column (t.2.params.getD []) "n_interacting" = some (p.1 : ℝ) ∧ column (t.2.params.getD []) "alpha" = some p.2 := by
  obtain ⟨l, M, s, -, -, -, -, h1, -, -, h2, -⟩ := h.law
  obtain ⟨h3, h4⟩ := CoolTasks.task_facts h.id h2
  obtain ⟨d, d1, d2, d3⟩ := h.params
  refine ⟨h3, ⟨_, h1, h4⟩, ?_, ?_⟩
  · rw [params_fact d1, column, d2]
  · rw [params_fact d1, column, d3]

theorem config_tasks (E : World V) (ts : List (String × Task ℝ ℝ (String × PVal ℝ))) : (config E ts).tasks = ts.map Prod.snd := rfl

/-- **C93** The workflow can run. -/
theorem config_ready {R : JaxRandom Key} {κ : Measure Key} {eps : ℝ} {ts : List (String × Task ℝ ℝ (String × PVal ℝ))}
    (h : List.Forall₂ (IsTask R κ eps) settings ts) (hk : GoodKeys ts) {E : World V} (hE : Usable E) : Workflow.Ready (config E ts) := by
  have hfst : (config E ts).estimators.map Prod.fst = MiFigure.estimators := by
    simp [config, Function.comp_def]
  have hin : ∀ t ∈ (config E ts).tasks, ∃ kt ∈ ts, kt.2 = t ∧ ∃ p ∈ settings, IsTask R κ eps p kt := by
    intro t ht
    rw [config_tasks] at ht
    obtain ⟨kt, hkt, rfl⟩ := List.mem_map.1 ht
    exact ⟨kt, hkt, rfl, GmmBenchmark.forall2_right h kt hkt⟩
  refine ⟨?_, ?_, ?_, ?_, ?_, ?_, ?_, ?_, hE.yaml⟩
  · rw [hfst]
    decide
  · intro e he
    have h1 : e.1 ∈ MiFigure.estimators := hfst ▸ List.mem_map_of_mem (f := Prod.fst) he
    generalize e.1 = k at h1
    revert k
    decide
  · intro e he
    simp only [config, List.mem_map] at he
    obtain ⟨i, hi, rfl⟩ := he
    exact hE.alive i hi
  · rw [config_tasks, List.map_map]
    have : ts.map (Task.taskId ∘ Prod.snd) = ts.map Prod.fst := List.map_congr_left fun t ht => by
      obtain ⟨p, -, hp⟩ := GmmBenchmark.forall2_right h t ht
      exact (task_known hp).1
    rw [this]
    exact hk.nodup
  · intro t ht
    obtain ⟨kt, hkt, rfl, p, -, hp⟩ := hin t ht
    rw [(task_known hp).1]
    exact hk.name kt hkt
  · intro t ht
    obtain ⟨kt, hkt, rfl, p, -, hp⟩ := hin t ht
    rw [(task_known hp).1]
    exact hp.id
  · intro s hs
    simp only [config, List.mem_map] at hs
    obtain ⟨i, -, rfl⟩ := hs
    exact Int.natCast_nonneg i
  · intro t ht n hn s _
    obtain ⟨kt, hkt, rfl, p, -, hp⟩ := hin t ht
    obtain ⟨l, M, s', -, -, -, -, -, -, -, -, hs⟩ := hp.law
    have hn : 0 < n := by
      simp only [config, List.mem_singleton] at hn
      omega
    obtain ⟨x, y, w, u, -, e, -, -⟩ := hs n hn s
    exact ⟨n, 10, 10, w, u, by norm_num, e⟩

/-- What a line says. -/
structure Says (ts : List (String × Task ℝ ℝ (String × PVal ℝ))) (l : Line ℝ (Fl ℝ) V (String × PVal ℝ))
    (q : (ℕ × ℝ) × String × Task ℝ ℝ (String × PVal ℝ)) : Prop where
  mem : q ∈ settings.zip ts
  est : l.result.estimatorId ∈ MiFigure.estimators
  id : l.result.taskId = q.2.1
  near : ∃ a, |a - 1| < 1e-4 ∧ l.miTrue = .num a
  pairs : column l.taskParams "n_interacting" = some (q.1.1 : ℝ)
  alpha : column l.taskParams "alpha" = some q.1.2

theorem zip_unique {ts : List (String × Task ℝ ℝ (String × PVal ℝ))} (hl : settings.length = ts.length) (hk : GoodKeys ts)
    {p q : (ℕ × ℝ) × String × Task ℝ ℝ (String × PVal ℝ)} (hp : p ∈ settings.zip ts) (hq : q ∈ settings.zip ts) (h : p.2.1 = q.2.1) : p = q := by
  refine List.inj_on_of_nodup_map (f := fun p => p.2.1) ?_ hp hq h
  have : (settings.zip ts).map (fun p => p.2.1) = ts.map Prod.fst := by
    rw [← List.map_snd_zip (l₁ := settings) (l₂ := ts) hl.ge, List.map_map, List.map_snd_zip hl.ge]
    rfl
  rw [this]
  exact hk.nodup

theorem kept_iff {l : Line ℝ (Fl ℝ) V (String × PVal ℝ)} : below 3.0 l = true ↔ Kept 3 l := by
  have e3 : (3.0 : ℝ) = 3 := by norm_num
  unfold below Kept
  rw [e3]
  cases hm : l.result.mi <;> simp [number]

open Classical in
theorem panel_of {lines : List (Line ℝ (Fl ℝ) V (String × PVal ℝ))} {place : Line ℝ (Fl ℝ) V (String × PVal ℝ) → ℝ → Prop}
    {sel : Line ℝ (Fl ℝ) V (String × PVal ℝ) → Bool} {col : Line ℝ (Fl ℝ) V (String × PVal ℝ) → Option ℝ}
    (hest : ∀ l ∈ lines, l.result.estimatorId ∈ MiFigure.estimators) (hnear : ∀ l ∈ lines, ∃ a, |a - 1| < 1e-4 ∧ l.miTrue = .num a)
    (hsel : ∀ l ∈ lines, sel l = true ↔ ∃ x, place l x) (hcol : ∀ l ∈ lines, sel l = true → ∀ x, col l = some x ↔ place l x) :
    ∃ f, plotMi MiFigure.estimatorColors MiFigure.estimatorNames true (((lines.filter (below 3.0)).filter sel).map fun l =>
        (⟨l.result.estimatorId, col l, number l.result.mi, number l.miTrue⟩ : Row)) = .ok f ∧ IsSparse place lines f := by
  set D := lines.filter fun l => decide (Kept 3 l ∧ ∃ x, place l x) with hD
  have e : (lines.filter (below 3.0)).filter sel = D := by
    rw [List.filter_filter, hD]
    refine List.filter_congr fun l hl => ?_
    rw [Bool.eq_iff_iff, decide_eq_true_iff, Bool.and_eq_true, kept_iff, hsel l hl, and_comm]
  have hmem : ∀ l, l ∈ D ↔ l ∈ lines ∧ Kept 3 l ∧ ∃ x, place l x := by
    intro l
    rw [hD, List.mem_filter, decide_eq_true_iff]
  rw [e]
  obtain ⟨f, f1, f2⟩ := MiFigure.plotMi_spec MiFigure.estimatorColors MiFigure.estimatorNames
    (D.map fun l => (⟨l.result.estimatorId, col l, number l.result.mi, number l.miTrue⟩ : Row)) (by
      intro r hr
      obtain ⟨l, hl, rfl⟩ := List.mem_map.1 hr
      exact MiFigure.estimators_known _ (hest l ((hmem l).1 hl).1))
  have hpl : ∀ l ∈ D, ∀ x, col l = some x ↔ place l x := fun l hl =>
    hcol l ((hmem l).1 hl).1 ((hsel l ((hmem l).1 hl).1).2 ((hmem l).1 hl).2.2)
  refine ⟨f, f1, ⟨⟨_, ?_, f2⟩, fun x => ?_, fun q hq => ?_⟩⟩
  · rw [List.forall₂_map_right_iff, List.forall₂_same]
    exact fun l hl => ⟨rfl, hpl l hl, fun v => MiFigure.number_iff _ v, fun v => MiFigure.number_iff _ v⟩
  · rw [f2.places]
    constructor
    · rintro ⟨r, hr, hx⟩
      obtain ⟨l, hl, rfl⟩ := List.mem_map.1 hr
      exact ⟨l, ((hmem l).1 hl).1, ((hmem l).1 hl).2.1, (hpl l hl x).1 hx⟩
    · rintro ⟨l, hl, hk, hx⟩
      have hl' := (hmem l).2 ⟨hl, hk, x, hx⟩
      exact ⟨_, List.mem_map_of_mem hl', (hpl l hl' x).2 hx⟩
  · obtain ⟨r, hr, hx⟩ := (f2.places q.1).1 (List.mem_map_of_mem hq)
    have hw : ∀ w ∈ MiFigure.truths (D.map fun l => (⟨l.result.estimatorId, col l, number l.result.mi, number l.miTrue⟩ : Row)) q.1,
        |w - 1| < 1e-4 := by
      intro w hw
      unfold MiFigure.truths at hw
      obtain ⟨r', hr', e⟩ := List.mem_filterMap.1 hw
      obtain ⟨l, hl, rfl⟩ := List.mem_map.1 hr'
      obtain ⟨a, ha, ha'⟩ := hnear l ((hmem l).1 hl).1
      dsimp only at e
      split at e
      · rw [ha'] at e
        rw [← Option.some.inj e]
        exact ha
      · cases e
    have hne : MiFigure.truths (D.map fun l => (⟨l.result.estimatorId, col l, number l.result.mi, number l.miTrue⟩ : Row)) q.1 ≠ [] := by
      obtain ⟨l, hl, rfl⟩ := List.mem_map.1 hr
      obtain ⟨a, ha, ha'⟩ := hnear l ((hmem l).1 hl).1
      refine List.ne_nil_of_mem (a := a) ?_
      unfold MiFigure.truths
      exact List.mem_filterMap.2 ⟨_, hr, by rw [if_pos hx]; dsimp only; rw [ha']; rfl⟩
    obtain ⟨m, m1, m2⟩ := (f2.heights q hq).2 hne
    exact ⟨m, m1, average_near hne hw m2⟩

/-- **C93** The figure of estimates: the 19 tasks can be made, all with a mutual information of almost one, the workflow ends, and one panel
shows the estimates below 3 for ten pairs against `α`, the other those for `α = 0` against the number of pairs, both from right to left. -/
theorem sparsity (R : JaxRandom Key) (κ : Measure Key) (hR : IdealRandom R κ) (uniform : ℝ → ℝ → ℕ → ℝ) {fm : Format ℝ} (hfm : Prints fm)
    {eps : ℝ} (heps : 0 < eps) :
    ∃ ts, tasks R uniform fm eps = .ok ts ∧ List.Forall₂ (IsTask R κ eps) settings ts ∧ (ts.map Prod.fst).Nodup ∧
      ∀ {V : Type} (E : World V), Usable E → ∃ lines left right,
        workflow E ts = .ok (lines, ⟨"$\\alpha$", true, left⟩, ⟨"Num. of interactions", true, right⟩) ∧
        lines.length = 9 * 19 * 5 ∧ (∀ c ∈ Workflow.combinations (config E ts), c.2.2.1 = 10000 ∧ 0 ≤ c.2.2.2 ∧ c.2.2.2 < 5) ∧
        List.Forall₂ (fun c l => Workflow.IsLine (config E ts) c.1 c.2.1 c.2.2.1 c.2.2.2 l) (Workflow.combinations (config E ts)) lines ∧
        IsSparse (AboutAlpha ts) lines left ∧ IsSparse (AboutPairs ts) lines right := by
  obtain ⟨ts, h1, h2, hkeys⟩ := tasks_spec R κ hR uniform hfm heps
  refine ⟨ts, h1, h2, hkeys.nodup, fun {V} E hE => ?_⟩
  have hready := config_ready h2 hkeys hE
  obtain ⟨lines, l1, l2⟩ := Workflow.results_spec (config E ts) hready
  have hlen := h2.length_eq
  have hex : ∀ l ∈ lines, ∃ q, Says ts l q := by
    intro l hl
    obtain ⟨⟨e, t, n, s⟩, hc, hx⟩ := GmmBenchmark.forall2_right l2 l hl
    simp only [Workflow.combinations, List.mem_product] at hc
    obtain ⟨he, ht, hn, hs⟩ := hc
    obtain ⟨m, dx, dy, x, y, _, hsam⟩ := hready.sample t ht n hn s hs
    obtain ⟨file, r, _, hrep, _, hr⟩ := hx.run m dx dy x y hsam
    obtain ⟨i1, i2, i3, i4⟩ := hrep.ids
    rw [config_tasks] at ht
    obtain ⟨kt, hkt, rfl⟩ := List.mem_map.1 ht
    obtain ⟨i, hi, rfl⟩ := List.mem_iff_getElem.1 hkt
    have hi' : i < settings.length := hlen ▸ hi
    have hz : (settings[i], ts[i]) ∈ settings.zip ts := List.mem_iff_getElem.2 ⟨i, by simp [hi, hi'], by simp⟩
    obtain ⟨k1, ⟨a, k2, k3⟩, k4, k5⟩ := task_known ((List.forall₂_iff_zip.1 h2).2 hz)
    refine ⟨(settings[i], ts[i]), hz, ?_, ?_, ⟨a, k2, ?_⟩, ?_, ?_⟩
    · have : l.result.estimatorId = e.1 := by rw [hr]; exact i1
      rw [this]
      simp only [config, List.mem_map] at he
      obtain ⟨i, hi, rfl⟩ := he
      exact hi
    · have : l.result.taskId = ts[i].2.taskId := by rw [hr]; exact i2
      exact this.trans k1
    · exact (Except.ok.inj (k3.symm.trans hx.true_mi)).symm
    · rw [hx.params]
      exact k4
    · rw [hx.params]
      exact k5
  have hest : ∀ l ∈ lines, l.result.estimatorId ∈ MiFigure.estimators := fun l hl => (hex l hl).elim fun q h => h.est
  have hnear : ∀ l ∈ lines, ∃ a, |a - 1| < 1e-4 ∧ l.miTrue = .num a := fun l hl => (hex l hl).elim fun q h => h.near
  have e0 : (0.0 : ℝ) = 0 := by norm_num
  have aboutAlpha : ∀ (l : Line ℝ (Fl ℝ) V (String × PVal ℝ)) q, Says ts l q → ∀ x, AboutAlpha ts l x ↔ q.1 = (10, x) := by
    intro l q h x
    constructor
    · rintro ⟨p, hp, e1, e2⟩
      rw [zip_unique hlen hkeys h.mem hp (h.id.symm.trans e2)]
      exact e1
    · intro e
      exact ⟨q, h.mem, e, h.id⟩
  have aboutPairs : ∀ (l : Line ℝ (Fl ℝ) V (String × PVal ℝ)) q, Says ts l q → ∀ x, AboutPairs ts l x ↔ (q.1.1 : ℝ) = x ∧ q.1.2 = 0 := by
    intro l q h x
    constructor
    · rintro ⟨p, hp, e1, e2, e3⟩
      rw [zip_unique hlen hkeys h.mem hp (h.id.symm.trans e3)]
      exact ⟨e1, e2⟩
    · rintro ⟨e1, e2⟩
      exact ⟨q, h.mem, e1, e2, h.id⟩
  classical
  obtain ⟨left, f1, f2⟩ := panel_of (lines := lines) (place := AboutAlpha ts)
    (sel := fun l => decide (column l.taskParams "n_interacting" = some (dim : ℝ))) (col := fun l => column l.taskParams "alpha") hest hnear
    (by
      intro l hl
      obtain ⟨q, hq⟩ := hex l hl
      rw [decide_eq_true_iff, hq.pairs, Option.some_inj, Nat.cast_inj]
      constructor
      · intro e
        exact ⟨q.1.2, (aboutAlpha l q hq _).2 (Prod.ext e rfl)⟩
      · rintro ⟨x, hx⟩
        rw [(aboutAlpha l q hq x).1 hx]
        rfl)
    (by
      intro l hl hs x
      obtain ⟨q, hq⟩ := hex l hl
      rw [decide_eq_true_iff, hq.pairs, Option.some_inj, Nat.cast_inj] at hs
      rw [hq.alpha, Option.some_inj, aboutAlpha l q hq]
      exact ⟨fun e => Prod.ext hs e, fun e => by rw [e]⟩)
  obtain ⟨right, g1, g2⟩ := panel_of (lines := lines) (place := AboutPairs ts)
    (sel := fun l => decide (column l.taskParams "alpha" = some 0.0)) (col := fun l => column l.taskParams "n_interacting") hest hnear
    (by
      intro l hl
      obtain ⟨q, hq⟩ := hex l hl
      rw [decide_eq_true_iff, hq.alpha, Option.some_inj, e0]
      constructor
      · intro e
        exact ⟨_, (aboutPairs l q hq _).2 ⟨rfl, e⟩⟩
      · rintro ⟨x, hx⟩
        exact ((aboutPairs l q hq x).1 hx).2)
    (by
      intro l hl hs x
      obtain ⟨q, hq⟩ := hex l hl
      rw [decide_eq_true_iff, hq.alpha, Option.some_inj, e0] at hs
      rw [hq.pairs, Option.some_inj, aboutPairs l q hq]
      exact ⟨fun e => ⟨e, hs⟩, fun e => e.1⟩)
  refine ⟨lines, left, right, ?_, ?_, ?_, l2, f2, g2⟩
  · have hplot : figureEstimates lines = .ok (⟨"$\\alpha$", true, left⟩, ⟨"Num. of interactions", true, right⟩) := by
      simp only [figureEstimates, f1, g1, bind, Except.bind]
    simp only [workflow, l1, hplot, Workflow.lift, bind, Except.bind]
  · rw [← l2.length_eq, Workflow.combinations, List.length_product, List.length_product, List.length_product, config_tasks,
      List.length_map, ← hlen]
    simp [config, MiFigure.estimators, settings]
  · rintro ⟨e, t, n, s⟩ hc
    simp only [Workflow.combinations, List.mem_product] at hc
    obtain ⟨-, -, hn, hs⟩ := hc
    simp only [config, List.mem_singleton, List.mem_map, List.mem_range] at hn hs
    obtain ⟨i, hi, rfl⟩ := hs
    exact ⟨hn, by dsimp only; omega, by dsimp only; omega⟩

/-! ## The matrices -/

theorem big : (20 * (10 : ℕ) : ℝ) ≤ 2 ^ 4000 := by
  refine le_trans ?_ (pow_le_pow_right₀ (by norm_num : (1 : ℝ) ≤ 2) (by norm_num : 8 ≤ 4000))
  norm_num

theorem lambda_made (R : JaxRandom Key) (κ : Measure Key) (hR : IdealRandom R κ) (uniform : ℝ → ℝ → ℕ → ℝ) {α : ℝ} (h0 : 0 ≤ α) (h1 : α ≤ top) :
    ∃ t l, Sparsity.getLambdaTask R uniform desired dim α = .ok t ∧ 0 < l ∧ l < 10 ∧ Sparsity.IsLvmTask R κ 10 10 α l t ∧ |t.2.mi - 1| < 1e-4 := by
  rw [desired_eq]
  refine (Sparsity.getLambdaTask_spec R κ hR uniform 10 (by norm_num) big α 1 (by norm_num)).1 ?_ ?_
  · have : Sparsity.gain ((10 : ℕ) * α ^ 2) ≤ Sparsity.gain ((10 : ℕ) * Sparsity.alpha0 ^ 2) :=
      Sparsity.gain_le (by positivity) (mul_le_mul_of_nonneg_left (pow_le_pow_left₀ h0 h1 2) (by positivity))
    have := Sparsity.gain_alpha0
    norm_num at *
    linarith
  · have h1 := Sparsity.gain_hundred
    have h2 : Sparsity.gain (10 ^ 2) ≤ Sparsity.gain (10 ^ 2 + (10 : ℕ) * α ^ 2) := Sparsity.gain_le (by norm_num) (by
      have : (0 : ℝ) ≤ (10 : ℕ) * α ^ 2 := by positivity
      linarith)
    unfold Sparsity.denseInfo
    norm_num at *
    linarith

theorem pairs_made (R : JaxRandom Key) (κ : Measure Key) (hR : IdealRandom R κ) (uniform : ℝ → ℝ → ℕ → ℝ) {k : ℕ} (h0 : 0 < k) (h1 : k ≤ 10) :
    ∃ t l, Sparsity.getNInteractingTask R uniform desired dim k = .ok t ∧ 0 < l ∧ l < 10 ∧ Sparsity.IsLvmTask R κ 10 k 0 l t ∧
      |t.2.mi - 1| < 1e-4 := by
  rw [desired_eq]
  have hk' : (1 : ℝ) ≤ k := by exact_mod_cast h0
  refine (Sparsity.getNInteractingTask_spec R κ hR uniform 10 k h0 h1 big 1 (by norm_num)).1 (by norm_num) ?_
  have := Sparsity.gain_hundred
  have : (1 : ℝ) * 1 ≤ k * Sparsity.gain (10 ^ 2) := mul_le_mul hk' this (by norm_num) (by linarith)
  norm_num at *
  linarith

/-- Correlations are not cut off. -/
theorem shade_range {k : ℕ} {α l : ℝ} {M : Matrix (Fin (10 + 10)) (Fin (10 + 10)) ℝ} (h : IsShade k α l M) (p q : Fin (10 + 10)) :
    0 ≤ M p q ∧ M p q ≤ 1 := by
  have hv : (0 : ℝ) < 1 + α ^ 2 + l ^ 2 := by positivity
  have a : 0 ≤ α ^ 2 / (1 + α ^ 2 + l ^ 2) ∧ α ^ 2 / (1 + α ^ 2 + l ^ 2) ≤ 1 :=
    ⟨by positivity, (div_le_one hv).2 (by nlinarith [sq_nonneg l])⟩
  have b : 0 ≤ (α ^ 2 + l ^ 2) / (1 + α ^ 2 + l ^ 2) ∧ (α ^ 2 + l ^ 2) / (1 + α ^ 2 + l ^ 2) ≤ 1 :=
    ⟨by positivity, (div_le_one hv).2 (by linarith)⟩
  induction p using Fin.addCases <;> induction q using Fin.addCases
  · rw [h.xx]
    split_ifs
    exacts [⟨zero_le_one, le_rfl⟩, a]
  · rw [h.xy]
    split_ifs
    exacts [b, a]
  · rw [h.yx, h.xy]
    split_ifs
    exacts [b, a]
  · rw [h.yy]
    split_ifs
    exacts [⟨zero_le_one, le_rfl⟩, a]

theorem significant_of {p e c : ℕ} {z : ℤ} {v : ℝ} (h0 : 0 < v) (h1 : (10 : ℝ) ^ z ≤ v) (h2 : v < (10 : ℝ) ^ (z + 1)) (he : (p : ℤ) - 1 - z = e)
    (h : |v * 10 ^ e - c| < 1 / 2) :
    significant p v = toString (c / 10 ^ e) ++ "." ++ String.join ((List.range e).map fun i => toString (c / 10 ^ (e - 1 - i) % 10)) := by
  have hz : ⌊Real.logb 10 v⌋ = z := by
    rw [Int.floor_eq_iff]
    constructor
    · rw [Real.le_logb_iff_rpow_le (by norm_num) h0, Real.rpow_intCast]
      exact h1
    · have : ((z : ℝ) + 1) = ((z + 1 : ℤ) : ℝ) := by push_cast; rfl
      rw [this, Real.logb_lt_iff_lt_rpow (by norm_num) h0, Real.rpow_intCast]
      exact h2
  unfold significant
  rw [hz, he, Int.toNat_natCast]
  exact Concept.fixed_of h0.le h

theorem title1 : significant 2 top = "1.2" := by
  rw [significant_of (e := 1) (c := 12) (z := 0) (by norm_num [top]) (by norm_num [top]) (by norm_num [top]) (by norm_num)
    (by rw [abs_lt]; norm_num [top])]
  rfl

theorem title2 : significant 1 (0.8 * top) = "0.9" := by
  rw [significant_of (e := 1) (c := 9) (z := -1) (by norm_num [top]) (by norm_num [top]) (by norm_num [top]) (by norm_num)
    (by rw [abs_lt]; norm_num [top])]
  rfl

theorem title3 : significant 1 (0.4 * top) = "0.5" := by
  rw [significant_of (e := 1) (c := 5) (z := -1) (by norm_num [top]) (by norm_num [top]) (by norm_num [top]) (by norm_num)
    (by rw [abs_lt]; norm_num [top])]
  rfl

/-- **C93** The heatmaps: six tasks with a mutual information of almost one are shown by their correlations, with true titles, and nothing is
cut off. -/
theorem matrices (R : JaxRandom Key) (κ : Measure Key) (hR : IdealRandom R κ) (uniform : ℝ → ℝ → ℕ → ℝ) :
    ∃ hs, figureMatrices R uniform = .ok hs ∧ List.Forall₂ (IsHeatmap R κ) shown hs := by
  have ht : (0 : ℝ) < top := by norm_num [top]
  have ha : Sparsity.getInitialAlpha R uniform desired dim = .ok top := by
    rw [desired_eq]
    exact Sparsity.figure_alpha R κ hR uniform
  obtain ⟨t1, l1, a1, b1, c1, d1, e1⟩ := lambda_made R κ hR uniform ht.le le_rfl
  obtain ⟨t2, l2, a2, b2, c2, d2, e2⟩ := lambda_made R κ hR uniform (α := 0.8 * top) (by positivity) (by norm_num; linarith)
  obtain ⟨t3, l3, a3, b3, c3, d3, e3⟩ := lambda_made R κ hR uniform (α := 0.4 * top) (by positivity) (by norm_num; linarith)
  obtain ⟨t4, l4, a4, b4, c4, d4, e4⟩ := pairs_made R κ hR uniform (k := 10) (by norm_num) (by norm_num)
  obtain ⟨t5, l5, a5, b5, c5, d5, e5⟩ := pairs_made R κ hR uniform (k := 5) (by norm_num) (by norm_num)
  obtain ⟨t6, l6, a6, b6, c6, d6, e6⟩ := pairs_made R κ hR uniform (k := 1) (by norm_num) (by norm_num)
  have key : ∀ {k : ℕ} {α l : ℝ} {t : Call ℝ × Sampler Key}, k ≤ 10 → 0 < l → l < 10 → Sparsity.IsLvmTask R κ 10 k α l t → |t.2.mi - 1| < 1e-4 →
      ∃ rs, (do
        let m ← Sparsity.paramsToLvm dim (ReadResults.params 1 t.1)
        let r ← m.correlation
        Except.ok (rowsOf r)) = Except.ok rs ∧ ∀ title, IsHeatmap R κ (k, α, title) ⟨title, rs, 0, 1, 10, [(5, "$X$"), (15, "$Y$")]⟩ := by
    intro k α l t hk hl hl' h hm
    obtain ⟨m, r, C, h1, h2, h3, h4, h5⟩ := Sparsity.shown_covariance R κ 10 k hk α l t h
    refine ⟨rowsOf (correlationOf C), ?_, fun title => ⟨rfl, ⟨l, _, t.2, hl, hl', shade_of h4, h5, hm, rfl⟩, ⟨rfl, rfl⟩, ⟨rfl, rfl⟩, ?_⟩⟩
    · have h1' : Sparsity.paramsToLvm dim (ReadResults.params 1 t.1) = .ok m := h1
      simp only [h1', h2, bind, Except.bind, h3]
    · intro row hrow c hc
      obtain ⟨i, rfl⟩ := List.mem_ofFn.1 hrow
      obtain ⟨j, rfl⟩ := List.mem_ofFn.1 hc
      exact shade_range (shade_of h4) i j
  obtain ⟨r1, f1, g1⟩ := key le_rfl b1 c1 d1 e1
  obtain ⟨r2, f2, g2⟩ := key le_rfl b2 c2 d2 e2
  obtain ⟨r3, f3, g3⟩ := key le_rfl b3 c3 d3 e3
  obtain ⟨r4, f4, g4⟩ := key le_rfl b4 c4 d4 e4
  obtain ⟨r5, f5, g5⟩ := key (by norm_num) b5 c5 d5 e5
  obtain ⟨r6, f6, g6⟩ := key (by norm_num) b6 c6 d6 e6
  have a4' : Sparsity.getNInteractingTask R uniform desired dim dim = .ok t4 := a4
  have a5' : Sparsity.getNInteractingTask R uniform desired dim (dim / 2 : ℕ) = .ok t5 := a5
  have a6' : Sparsity.getNInteractingTask R uniform desired dim 1 = .ok t6 := a6
  have e8 : (0.8 : ℝ) * top = 4 / 5 * top := by norm_num
  have e4 : (0.4 : ℝ) * top = 2 / 5 * top := by norm_num
  refine ⟨_, ?_, .cons (g1 _) (.cons (e8 ▸ g2 _) (.cons (e4 ▸ g3 _) (.cons (g4 _) (.cons (g5 _) (.cons (g6 _) .nil)))))⟩
  simp only [figureMatrices, ha, a1, a2, a3, a4', a5', a6', bind, Except.bind, title1, title2, title3]
  simp only [bind, Except.bind] at f1 f2 f3 f4 f5 f6
  simp only [List.mapM_cons, f1, f2, f3, f4, f5, f6, bind, Except.bind, pure, Except.pure, List.mapM_nil]
  rfl

/-! ## Examples -/

/-- Digits can be printed. -/
theorem examplePrints : Prints ⟨Sparsity.exampleFix5, Sparsity.exampleFix5⟩ where
  close := Sparsity.exampleFix5_good.close
  nodash := Sparsity.exampleFix5_good.nodash
  plain x _ := ⟨fun h => absurd (TaskIds.nat_digit h) (by decide), fun h => absurd (TaskIds.nat_digit h) (by decide)⟩

/-- For some randomness there are 19 tasks and 855 runs, and both panels show almost one. -/
example : ∃ ts lines left right, tasks tree (fun a b _ => (a + b) / 2) ⟨Sparsity.exampleFix5, Sparsity.exampleFix5⟩ (1 / 10) = .ok ts ∧ ts.length = 19 ∧
    workflow HighMi.exampleWorld ts = .ok (lines, ⟨"$\\alpha$", true, left⟩, ⟨"Num. of interactions", true, right⟩) ∧ lines.length = 855 ∧
    ∀ p ∈ left.truth ++ right.truth, ∃ a, p.2 = some a ∧ |a - 1| < 1e-4 := by
  obtain ⟨ts, h1, h2, -, h3⟩ := sparsity tree treeLaw tree_ideal (fun a b _ => (a + b) / 2) examplePrints (eps := 1 / 10) (by norm_num)
  obtain ⟨lines, left, right, h4, h5, -, -, h6, h7⟩ := h3 HighMi.exampleWorld HighMi.exampleWorld_usable
  refine ⟨ts, lines, left, right, h1, by rw [← h2.length_eq]; simp [settings], h4, h5, fun p hp => ?_⟩
  rcases List.mem_append.1 hp with hp | hp
  · exact h6.flat p hp
  · exact h7.flat p hp

/-- Six heatmaps. -/
example : ∃ hs, figureMatrices tree (fun a b _ => (a + b) / 2) = .ok hs ∧
    hs.map Heatmap.title = ["$\\alpha$=1.2", "$\\alpha$=0.9", "$\\alpha$=0.5", "$K$=10", "$K$=5", "$K$=1"] := by
  obtain ⟨hs, h1, h2⟩ := matrices tree treeLaw tree_ideal fun a b _ => (a + b) / 2
  exact ⟨hs, h1, (GmmBenchmark.forall2_map_eq h2 (fun q => q.2.2) Heatmap.title fun q h e => e.title.symm).symm⟩

end BMI.SparsityFigure
