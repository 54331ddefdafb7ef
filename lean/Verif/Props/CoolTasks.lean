import Verif.Spec.CoolTasks
import Verif.Props.Chernoff
import Verif.Props.Scaling
import Verif.Props.MiFigure

/-! C84: the workflow which shows the example distributions and how estimators do on them. -/

namespace BMI.CoolTasks

open MeasureTheory BMI.Samplers BMI.Bmm BMI.Fitting BMI.MixtureTasks
open BMI.SampleIO (NdArr)
open BMI.Training (Fl)
open BMI.Task (Task)
open BMI.Run (Dict Outcome)
open BMI.Workflow (Line Est)

variable {Key V W : Type} [MeasurableSpace Key] {κ : Measure Key}

/-! ## Loading the file -/

theorem mat_congr {n d m e : ℕ} (hn : m = n) (hd : e = d) (a : Fin n → Fin d → ℝ) (b : Fin m → Fin e → ℝ)
    (h : ∀ i j, b i j = a (i.cast hn) (j.cast hd)) : NdArr.mat m e b = NdArr.mat n d a := by
  subst hn
  subst hd
  congr 1
  funext i j
  exact h i j

theorem ndarray_rows {n d : ℕ} (hn : 0 < n) (a : Fin n → Fin d → ℝ) : ndarray (rowsOf a) = .mat n d a := by
  have h1 : (rowsOf a).length = n := List.length_ofFn
  have h2 : ((rowsOf a).headD []).length = d := by
    obtain ⟨n, rfl⟩ := Nat.exists_eq_succ_of_ne_zero hn.ne'
    unfold rowsOf
    rw [List.ofFn_succ, List.headD_cons, List.length_ofFn]
  unfold ndarray
  refine mat_congr h1 h2 _ _ fun i j => ?_
  have hi : (i : ℕ) < n := lt_of_lt_of_eq i.2 h1
  have hj : (j : ℕ) < d := lt_of_lt_of_eq j.2 h2
  have e1 : (rowsOf a).getD i [] = List.ofFn (a ⟨i, hi⟩) := by
    unfold rowsOf
    rw [List.getD_eq_getElem?_getD, List.getElem?_ofFn, dif_pos hi, Option.getD_some]
  rw [e1, List.getD_eq_getElem?_getD, List.getElem?_ofFn, dif_pos hj, Option.getD_some]
  rfl

theorem stands_of {create : JaxRandom Key → Except Err (ExampleDistribution Key)} {size dx : ℕ} {f : (Fin dx → ℝ) → Fin dx → ℝ}
    {P : Measure ((Fin dx → ℝ) × (Fin 1 → ℝ))} {J : JointDistribution Key} (h : IsExample κ create size f P J) :
    ∃ v z, Stands κ f P v z ∧ ∀ R E, create R = .ok E → Samples R f v z E.sampler := by
  classical
  obtain ⟨v, h1, h2, h3⟩ := h.number
  choose! z a b c using h.draws
  refine ⟨v, z, ⟨h.prob, h.finite, h.same, a, h1, h2⟩, fun R E hE => ?_⟩
  obtain ⟨E', h4, -, h5, h6, -⟩ := h.created R
  obtain rfl : E' = E := Except.ok.inj (h4.symm.trans hE)
  exact ⟨h5, h6, h3 R _ hE, fun n hn seed => c n hn R _ hE (.seed seed)⟩

theorem asserts_hold : assertKeys estimatorNames = .ok () ∧ assertKeys estimatorColors = .ok () ∧ assertKeys estimatorMarkers = .ok () := by
  refine ⟨?_, ?_, ?_⟩ <;> exact if_pos (by decide)

theorem loadWith_eq {R : JaxRandom Key} {T : Tfp Key} {size : ℕ} {x ai waves galaxy : ExampleDistribution Key}
    (h1 : createX R T size = .ok x) (h2 : createAi R T size = .ok ai) (h3 : createWaves R T (size := size) = .ok waves)
    (h4 : createGalaxy R T size = .ok galaxy) (eps : ℝ) :
    loadWith (W := W) size R T eps = (Scaling.scaleTasks eps (unscaledTasks x.sampler ai.sampler waves.sampler galaxy.sampler)).map
      fun ts => ⟨x.sampler, ai.sampler, waves.sampler, galaxy.sampler, ts⟩ := by
  obtain ⟨a, b, c⟩ := asserts_hold
  simp only [loadWith, a, b, c, h1, h2, h3, h4, bind, Except.bind]
  cases Scaling.scaleTasks eps (unscaledTasks (W := W) x.sampler ai.sampler waves.sampler galaxy.sampler) <;> rfl

theorem standardised {eps : ℝ} (heps : 0 < eps) {n d : ℕ} (hn : 0 < n) (hd : 0 < d) (v : Fin n → Fin d → ℝ) :
    ∃ w, Scaling.rescale eps (.mat n d v) = .ok (.mat n d w) ∧ Standardised eps v w := by
  obtain ⟨w, h1, h2, h3, h4, h5⟩ := Scaling.rescale_spec heps hn hd v
  exact ⟨w, h1, h2, h3, h4, h5⟩

theorem taskOf_readable {R : JaxRandom Key} {dx : ℕ} (hd : 0 < dx) {f : (Fin dx → ℝ) → Fin dx → ℝ} {v : Key → ℝ} {z : Draws Key dx}
    {s : Sampler Key} (h : Samples R f v z s) (hv : 0 ≤ v (R.prngKey 0)) (i : String) :
    Scaling.Readable (taskOf (W := W) i s) dx 1 (v (R.prngKey 0)) :=
  ⟨h.dimX, h.dimY, ⟨hd, le_rfl⟩, by rw [← h.mi]; rfl, hv⟩

theorem isTask_of {R : JaxRandom Key} {eps : ℝ} (heps : 0 < eps) {dx : ℕ} (hd : 0 < dx) {f : (Fin dx → ℝ) → Fin dx → ℝ} {v : Key → ℝ}
    {z : Draws Key dx} {s : Sampler Key} (h : Samples R f v z s) (hv : 0 ≤ v (R.prngKey 0)) {i : String}
    {t : String × Task ℝ ℝ (String × W)} (ht : t.1 = i ∧ t.2.id = (taskOf (W := W) i s).id ∧ t.2.name = (taskOf (W := W) i s).name ∧
      t.2.dimX = (taskOf (W := W) i s).dimX ∧ t.2.dimY = (taskOf (W := W) i s).dimY ∧ t.2.mi = (taskOf (W := W) i s).mi ∧
      t.2.getParams = (taskOf (W := W) i s).getParams ∧
      ∀ n seed, t.2.sample n seed = ((taskOf (W := W) i s).sample n seed).bind fun xy =>
        (Scaling.rescale eps xy.1).bind fun x => (Scaling.rescale eps xy.2).map fun y => (x, y)) : IsTask R eps i f v z t := by
  obtain ⟨k1, k2, k3, k4, k5, k6, -, k8⟩ := ht
  have hr := taskOf_readable (W := W) hd h hv i
  obtain ⟨h1, h2, h3, h4, h5, -⟩ := Task.task_advertises (taskOf (W := W) i s) dx 1 (v (R.prngKey 0)) hr.dimX hr.dimY hr.mi hr.nonneg
  refine ⟨k1, k2.trans h1, k3.trans h2, k4.trans (h3.trans hr.dimX), k5.trans (h4.trans hr.dimY), k6.trans (h5.trans hr.mi), fun n hn seed => ?_⟩
  obtain ⟨w, w1, w2⟩ := standardised heps hn hd fun i => f (z n (R.prngKey seed) i).1
  obtain ⟨u, u1, u2⟩ := standardised heps hn one_pos fun i => (z n (R.prngKey seed) i).2
  refine ⟨w, u, ?_, w2, u2⟩
  have hs : (taskOf (W := W) i s).sample n seed = .ok (.mat n dx fun i => f (z n (R.prngKey seed) i).1, .mat n 1 fun i => (z n (R.prngKey seed) i).2) := by
    show (s.sample n (.seed seed)).map _ = _
    rw [h.sample n hn seed]
    simp only [Except.map]
    rw [ndarray_rows hn, ndarray_rows hn]
  rw [k8, hs]
  simp only [Except.bind, w1, u1, Except.map]

theorem loaded_of {R : JaxRandom Key} {T : Tfp Key} {size : ℕ} {eps : ℝ} (heps : 0 < eps) {x ai waves galaxy : ExampleDistribution Key}
    (h1 : createX R T size = .ok x) (h2 : createAi R T size = .ok ai) (h3 : createWaves R T (size := size) = .ok waves)
    (h4 : createGalaxy R T size = .ok galaxy) {v : Fin 4 → Key → ℝ} {zx za : Draws Key 1} {zw zg : Draws Key 2}
    (s1 : Samples R id (v 0) zx x.sampler) (s2 : Samples R id (v 1) za ai.sampler) (s3 : Samples R ripple (v 2) zw waves.sampler)
    (s4 : Samples R swirl (v 3) zg galaxy.sampler) (hv : ∀ j, 0 ≤ v j (R.prngKey 0)) :
    ∃ L, loadWith (W := W) size R T eps = .ok L ∧ IsLoaded R eps v zx za zw zg L := by
  have r1 := taskOf_readable (W := W) one_pos s1 (hv 0) "X"
  have r2 := taskOf_readable (W := W) one_pos s2 (hv 1) "AI"
  have r3 := taskOf_readable (W := W) two_pos s3 (hv 2) "Fence"
  have r4 := taskOf_readable (W := W) two_pos s4 (hv 3) "Balls"
  obtain ⟨ts, e1, e2⟩ := Scaling.scaleTasks_spec eps (unscaledTasks (W := W) x.sampler ai.sampler waves.sampler galaxy.sampler) (by
    intro kt hkt
    unfold unscaledTasks at hkt
    rcases List.mem_cons.1 hkt with rfl | hkt
    · exact ⟨⟨_, _, _, r1⟩, by simp [taskOf], by simp [taskOf]⟩
    rcases List.mem_cons.1 hkt with rfl | hkt
    · exact ⟨⟨_, _, _, r2⟩, by simp [taskOf], by simp [taskOf]⟩
    rcases List.mem_cons.1 hkt with rfl | hkt
    · exact ⟨⟨_, _, _, r3⟩, by simp [taskOf], by simp [taskOf]⟩
    rcases List.mem_singleton.1 hkt with rfl
    exact ⟨⟨_, _, _, r4⟩, by simp [taskOf], by simp [taskOf]⟩)
  refine ⟨⟨x.sampler, ai.sampler, waves.sampler, galaxy.sampler, ts⟩, ?_, s1, s2, s3, s4, ?_⟩
  · rw [loadWith_eq h1 h2 h3 h4, e1]
    rfl
  · unfold unscaledTasks at e2
    obtain ⟨a, l1, ka, e3, rfl⟩ := List.forall₂_cons_left_iff.1 e2
    obtain ⟨b, l2, kb, e4, rfl⟩ := List.forall₂_cons_left_iff.1 e3
    obtain ⟨c, l3, kc, e5, rfl⟩ := List.forall₂_cons_left_iff.1 e4
    obtain ⟨d, l4, kd, e6, rfl⟩ := List.forall₂_cons_left_iff.1 e5
    obtain rfl := List.forall₂_nil_left_iff.1 e6
    exact ⟨a, b, c, d, rfl, isTask_of heps one_pos s1 (hv 0) ka, isTask_of heps one_pos s2 (hv 1) kb, isTask_of heps two_pos s3 (hv 2) kc,
      isTask_of heps two_pos s4 (hv 3) kd⟩

/-- A task with a negative number cannot be read. -/
theorem scaleTasks_negative (eps : ℝ) : ∀ tasks : List (String × Task ℝ ℝ (String × W)),
    (∀ kt ∈ tasks, kt.2.taskId ≠ "" ∧ kt.2.taskName ≠ "" ∧ ((∃ dx dy a, Scaling.Readable kt.2 dx dy a) ∨ kt.2.metadata = .error .validationError)) →
    (∃ kt ∈ tasks, kt.2.metadata = .error .validationError) → Scaling.scaleTasks eps tasks = .error .validationError := by
  intro tasks
  induction tasks with
  | nil => rintro - ⟨kt, h, -⟩; cases h
  | cons kt rest ih =>
    intro h h'
    by_cases hk : kt.2.metadata = .error .validationError
    · simp only [Scaling.scaleTasks, List.mapM_cons, Task.Task.name, hk, Except.map, bind, Except.bind]
    · have hr := ((h kt List.mem_cons_self).2.2).resolve_right hk
      obtain ⟨r, e1, e2⟩ := Scaling.scaleTasks_spec eps [kt] (by
        intro k hk'
        rcases List.mem_singleton.1 hk' with rfl
        exact ⟨hr, (h _ List.mem_cons_self).1, (h _ List.mem_cons_self).2.1⟩)
      have e3 := ih (fun k hk' => h k (List.mem_cons_of_mem _ hk')) (by
        obtain ⟨k, hk1, hk2⟩ := h'
        rcases List.mem_cons.1 hk1 with rfl | hk1
        · exact absurd hk2 hk
        · exact ⟨k, hk1, hk2⟩)
      have e4 : Scaling.scaleTasks eps (kt :: rest) = (Scaling.scaleTasks eps [kt]).bind fun a => (Scaling.scaleTasks eps rest).map (a ++ ·) := by
        unfold Scaling.scaleTasks
        rw [show kt :: rest = [kt] ++ rest from rfl, List.mapM_append]
        rfl
      rw [e4, e1, e3]
      rfl

theorem taskOf_negative {R : JaxRandom Key} {dx : ℕ} {f : (Fin dx → ℝ) → Fin dx → ℝ} {v : Key → ℝ} {z : Draws Key dx}
    {s : Sampler Key} (h : Samples R f v z s) (hv : v (R.prngKey 0) < 0) (i : String) :
    (taskOf (W := W) i s).metadata = .error .validationError := by
  have : ¬ 0 ≤ s.mi := by
    rw [h.mi]
    exact not_le.2 hv
  simp only [Task.Task.metadata, taskOf, h.dimX, h.dimY, bind, Except.bind, Task.nonNegativeFloat, this, decide_false]
  rfl

theorem load_negative_of {R : JaxRandom Key} {T : Tfp Key} {size : ℕ} (eps : ℝ) {x ai waves galaxy : ExampleDistribution Key}
    (h1 : createX R T size = .ok x) (h2 : createAi R T size = .ok ai) (h3 : createWaves R T (size := size) = .ok waves)
    (h4 : createGalaxy R T size = .ok galaxy) {v : Fin 4 → Key → ℝ} {zx za : Draws Key 1} {zw zg : Draws Key 2}
    (s1 : Samples R id (v 0) zx x.sampler) (s2 : Samples R id (v 1) za ai.sampler) (s3 : Samples R ripple (v 2) zw waves.sampler)
    (s4 : Samples R swirl (v 3) zg galaxy.sampler) (hv : ∃ j, v j (R.prngKey 0) < 0) :
    loadWith (W := W) size R T eps = .error .validationError := by
  have step : ∀ {dx : ℕ} (hd : 0 < dx) {f : (Fin dx → ℝ) → Fin dx → ℝ} {v : Key → ℝ} {z : Draws Key dx} {s : Sampler Key},
      Samples R f v z s → ∀ i, (∃ dx dy a, Scaling.Readable (taskOf (W := W) i s) dx dy a) ∨ (taskOf (W := W) i s).metadata = .error .validationError := by
    intro dx hd f v z s hs i
    rcases le_or_gt 0 (v (R.prngKey 0)) with h | h
    · exact .inl ⟨_, _, _, taskOf_readable hd hs h i⟩
    · exact .inr (taskOf_negative hs h i)
  rw [loadWith_eq h1 h2 h3 h4, scaleTasks_negative]
  · rfl
  · intro kt hkt
    unfold unscaledTasks at hkt
    rcases List.mem_cons.1 hkt with rfl | hkt
    · exact ⟨by simp [taskOf], by simp [taskOf], step one_pos s1 _⟩
    rcases List.mem_cons.1 hkt with rfl | hkt
    · exact ⟨by simp [taskOf], by simp [taskOf], step one_pos s2 _⟩
    rcases List.mem_cons.1 hkt with rfl | hkt
    · exact ⟨by simp [taskOf], by simp [taskOf], step two_pos s3 _⟩
    rcases List.mem_singleton.1 hkt with rfl
    exact ⟨by simp [taskOf], by simp [taskOf], step two_pos s4 _⟩
  · unfold unscaledTasks
    obtain ⟨j, hj⟩ := hv
    match j, hj with
    | 0, hj => exact ⟨("X", taskOf "X" x.sampler), by simp, taskOf_negative s1 hj _⟩
    | 1, hj => exact ⟨("AI", taskOf "AI" ai.sampler), by simp, taskOf_negative s2 hj _⟩
    | 2, hj => exact ⟨("Fence", taskOf "Fence" waves.sampler), by simp, taskOf_negative s3 hj _⟩
    | 3, hj => exact ⟨("Balls", taskOf "Balls" galaxy.sampler), by simp, taskOf_negative s4 hj _⟩

theorem load_size {T : Tfp Key} [IsProbabilityMeasure κ] (hT : IdealTfp T κ) (R₀ : JaxRandom Key) (size : ℕ) (hs : 0 < size) {eps : ℝ} (heps : 0 < eps) :
    ∃ (v : Fin 4 → Key → ℝ) (zx za : Draws Key 1) (zw zg : Draws Key 2) (B : Set Key),
      Stands κ id smallX (v 0) zx ∧ Stands κ id lawAi (v 1) za ∧ Stands κ ripple (lawColumns 12) (v 2) zw ∧ Stands κ swirl (lawBalls 3) (v 3) zg ∧
      κ B ≤ 4 * ENNReal.ofReal (Real.exp (-(size / 1250))) ∧
      ∀ R : JaxRandom Key, (R.prngKey 0 ∉ B → ∀ j, 0 < v j (R.prngKey 0)) ∧
        ((∀ j, 0 ≤ v j (R.prngKey 0)) → ∃ L, loadWith (W := W) size R T eps = .ok L ∧ IsLoaded R eps v zx za zw zg L) ∧
        ((∃ j, v j (R.prngKey 0) < 0) → loadWith (W := W) size R T eps = .error .validationError) := by
  obtain ⟨J1, e1⟩ := exampleX hT R₀ size hs
  obtain ⟨J2, e2⟩ := exampleAi hT R₀ size hs
  obtain ⟨J3, e3⟩ := exampleWaves hT R₀ 12 (by norm_num) size hs
  obtain ⟨J4, e4⟩ := exampleGalaxy hT R₀ size hs
  obtain ⟨v1, z1, a1, b1⟩ := stands_of e1
  obtain ⟨v2, z2, a2, b2⟩ := stands_of e2
  obtain ⟨v3, z3, a3, b3⟩ := stands_of e3
  obtain ⟨v4, z4, a4, b4⟩ := stands_of e4
  obtain ⟨B, hB, hp⟩ := Chernoff.examples_positive hT R₀ size 3 hs (by norm_num)
  refine ⟨![v1, v2, v3, v4], z1, z2, z3, z4, B, a1, a2, a3, a4, hB, fun R => ?_⟩
  obtain ⟨E1, c1, -⟩ := e1.created R
  obtain ⟨E2, c2, -⟩ := e2.created R
  obtain ⟨E3, c3, -⟩ := e3.created R
  obtain ⟨E4, c4, -⟩ := e4.created R
  refine ⟨fun hR => ?_, fun hv => ?_, fun hv => ?_⟩
  · obtain ⟨⟨F1, d1, p1⟩, ⟨F4, d4, p4⟩, ⟨F2, d2, p2⟩, F3, d3, p3⟩ := hp R hR
    have q1 := (b1 R F1 d1).mi
    have q2 := (b2 R F2 d2).mi
    have q3 := (b3 R F3 d3).mi
    have q4 := (b4 R F4 d4).mi
    intro j
    fin_cases j
    · exact lt_of_lt_of_eq p1 q1
    · exact lt_of_lt_of_eq p2 q2
    · exact lt_of_lt_of_eq p3 q3
    · exact lt_of_lt_of_eq p4 q4
  · exact loaded_of heps c1 c2 c3 c4 (b1 R _ c1) (b2 R _ c2) (b3 R _ c3) (b4 R _ c4) hv
  · exact load_negative_of (v := ![v1, v2, v3, v4]) eps c1 c2 c3 c4 (b1 R _ c1) (b2 R _ c2) (b3 R _ c3) (b4 R _ c4) hv

/-! ## Rule `plot_distributions` -/

theorem zipWith_rows {n d e : ℕ} {B : Type} (g : List ℝ → List ℝ → B) (a : Fin n → Fin d → ℝ) (b : Fin n → Fin e → ℝ) :
    List.zipWith g (rowsOf a) (rowsOf b) = List.ofFn fun i => g (List.ofFn (a i)) (List.ofFn (b i)) := by
  refine List.ext_getElem? fun k => ?_
  unfold rowsOf
  rw [List.getElem?_zipWith, List.getElem?_ofFn, List.getElem?_ofFn, List.getElem?_ofFn]
  by_cases h : k < n
  · rw [dif_pos h, dif_pos h, dif_pos h]
  · rw [dif_neg h, dif_neg h, dif_neg h]

theorem blackPanel_of {R : JaxRandom Key} {v : Key → ℝ} {z : Draws Key 1} {s : Sampler Key} (h : Samples R id v z s) {n : ℕ} (hn : 0 < n) :
    ∃ a, blackPanel s n = .ok a ∧ a.points = List.ofFn (fun i => (((z n (R.prngKey 0) i).1 0, (z n (R.prngKey 0) i).2 0), none)) ∧
      a.labels = ("$X$", "$Y$") ∧ a.ticks = [-1, 0, 1] ∧ a.limits = (-2, 2) := by
  refine ⟨⟨List.ofFn fun i => (((z n (R.prngKey 0) i).1 0, (z n (R.prngKey 0) i).2 0), none), ("$X$", "$Y$"), [-1, 0, 1], (-2, 2)⟩, ?_,
    rfl, rfl, rfl, rfl⟩
  unfold blackPanel
  rw [h.sample n hn 0]
  simp only [bind, Except.bind]
  rw [zipWith_rows]
  rfl

theorem colourPanel_of {R : JaxRandom Key} {v : Key → ℝ} {f : (Fin 2 → ℝ) → Fin 2 → ℝ} {z : Draws Key 2} {s : Sampler Key}
    (h : Samples R f v z s) {n : ℕ} (hn : 0 < n) :
    ∃ a, colourPanel s n = .ok a ∧
      a.points = List.ofFn (fun i => ((f (z n (R.prngKey 0) i).1 0, f (z n (R.prngKey 0) i).1 1), some ((z n (R.prngKey 0) i).2 0))) ∧
      a.labels = ("$X_1$", "$X_2$") ∧ a.ticks = [-1, 0, 1] ∧ a.limits = (-2, 2) := by
  refine ⟨⟨List.ofFn fun i => ((f (z n (R.prngKey 0) i).1 0, f (z n (R.prngKey 0) i).1 1), some ((z n (R.prngKey 0) i).2 0)),
    ("$X_1$", "$X_2$"), [-1, 0, 1], (-2, 2)⟩, ?_, rfl, rfl, rfl, rfl⟩
  unfold colourPanel
  rw [h.sample n hn 0]
  simp only [bind, Except.bind]
  rw [zipWith_rows]
  rfl

theorem plot_of {L : Loaded Key W} {a b c d : Panel} (h1 : blackPanel L.x 1000 = .ok a) (h2 : blackPanel L.ai 2000 = .ok b)
    (h3 : colourPanel L.waves 2000 = .ok c) (h4 : colourPanel L.galaxy 2000 = .ok d) : plotDistributions L = .ok [a, b, c, d] := by
  simp only [plotDistributions, h1, h2, h3, h4, bind, Except.bind]

/-- **C84**, `plot_distributions`: 1000 points `(X, Y)` of the X distribution and 2000 of the AI distribution, then 2000 points of the waves
and of the galaxy with the colours given by `Y`. -/
theorem plotDistributions_spec {R : JaxRandom Key} {eps : ℝ} {v : Fin 4 → Key → ℝ} {zx za : Draws Key 1} {zw zg : Draws Key 2}
    {L : Loaded Key W} (h : IsLoaded R eps v zx za zw zg L) :
    ∃ a b c d, plotDistributions L = .ok [a, b, c, d] ∧
      a.points = List.ofFn (fun i => (((zx 1000 (R.prngKey 0) i).1 0, (zx 1000 (R.prngKey 0) i).2 0), none)) ∧
      b.points = List.ofFn (fun i => (((za 2000 (R.prngKey 0) i).1 0, (za 2000 (R.prngKey 0) i).2 0), none)) ∧
      c.points = List.ofFn (fun i => ((ripple (zw 2000 (R.prngKey 0) i).1 0, ripple (zw 2000 (R.prngKey 0) i).1 1),
        some ((zw 2000 (R.prngKey 0) i).2 0))) ∧
      d.points = List.ofFn (fun i => ((swirl (zg 2000 (R.prngKey 0) i).1 0, swirl (zg 2000 (R.prngKey 0) i).1 1),
        some ((zg 2000 (R.prngKey 0) i).2 0))) ∧
      [a, b, c, d].map Panel.labels = [("$X$", "$Y$"), ("$X$", "$Y$"), ("$X_1$", "$X_2$"), ("$X_1$", "$X_2$")] ∧
      ∀ p ∈ [a, b, c, d], p.ticks = [-1, 0, 1] ∧ p.limits = (-2, 2) := by
  obtain ⟨a, a1, a2, a3, a4⟩ := blackPanel_of h.x (n := 1000) (by norm_num)
  obtain ⟨b, b1, b2, b3, b4⟩ := blackPanel_of h.ai (n := 2000) (by norm_num)
  obtain ⟨c, c1, c2, c3, c4⟩ := colourPanel_of h.waves (n := 2000) (by norm_num)
  obtain ⟨d, d1, d2, d3, d4⟩ := colourPanel_of h.galaxy (n := 2000) (by norm_num)
  refine ⟨a, b, c, d, plot_of a1 b1 c1 d1, a2, b2, c2, d2, ?_, ?_⟩
  · rw [List.map_cons, List.map_cons, List.map_cons, List.map_cons, a3, b3, c3, d3]
    rfl
  · simp only [List.forall_mem_cons]
    exact ⟨a4, b4, c4, d4, by simp⟩

/-! ## The results -/

theorem task_facts {t : Task ℝ ℝ (String × W)} {i : String} {a : ℝ} (h1 : t.id = .ok i) (h2 : t.mi = .ok (.num a)) :
    t.taskId = i ∧ t.sampler.mi = .ok (.num a) := by
  unfold Task.Task.id at h1
  unfold Task.Task.mi at h2
  cases hm : t.metadata with
  | error e => rw [hm] at h1; cases h1
  | ok m =>
    rw [hm] at h1 h2
    have e1 := Except.ok.inj h1
    have e2 := Except.ok.inj h2
    simp only [Task.Task.metadata, bind, Except.bind] at hm
    cases hx : t.sampler.dimX with
    | error e => rw [hx] at hm; cases hm
    | ok dx =>
      cases hy : t.sampler.dimY with
      | error e => rw [hx, hy] at hm; cases hm
      | ok dy =>
        cases hmi : t.sampler.mi with
        | error e => rw [hx, hy, hmi] at hm; cases hm
        | ok mi =>
          rw [hx, hy, hmi] at hm
          by_cases hn : Task.nonNegativeFloat mi
          · dsimp only at hm
            rw [if_pos hn] at hm
            rw [← Except.ok.inj hm] at e1 e2
            exact ⟨e1, congrArg Except.ok e2⟩
          · dsimp only at hm
            rw [if_neg hn] at hm
            cases hm

theorem IsTask.ready {R : JaxRandom Key} {eps : ℝ} {i : String} {dx : ℕ} (hd : 0 < dx) {f : (Fin dx → ℝ) → Fin dx → ℝ} {v : Key → ℝ} {z : Draws Key dx}
    {t : String × Task ℝ ℝ (String × W)} (h : IsTask R eps i f v z t) :
    t.2.taskId = i ∧ t.2.sampler.mi = .ok (.num (v (R.prngKey 0))) ∧ t.2.id = .ok t.2.taskId ∧
    ∀ n ∈ nSamples, ∀ s : ℤ, ∃ (m dx dy : ℕ) (x : Fin m → Fin dx → ℝ) (y : Fin m → Fin dy → ℝ), 0 < dx + dy ∧
      t.2.sampler.sample n s = .ok (.mat m dx x, .mat m dy y) := by
  obtain ⟨h1, h2⟩ := task_facts h.id h.mi
  refine ⟨h1, h2, by rw [h1, h.id], fun n hn s => ?_⟩
  have hn : 0 < n := by
    simp only [nSamples, List.mem_cons, List.not_mem_nil, or_false] at hn
    omega
  obtain ⟨w, u, h3, -⟩ := h.sample n hn s
  exact ⟨n, dx, 1, w, u, by omega, h3⟩

theorem config_ready {R : JaxRandom Key} {eps : ℝ} {v : Fin 4 → Key → ℝ} {zx za : Draws Key 1} {zw zg : Draws Key 2}
    {L : Loaded Key W} (h : IsLoaded R eps v zx za zw zg L) {E : World V} (hE : Usable E) : Workflow.Ready (config E L) := by
  obtain ⟨a, b, c, d, h1, ha, hb, hc, hd⟩ := h.tasks
  obtain ⟨a1, a2, a3, a4⟩ := ha.ready one_pos
  obtain ⟨b1, b2, b3, b4⟩ := hb.ready one_pos
  obtain ⟨c1, c2, c3, c4⟩ := hc.ready two_pos
  obtain ⟨d1, d2, d3, d4⟩ := hd.ready two_pos
  have ht : (config E L).tasks = [a.2, b.2, c.2, d.2] := by
    show L.tasks.map Prod.snd = _
    rw [h1]
    rfl
  have hfst : (config E L).estimators.map Prod.fst = estimators := by
    simp [config, Function.comp_def]
  refine ⟨?_, ?_, ?_, ?_, ?_, ?_, ?_, ?_, hE.yaml⟩
  · rw [hfst]
    decide
  · intro e he
    have h1 : e.1 ∈ estimators := hfst ▸ List.mem_map_of_mem (f := Prod.fst) he
    generalize e.1 = k at h1
    revert k
    decide
  · intro e he
    simp only [config, List.mem_map] at he
    obtain ⟨i, hi, rfl⟩ := he
    exact ⟨fun _ h => (by cases h), hE.alive i hi⟩
  · rw [ht]
    show [a.2.taskId, b.2.taskId, c.2.taskId, d.2.taskId].Nodup
    rw [a1, b1, c1, d1]
    decide
  · rw [ht]
    intro t htm
    have : t.taskId ∈ ["X", "AI", "Fence", "Balls"] := by
      have h2 : t.taskId ∈ [a.2, b.2, c.2, d.2].map Task.taskId := List.mem_map_of_mem htm
      simpa only [List.map_cons, List.map_nil, a1, b1, c1, d1] using h2
    generalize t.taskId = k at this
    clear htm
    revert k
    decide
  · rw [ht]
    simp only [List.forall_mem_cons]
    exact ⟨a3, b3, c3, d3, by simp⟩
  · intro s hs
    simp only [config, seeds, List.mem_map] at hs
    obtain ⟨i, -, rfl⟩ := hs
    exact Int.natCast_nonneg i
  · rw [ht]
    simp only [List.forall_mem_cons]
    exact ⟨fun n hn s _ => a4 n hn s, fun n hn s _ => b4 n hn s, fun n hn s _ => c4 n hn s, fun n hn s _ => d4 n hn s, by simp⟩

theorem filter_product {A B : Type} (p : A → Bool) (q : B → Bool) (l : List A) (m : List B) :
    (l ×ˢ m).filter (fun c => p c.1 && q c.2) = l.filter p ×ˢ m.filter q := by
  induction l with
  | nil => rfl
  | cons a l ih =>
    rw [List.product_cons, List.filter_append, ih, List.filter_map]
    cases hp : p a
    · rw [List.filter_cons_of_neg (by simp [hp])]
      simp [Function.comp_def, hp]
    · rw [List.filter_cons_of_pos hp, List.product_cons]
      simp [Function.comp_def, hp]

theorem forall2_filter {A B : Type} {S : A → B → Prop} {p : A → Bool} {q : B → Bool} {l : List A} {m : List B} (h : List.Forall₂ S l m)
    (hpq : ∀ a b, S a b → p a = q b) : List.Forall₂ S (l.filter p) (m.filter q) := by
  induction h with
  | nil => exact .nil
  | @cons a b l m h1 _ ih =>
    cases hp : p a
    · rw [List.filter_cons_of_neg (by simp [hp]), List.filter_cons_of_neg (by rw [← hpq _ _ h1]; simp [hp])]
      exact ih
    · rw [List.filter_cons_of_pos hp, List.filter_cons_of_pos (by rw [← hpq _ _ h1, hp])]
      exact .cons h1 ih

theorem forall2_mem {A B : Type} {S : A → B → Prop} {l : List A} {m : List B} (h : List.Forall₂ S l m) :
    List.Forall₂ (fun a b => a ∈ l ∧ S a b) l m := by
  induction h with
  | nil => exact .nil
  | cons h1 _ ih => exact .cons ⟨List.mem_cons_self, h1⟩ (ih.imp fun _ _ h => ⟨List.mem_cons_of_mem _ h.1, h.2⟩)

theorem forall2_at {A B : Type} {S : A → B → Prop} {l : List A} {m : List B} (h : List.Forall₂ S l m) {a : A} :
    ∀ {i : ℕ}, l[i]? = some a → ∃ b, m[i]? = some b ∧ S a b := by
  induction h with
  | nil => intro i h; simp at h
  | @cons c d l m h1 _ ih =>
    intro i hi
    cases i with
    | zero =>
      obtain rfl : c = a := by simpa using hi
      exact ⟨d, rfl, h1⟩
    | succ i =>
      rw [List.getElem?_cons_succ] at hi ⊢
      exact ih hi

theorem groupKeys_eq {ks target : List String} (h1 : target.Pairwise (· < ·)) (h2 : ∀ e, e ∈ ks ↔ e ∈ target) : groupKeys ks = target := by
  have h3 : (groupKeys ks).Pairwise fun a b => decide (a ≤ b) = true :=
    List.pairwise_mergeSort (fun a b c h k => by simp only [decide_eq_true_eq] at *; exact String.le_trans h k)
      (fun a b => by simpa using String.le_total a b) _
  have h4 : (groupKeys ks).Nodup := (List.mergeSort_perm _ _).nodup_iff.2 (List.nodup_dedup _)
  have h5 : target.Nodup := h1.imp fun {a b} (h : a < b) (e : a = b) => String.lt_irrefl b (e ▸ h)
  have h6 : ∀ e, e ∈ groupKeys ks ↔ e ∈ target := fun e => by
    unfold groupKeys
    rw [List.mem_mergeSort, List.mem_dedup, h2]
  refine List.Perm.eq_of_pairwise (le := fun a b : String => a ≤ b) (fun a b _ _ => String.le_antisymm) (h3.imp fun h => by simpa using h)
    (h1.imp fun h => String.not_lt.1 fun h' => String.lt_irrefl _ (String.lt_trans h h')) ((List.perm_ext_iff_of_nodup h4 h5).2 h6)

theorem mean_const {vs : List (Option ℝ)} {a : ℝ} (h : ∀ v ∈ vs, v = some a) (hne : vs ≠ []) : Tables.mean vs = some a := by
  have e : vs.filterMap id = List.replicate vs.length a := by
    rw [List.eq_replicate_of_mem h]
    simp
  have hl : vs.length ≠ 0 := fun h => hne (List.length_eq_zero_iff.1 h)
  unfold Tables.mean
  dsimp only
  rw [e, if_neg (by simpa using hne), List.sum_replicate, List.length_replicate]
  have : (vs.length : ℝ) ≠ 0 := by exact_mod_cast hl
  rw [nsmul_eq_mul, mul_div_cancel_left₀ _ this]

/-- What a line says about a task. -/
theorem line_of {R : JaxRandom Key} {eps : ℝ} {i : String} {dx : ℕ} (hd : 0 < dx) {f : (Fin dx → ℝ) → Fin dx → ℝ} {v : Key → ℝ} {z : Draws Key dx}
    {t : String × Task ℝ ℝ (String × W)} (h : IsTask R eps i f v z t) {E : World V} {L : Loaded Key W} {e : String} {n : ℕ} (hn : 0 < n) {s : ℤ}
    {l : Line ℝ (Fl ℝ) V (String × W)} (hl : Workflow.IsLine (config E L) (e, ⟨false, fun _ => .exc "" none, E.est e⟩) t.2 n s l) :
    l.result.estimatorId = e ∧ l.result.taskId = i ∧ l.result.nSamples = n ∧ l.miTrue = .num (v (R.prngKey 0)) ∧
    ∃ w u, Standardised eps (fun i => f (z n (R.prngKey s) i).1) w ∧ Standardised eps (fun i => (z n (R.prngKey s) i).2) u ∧
      Shown (E.est e (List.ofFn fun i => List.ofFn fun j => E.csv (w i j)) (List.ofFn fun i => List.ofFn fun j => E.csv (u i j)))
        (MiFigure.number l.result.mi) := by
  obtain ⟨h1, h2⟩ := task_facts h.id h.mi
  obtain ⟨w, u, h3, h4, h5⟩ := h.sample n hn s
  obtain ⟨file, r, -, h6, -, h7⟩ := hl.run n dx 1 w u h3
  obtain ⟨g1, g2, g3, g4⟩ := h6.ids
  refine ⟨by rw [h7]; exact g1, by rw [h7]; exact g2.trans h1, by rw [h7]; exact g4, ?_, w, u, h4, h5, ?_⟩
  · exact (Except.ok.inj (h2.symm.trans hl.true_mi)).symm
  · have e1 : l.result.mi = r.mi := by rw [h7]
    rw [e1]
    refine ⟨fun res hres a => ?_, fun msg out ho => ?_⟩
    · rw [(h6.on_success res hres).1]
      cases res.mi with
      | nan => exact ⟨fun h => (by cases h), fun h => (by cases h)⟩
      | num b =>
        exact ⟨fun h => congrArg Fl.num (Option.some.inj h), fun h => congrArg some (Fl.num.inj h)⟩
    · rw [(h6.on_failure msg out ho).1]
      rfl

theorem places_of {P : Type} : ∀ D : List (Line ℝ (Fl ℝ) V P), (∀ l ∈ D, l.result.taskId ∈ taskIds) →
    (D.mapM fun l => taskIndex l.result.taskId) = .ok (D.map fun l => taskIds.idxOf l.result.taskId) := by
  intro D
  induction D with
  | nil => intro _; rfl
  | cons l D ih =>
    intro h
    rw [List.mapM_cons, ih fun k hk => h k (List.mem_cons_of_mem _ hk), taskIndex, if_pos (h l List.mem_cons_self)]
    rfl

theorem cloudOf_spec {P : Type} (noise : ℕ → ℝ) (data : List (Line ℝ (Fl ℝ) V P)) (e : String) (hd : ∀ l ∈ data, l.result.taskId ∈ taskIds)
    {lab mar col : String} (h1 : estimatorNames.get e = some lab) (h2 : estimatorMarkers.get e = some mar) (h3 : estimatorColors.get e = some col) :
    ∃ c, cloudOf noise data e = .ok c ∧ c.label = lab ∧ c.marker = mar ∧ c.colour = col ∧
      c.points.length = (data.filter fun l => l.result.estimatorId == e).length ∧
      ∀ i l, (data.filter fun l => l.result.estimatorId == e)[i]? = some l →
        c.points[i]? = some ((taskIds.idxOf l.result.taskId : ℝ) + noise i / 20, MiFigure.number l.result.mi) := by
  have hp := places_of (data.filter fun l => l.result.estimatorId == e) fun l hl => hd l (List.mem_of_mem_filter hl)
  generalize hD : (data.filter fun l => l.result.estimatorId == e) = D at hp
  refine ⟨⟨lab, mar, col, ((D.map fun l => taskIds.idxOf l.result.taskId).mapIdx fun i (k : ℕ) => (k : ℝ) + 0.05 * noise i).zip
    (D.map fun l => MiFigure.number l.result.mi)⟩, ?_, rfl, rfl, rfl, ?_, fun i l hl => ?_⟩
  · simp only [cloudOf, hD, hp, MiFigure.lookup_ok h1, MiFigure.lookup_ok h2, MiFigure.lookup_ok h3, bind, Except.bind]
  · simp
  · rw [List.getElem?_zip_eq_some]
    constructor
    · rw [List.getElem?_mapIdx, List.getElem?_map, hl]
      simp only [Option.map_some]
      congr 2
      ring
    · rw [List.getElem?_map, hl]
      rfl

/-- **C84**, the figure with the results. -/
theorem workflow_spec {R : JaxRandom Key} {eps : ℝ} {v : Fin 4 → Key → ℝ} {zx za : Draws Key 1} {zw zg : Draws Key 2}
    {L : Loaded Key W} (h : IsLoaded R eps v zx za zw zg L) {E : World V} (hE : Usable E) (noise : ℕ → ℕ → ℝ) :
    ∃ lines f, workflow noise E L = .ok (lines, f) ∧ lines.length = 400 ∧ IsResults R E eps noise v zx za zw zg f := by
  have hready := config_ready h hE
  obtain ⟨lines, h1, h2⟩ := Workflow.results_spec (config E L) hready
  obtain ⟨a, b, c, d, hL, ha, hb, hc, hd⟩ := h.tasks
  have a1 := (task_facts ha.id ha.mi).1
  have b1 := (task_facts hb.id hb.mi).1
  have c1 := (task_facts hc.id hc.mi).1
  have d1 := (task_facts hd.id hd.mi).1
  have ht : (config E L).tasks = [a.2, b.2, c.2, d.2] := by
    show L.tasks.map Prod.snd = _
    rw [hL]
    rfl
  have hcomb : Workflow.combinations (config E L) =
      (estimators.map fun i => (i, (⟨false, fun _ => .exc "" none, E.est i⟩ : Est (Fl ℝ) V ℝ))) ×ˢ ([a.2, b.2, c.2, d.2] ×ˢ (nSamples ×ˢ seeds)) := by
    unfold Workflow.combinations
    rw [ht]
    rfl
  rw [hcomb] at h2
  have hlen : lines.length = 400 := by
    rw [← h2.length_eq]
    simp only [List.length_product, List.length_map]
    rfl
  -- what the lines say
  have facts : List.Forall₂ (fun cb l => (l.result.estimatorId = cb.1.1 ∧ l.result.taskId = cb.2.1.taskId ∧ l.result.nSamples = cb.2.2.1 ∧
      cb.1.2 = ⟨false, fun _ => .exc "" none, E.est cb.1.1⟩ ∧
      ∃ k : Fin 4, taskIds[(k : ℕ)]? = some l.result.taskId ∧ l.miTrue = .num (v k (R.prngKey 0))) ∧
      Workflow.IsLine (config E L) cb.1 cb.2.1 cb.2.2.1 cb.2.2.2 l)
      ((estimators.map fun i => (i, (⟨false, fun _ => .exc "" none, E.est i⟩ : Est (Fl ℝ) V ℝ))) ×ˢ ([a.2, b.2, c.2, d.2] ×ˢ (nSamples ×ˢ seeds)))
      lines := (forall2_mem h2).imp (by
    rintro ⟨⟨e, est⟩, t, n, s⟩ l ⟨hm, hl⟩
    refine ⟨?_, hl⟩
    simp only [List.mem_product, List.mem_map] at hm
    obtain ⟨⟨i, -, hi⟩, hmt, hmn, -⟩ := hm
    obtain ⟨rfl, rfl⟩ := Prod.mk.inj hi
    have hn : 0 < n := by
      simp only [nSamples, List.mem_cons, List.not_mem_nil, or_false] at hmn
      omega
    dsimp only at hl ⊢
    rcases List.mem_cons.1 hmt with rfl | hmt
    · obtain ⟨g1, g2, g3, g4, -⟩ := line_of one_pos ha hn hl
      exact ⟨g1, g2.trans a1.symm, g3, rfl, 0, by rw [g2]; rfl, g4⟩
    rcases List.mem_cons.1 hmt with rfl | hmt
    · obtain ⟨g1, g2, g3, g4, -⟩ := line_of one_pos hb hn hl
      exact ⟨g1, g2.trans b1.symm, g3, rfl, 1, by rw [g2]; rfl, g4⟩
    rcases List.mem_cons.1 hmt with rfl | hmt
    · obtain ⟨g1, g2, g3, g4, -⟩ := line_of two_pos hc hn hl
      exact ⟨g1, g2.trans c1.symm, g3, rfl, 2, by rw [g2]; rfl, g4⟩
    rcases List.mem_singleton.1 hmt with rfl
    obtain ⟨g1, g2, g3, g4, -⟩ := line_of two_pos hd hn hl
    exact ⟨g1, g2.trans d1.symm, g3, rfl, 3, by rw [g2]; rfl, g4⟩)
  have hdata := forall2_filter (p := fun cb => cb.2.2.1 == 5000) (q := fun l => l.result.nSamples == 5000) facts fun cb l h => by
    rw [h.1.2.2.1]
  generalize hD : (lines.filter fun l => l.result.nSamples == 5000) = data at hdata
  have htask : ∀ l ∈ data, ∃ k : Fin 4, taskIds[(k : ℕ)]? = some l.result.taskId ∧ l.miTrue = .num (v k (R.prngKey 0)) := fun l hl => by
    obtain ⟨cb, -, h3⟩ := GmmBenchmark.forall2_right hdata l hl
    exact h3.1.2.2.2.2
  have htask' : ∀ l ∈ data, l.result.taskId ∈ taskIds := fun l hl => by
    obtain ⟨k, hk, -⟩ := htask l hl
    exact List.mem_of_getElem? hk
  have hest : ∀ e ∈ estimators, List.Forall₂ (fun cb l => l.result.taskId = cb.2.1.taskId ∧ Workflow.IsLine (config E L) cb.1 cb.2.1 cb.2.2.1 cb.2.2.2 l)
      ([(e, (⟨false, fun _ => .exc "" none, E.est e⟩ : Est (Fl ℝ) V ℝ))] ×ˢ ([a.2, b.2, c.2, d.2] ×ˢ ([5000] ×ˢ seeds)))
      (data.filter fun l => l.result.estimatorId == e) := by
    intro e he
    have h3 := forall2_filter (p := fun cb => cb.1.1 == e) (q := fun l => l.result.estimatorId == e) hdata fun cb l h => by rw [h.1.1]
    have h4 : (estimators.map fun i => (i, (⟨false, fun _ => .exc "" none, E.est i⟩ : Est (Fl ℝ) V ℝ))).filter (fun q => q.1 == e)
        = [(e, ⟨false, fun _ => .exc "" none, E.est e⟩)] := by
      rw [List.filter_map]
      have : estimators.filter ((fun q : String × Est (Fl ℝ) V ℝ => q.1 == e) ∘ fun i => (i, ⟨false, fun _ => .exc "" none, E.est i⟩)) = [e] := by
        show estimators.filter (fun i => i == e) = [e]
        clear * - he
        revert e
        decide
      rw [this]
      rfl
    have h5 : (nSamples ×ˢ seeds).filter (fun q => q.1 == 5000) = [5000] ×ˢ seeds := by decide
    have h6 : ([a.2, b.2, c.2, d.2] ×ˢ (nSamples ×ˢ seeds)).filter (fun q => q.2.1 == 5000) = [a.2, b.2, c.2, d.2] ×ˢ ([5000] ×ˢ seeds) := by
      have := filter_product (fun _ : Task ℝ ℝ (String × W) => true) (fun q : ℕ × ℤ => q.1 == 5000) [a.2, b.2, c.2, d.2] (nSamples ×ˢ seeds)
      rw [h5, List.filter_true] at this
      simpa only [Bool.true_and] using this
    have h7 := filter_product (fun q : String × Est (Fl ℝ) V ℝ => q.1 == e) (fun q : Task ℝ ℝ (String × W) × ℕ × ℤ => q.2.1 == 5000)
      (estimators.map fun i => (i, (⟨false, fun _ => .exc "" none, E.est i⟩ : Est (Fl ℝ) V ℝ))) ([a.2, b.2, c.2, d.2] ×ˢ (nSamples ×ˢ seeds))
    rw [h4, h6] at h7
    rw [List.filter_filter, h7] at h3
    exact h3.imp fun cb l h => ⟨h.1.2.1, h.2⟩
  have hat : ∀ e ∈ estimators, ∀ (k : ℕ) (t : Task ℝ ℝ (String × W)), [a.2, b.2, c.2, d.2][k]? = some t → ∀ s : ℕ, s < 10 →
      ∃ l, (data.filter fun l => l.result.estimatorId == e)[10 * k + s]? = some l ∧ l.result.taskId = t.taskId ∧
        Workflow.IsLine (config E L) (e, ⟨false, fun _ => .exc "" none, E.est e⟩) t 5000 s l := by
    intro e he k t hk s hs
    refine forall2_at (hest e he) (a := ((e, ⟨false, fun _ => .exc "" none, E.est e⟩), t, 5000, (s : ℤ))) ?_
    have hk4 : k < 4 := by
      by_contra hk4
      rw [List.getElem?_eq_none (by simpa using hk4)] at hk
      cases hk
    interval_cases k <;> (obtain rfl := Option.some.inj hk; interval_cases s <;> rfl)
  have hkeys : groupKeys (data.map fun l => l.result.estimatorId) = legend.map Prod.fst := by
    refine groupKeys_eq (by decide) fun e => ?_
    have he : e ∈ legend.map Prod.fst ↔ e ∈ estimators := by
      constructor
      · revert e
        decide
      · revert e
        decide
    rw [he, List.mem_map]
    constructor
    · rintro ⟨l, hl, rfl⟩
      obtain ⟨cb, hcb, h3⟩ := GmmBenchmark.forall2_right hdata l hl
      obtain ⟨i, hi, h5⟩ := List.mem_map.1 (List.mem_product.1 (List.mem_filter.1 hcb).1).1
      rw [h3.1.1, ← h5]
      exact hi
    · intro he
      obtain ⟨l, h3, -⟩ := hat e he 0 a.2 rfl 0 (by norm_num)
      have h4 := List.mem_filter.1 (List.mem_of_getElem? h3)
      exact ⟨l, h4.1, by simpa using h4.2⟩
  have hsome : ∀ (k : ℕ) (t : Task ℝ ℝ (String × W)), [a.2, b.2, c.2, d.2][k]? = some t → ∃ l ∈ data, l.result.taskId = t.taskId := by
    intro k t hk
    obtain ⟨l, h3, h4, -⟩ := hat "CCA" (by decide) k t hk 0 (by norm_num)
    exact ⟨l, (List.mem_filter.1 (List.mem_of_getElem? h3)).1, h4⟩
  have htk : groupKeys (data.map fun l => l.result.taskId) = ["AI", "Balls", "Fence", "X"] := by
    refine groupKeys_eq (by decide) fun e => ?_
    rw [List.mem_map]
    constructor
    · rintro ⟨l, hl, rfl⟩
      have := htask' l hl
      revert this
      generalize l.result.taskId = k
      revert k
      decide
    · intro he
      rcases List.mem_cons.1 he with rfl | he
      · exact b1 ▸ hsome 1 b.2 rfl
      rcases List.mem_cons.1 he with rfl | he
      · exact d1 ▸ hsome 3 d.2 rfl
      rcases List.mem_cons.1 he with rfl | he
      · exact c1 ▸ hsome 2 c.2 rfl
      rcases List.mem_singleton.1 he with rfl
      exact a1 ▸ hsome 0 a.2 rfl
  have hdot : ∀ (k : Fin 4) (i : String), taskIds[(k : ℕ)]? = some i → taskIds.idxOf i = k → i ∈ taskIds → (∃ l ∈ data, l.result.taskId = i) →
      dottedOf data i = .ok ⟨(k : ℕ) - 0.2, (k : ℕ) + 0.2, some (v k (R.prngKey 0))⟩ := by
    intro k i hk hi hmem hne
    have hm : Tables.mean ((data.filter fun l => l.result.taskId == i).map fun l => MiFigure.number l.miTrue) = some (v k (R.prngKey 0)) := by
      refine mean_const ?_ ?_
      · intro x hx
        obtain ⟨l, hl, rfl⟩ := List.mem_map.1 hx
        obtain ⟨h3, h4⟩ := List.mem_filter.1 hl
        obtain ⟨k', h5, h6⟩ := htask l h3
        have h4 : l.result.taskId = i := by simpa using h4
        have : k' = k := by
          rw [h4] at h5
          have e1 : k' = k := by
            clear * - h5 hk
            revert i k k'
            decide
          exact e1
        rw [h6, this]
        rfl
      · obtain ⟨l, hl, h4⟩ := hne
        intro h5
        have : MiFigure.number l.miTrue ∈ (data.filter fun l => l.result.taskId == i).map fun l => MiFigure.number l.miTrue :=
          List.mem_map_of_mem (f := fun l : Line ℝ (Fl ℝ) V (String × W) => MiFigure.number l.miTrue) (List.mem_filter.2 ⟨hl, by simpa using h4⟩)
        rw [h5] at this
        cases this
    simp only [dottedOf, hm, taskIndex, if_pos hmem, hi, bind, Except.bind]
  obtain ⟨ts, htruths, hts⟩ : ∃ ts, (["AI", "Balls", "Fence", "X"] : List String).mapM (dottedOf data) = .ok ts ∧ ts =
      [⟨((1 : Fin 4) : ℕ) - 0.2, ((1 : Fin 4) : ℕ) + 0.2, some (v 1 (R.prngKey 0))⟩, ⟨((3 : Fin 4) : ℕ) - 0.2, ((3 : Fin 4) : ℕ) + 0.2, some (v 3 (R.prngKey 0))⟩,
        ⟨((2 : Fin 4) : ℕ) - 0.2, ((2 : Fin 4) : ℕ) + 0.2, some (v 2 (R.prngKey 0))⟩, ⟨((0 : Fin 4) : ℕ) - 0.2, ((0 : Fin 4) : ℕ) + 0.2, some (v 0 (R.prngKey 0))⟩] := by
    have e1 := hdot 1 "AI" rfl (by decide) (by decide) (b1 ▸ hsome 1 b.2 rfl)
    have e2 := hdot 3 "Balls" rfl (by decide) (by decide) (d1 ▸ hsome 3 d.2 rfl)
    have e3 := hdot 2 "Fence" rfl (by decide) (by decide) (c1 ▸ hsome 2 c.2 rfl)
    have e4 := hdot 0 "X" rfl (by decide) (by decide) (a1 ▸ hsome 0 a.2 rfl)
    refine ⟨_, ?_, rfl⟩
    simp only [List.mapM_cons, List.mapM_nil, e1, e2, e3, e4, bind, Except.bind, pure, Except.pure]
  have hcloud : ∀ q ∈ legend.zipIdx, ∃ cl, cloudOf (noise q.2) data q.1.1 = .ok cl ∧ ((cl.label, cl.marker, cl.colour) = q.1.2 ∧ cl.points.length = 40 ∧
      Column R E eps q.1.1 (noise q.2) 0 id zx cl.points ∧ Column R E eps q.1.1 (noise q.2) 1 id za cl.points ∧
      Column R E eps q.1.1 (noise q.2) 2 ripple zw cl.points ∧ Column R E eps q.1.1 (noise q.2) 3 swirl zg cl.points) := by
    rintro ⟨⟨e, lab, mar, col⟩, j⟩ hq
    have hq' := List.fst_mem_of_mem_zipIdx hq
    obtain ⟨he, h3, h4, h5⟩ := (by decide : ∀ q ∈ legend, q.1 ∈ estimators ∧ estimatorNames.get q.1 = some q.2.1 ∧
      estimatorMarkers.get q.1 = some q.2.2.1 ∧ estimatorColors.get q.1 = some q.2.2.2) _ hq'
    obtain ⟨cl, g1, g2, g3, g4, g5, g6⟩ := cloudOf_spec (noise j) data e htask' h3 h4 h5
    have col : ∀ (k : ℕ) (t : String × Task ℝ ℝ (String × W)), [a.2, b.2, c.2, d.2][k]? = some t.2 → taskIds.idxOf t.2.taskId = k →
        ∀ {dx : ℕ} (hdx : 0 < dx) {f : (Fin dx → ℝ) → Fin dx → ℝ} {z : Draws Key dx} {v : Key → ℝ}, IsTask R eps t.2.taskId f v z t →
        Column R E eps e (noise j) k f z cl.points := by
      intro k t hk hi dx hdx f z v hT s hs
      obtain ⟨l, l1, l2, l3⟩ := hat e he k t.2 hk s hs
      obtain ⟨-, -, -, -, w, u, w1, w2, w3⟩ := line_of hdx hT (by norm_num) l3
      refine ⟨_, w, u, ?_, w1, w2, w3⟩
      rw [g6 _ l l1, l2, hi]
    refine ⟨cl, g1, by rw [g2, g3, g4], ?_, col 0 a rfl (by rw [a1]; decide) one_pos (a1 ▸ ha), col 1 b rfl (by rw [b1]; decide) one_pos (b1 ▸ hb),
      col 2 c rfl (by rw [c1]; decide) two_pos (c1 ▸ hc), col 3 d rfl (by rw [d1]; decide) two_pos (d1 ▸ hd)⟩
    rw [g5, ← (hest e he).length_eq]
    rfl
  obtain ⟨cls, h3, h4⟩ := Workflow.mapM_forall2 _ (fun q : (String × String × String × String) × ℕ => cloudOf (noise q.2) data q.1.1) legend.zipIdx hcloud
  have h5 : ((legend.map Prod.fst).zipIdx.mapM fun e => cloudOf (noise e.2) data e.1) = .ok cls := by
    rw [← h3, List.zipIdx_map, List.mapM_map]
    rfl
  have h6 : workflow noise E L = .ok (lines, ⟨cls, ts, (List.range taskIds.length).zip tasksOfficial, (-0.1, 1.4)⟩) := by
    simp only [workflow, h1, plotResults, hD, hkeys, h5, htk, htruths, bind, Except.bind, Workflow.lift]
  refine ⟨lines, _, h6, hlen, h4, ?_, rfl, ?_⟩
  · rw [hts]
    norm_num
  · norm_num

/-- **C84**: there are numbers with the mutual informations as their expectations, and draws from the four laws, such that the following holds for
every generator of random numbers.  If no number is negative, the file can be loaded, the figure with the distributions shows the draws, and
the figure with the results shows the estimates for the standardised draws and dotted lines at the numbers; if one is negative, loading raises
`ValidationError`.  All are positive but for keys of probability at most `4 exp (-160)`. -/
theorem cool_tasks {T : Tfp Key} [IsProbabilityMeasure κ] (hT : IdealTfp T κ) (R₀ : JaxRandom Key) {eps : ℝ} (heps : 0 < eps) :
    ∃ (v : Fin 4 → Key → ℝ) (zx za : Draws Key 1) (zw zg : Draws Key 2) (B : Set Key),
      Stands κ id smallX (v 0) zx ∧ Stands κ id lawAi (v 1) za ∧ Stands κ ripple (lawColumns 12) (v 2) zw ∧ Stands κ swirl (lawBalls 3) (v 3) zg ∧
      κ B ≤ 4 * ENNReal.ofReal (Real.exp (-160)) ∧
      ∀ R : JaxRandom Key, (R.prngKey 0 ∉ B → ∀ j, 0 < v j (R.prngKey 0)) ∧
        ((∀ j, 0 ≤ v j (R.prngKey 0)) → ∃ L : Loaded Key W, load R T eps = .ok L ∧ IsLoaded R eps v zx za zw zg L ∧
          ∀ {V : Type} (E : World V), Usable E → ∀ noise, ∃ lines f, workflow noise E L = .ok (lines, f) ∧ lines.length = 400 ∧
            IsResults R E eps noise v zx za zw zg f) ∧
        ((∃ j, v j (R.prngKey 0) < 0) → load (W := W) R T eps = .error .validationError) := by
  obtain ⟨v, zx, za, zw, zg, B, h1, h2, h3, h4, h5, h6⟩ := load_size (W := W) hT R₀ sampleEstimate (by unfold sampleEstimate; norm_num) heps
  refine ⟨v, zx, za, zw, zg, B, h1, h2, h3, h4, ?_, fun R => ?_⟩
  · refine h5.trans (le_of_eq ?_)
    unfold sampleEstimate
    norm_num
  · obtain ⟨g1, g2, g3⟩ := h6 R
    refine ⟨g1, fun hv => ?_, g3⟩
    obtain ⟨L, l1, l2⟩ := g2 hv
    exact ⟨L, l1, l2, fun E hE noise => workflow_spec l2 hE noise⟩

theorem mapM_bad {A B E : Type} {f : A → Except E B} {l : List A} {a : A} (ha : a ∈ l) {e : E} (hf : f a = .error e) : ∃ e', l.mapM f = .error e' := by
  induction l with
  | nil => cases ha
  | cons b l ih =>
    rw [List.mapM_cons]
    rcases hb : f b with e' | v
    · exact ⟨e', rfl⟩
    · rcases List.mem_cons.1 ha with rfl | h
      · rw [hf] at hb
        cases hb
      · obtain ⟨e', h'⟩ := ih h
        exact ⟨e', by simp only [h', bind, Except.bind]⟩

/-- **C84** A result for a task without a place is not plotted anywhere: the rule raises. -/
theorem plotResults_unknown {P : Type} (noise : ℕ → ℕ → ℝ) (lines : List (Line ℝ (Fl ℝ) V P)) {l : Line ℝ (Fl ℝ) V P} (hl : l ∈ lines)
    (hn : l.result.nSamples = 5000) (ht : l.result.taskId ∉ taskIds) : ∃ e, plotResults noise lines = .error e := by
  unfold plotResults
  simp only [bind, Except.bind]
  split
  · exact ⟨_, rfl⟩
  · have hk : l.result.taskId ∈ groupKeys ((lines.filter fun l => l.result.nSamples == 5000).map fun l => l.result.taskId) := by
      unfold groupKeys
      rw [List.mem_mergeSort, List.mem_dedup]
      exact List.mem_map_of_mem (f := fun l : Line ℝ (Fl ℝ) V P => l.result.taskId) (List.mem_filter.2 ⟨hl, by simpa using hn⟩)
    obtain ⟨e, he⟩ := mapM_bad hk (f := dottedOf (lines.filter fun l => l.result.nSamples == 5000)) (e := .valueError)
      (by simp only [dottedOf, taskIndex, if_neg ht, bind, Except.bind])
    rw [he]
    exact ⟨_, rfl⟩

example : "Waves" ∉ taskIds := by decide

/-! ## Examples -/

/-- One estimator returns the number one, the others raise. -/
def exampleWorld : World ℕ where
  est := fun e _ _ => if e = "CCA" then .ret ⟨.num 1, none, []⟩ else .exc "" none
  str := fun _ => 0
  csv := id
  yaml := .ok
  measured := fun _ => .num 0

theorem exampleWorld_usable : Usable exampleWorld where
  alive := by
    intro e _ x y
    unfold exampleWorld
    dsimp only
    by_cases h : e = "CCA"
    · rw [if_pos h]
      exact fun h => by cases h
    · rw [if_neg h]
      exact fun h => by cases h
  yaml := fun d => ⟨d, rfl⟩

/-- With some generator of random numbers all of it is made, and all dotted lines are above zero. -/
example : ∃ (R : JaxRandom PathKey) (L : Loaded PathKey ℕ) (ps : List Panel) (lines : _) (f : Figure),
    load R path (1 / 10) = .ok L ∧ plotDistributions L = .ok ps ∧ workflow (fun _ _ => 0) exampleWorld L = .ok (lines, f) ∧
    f.truths.length = 4 ∧ ∀ d ∈ f.truths, ∃ a, 0 < a ∧ d.height = some a := by
  obtain ⟨v, zx, za, zw, zg, B, -, -, -, -, hB, h⟩ := cool_tasks (W := ℕ) path_ideal Integration.pathRandom (eps := 1 / 10) (by norm_num)
  obtain ⟨k, hk⟩ : ∃ k, k ∉ B := by
    by_contra hall
    push Not at hall
    have hu : B = Set.univ := Set.eq_univ_of_forall hall
    rw [hu, measure_univ] at hB
    have h1 : Real.exp (-160) ≤ 1 / 5 := by
      have h2 : (160 : ℝ) + 1 ≤ Real.exp 160 := Real.add_one_le_exp _
      rw [Real.exp_neg, one_div]
      exact inv_anti₀ (by norm_num) (by linarith)
    have h3 : (4 : ENNReal) * ENNReal.ofReal (Real.exp (-160)) ≤ ENNReal.ofReal (4 / 5) := by
      rw [show (4 / 5 : ℝ) = 4 * (1 / 5) by norm_num, ENNReal.ofReal_mul (by norm_num)]
      exact mul_le_mul' (by simp) (ENNReal.ofReal_le_ofReal h1)
    have h4 := hB.trans h3
    rw [← ENNReal.ofReal_one, ENNReal.ofReal_le_ofReal_iff (by norm_num)] at h4
    norm_num at h4
  obtain ⟨h1, h2, -⟩ := h { Integration.pathRandom with prngKey := fun _ => k }
  have hp := h1 hk
  obtain ⟨L, l1, l2, l3⟩ := h2 fun j => (hp j).le
  obtain ⟨a, b, c, d, p1, -⟩ := plotDistributions_spec l2
  obtain ⟨lines, f, f1, -, f2⟩ := l3 exampleWorld exampleWorld_usable fun _ _ => 0
  refine ⟨_, L, _, lines, f, l1, p1, f1, ?_, ?_⟩
  · simpa using congrArg List.length f2.truths
  · intro d hd
    have hm : (d.left, d.right, d.height) ∈ f.truths.map fun d => (d.left, d.right, d.height) := List.mem_map_of_mem (f := fun d : Dotted => (d.left, d.right, d.height)) hd
    rw [f2.truths] at hm
    simp only [List.mem_cons, Prod.mk.injEq, List.not_mem_nil, or_false] at hm
    rcases hm with ⟨-, -, hm⟩ | ⟨-, -, hm⟩ | ⟨-, -, hm⟩ | ⟨-, -, hm⟩
    · exact ⟨_, hp 1, hm⟩
    · exact ⟨_, hp 3, hm⟩
    · exact ⟨_, hp 2, hm⟩
    · exact ⟨_, hp 0, hm⟩

end BMI.CoolTasks
