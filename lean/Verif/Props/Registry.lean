import Verif.Lemmas.Registry
import Verif.Props.TaskIds
import Verif.Props.MiFigure
import Verif.Lemmas.StudentWitness
import Verif.Lemmas.StudentNumbers

/-! Properties of the benchmark tasks. -/

namespace BMI.Registry

open MeasureTheory ProbabilityTheory BMI.Samplers BMI.Student BMI.TaskIds BMI.Search Matrix

variable {Key State : Type} [MeasurableSpace Key] [MeasurableSpace State] {R : JaxRandom Key} {κ : Measure Key}
  {N : NpRandom State} {μ : Measure State}

theorem wrap_honest (f : ∀ {K : Type}, Sampler K → Except Err (Sampler K)) {p q : Part}
    (hf : ∀ {K : Type} [MeasurableSpace K] (κ : Measure K) (init : ℤ → K) (ok : Set ℤ) (sizes : Set ℕ) (s : Sampler K),
      Honest κ init ok sizes s p → ∃ s', f s = .ok s' ∧ s'.mi = s.mi ∧ Honest κ init ok sizes s' q)
    {b : Built Key State} (hb : HonestTask R κ N μ p b) :
    ∃ b', b.wrap f = .ok b' ∧ b'.mi = b.mi ∧ HonestTask R κ N μ q b' := by
  cases b with
  | jax s =>
    obtain ⟨s', h1, h2, h3⟩ := hf _ _ _ _ s hb
    exact ⟨.jax s', by simp [Built.wrap, h1, Except.map], h2, h3⟩
  | np s =>
    obtain ⟨s', h1, h2, h3⟩ := hf _ _ _ _ s hb
    exact ⟨.np s', by simp [Built.wrap, h1, Except.map], h2, h3⟩

theorem additive_law (e : ℝ) : liftPair (uniformNoiseLaw e)
    = ((uniformLaw 0 1).prod (uniformLaw (-e) e)).map fun z => (fun _ => z.1, fun _ => z.1 + z.2) := by
  unfold liftPair uniformNoiseLaw additiveLaw
  rw [Measure.map_map (measurable_single.prodMap measurable_single) measurable_shear]
  rfl

/-- **C90** Every task built from the base tasks by the transforms, in any order and any number of them, samples independent draws
of the law written down for it, and advertises the mutual information of that law, which has the closed form of the base task. -/
theorem build_honest {F : Type} (hR : IdealRandom R κ) (hN : IdealStudent N μ) (val : F → ℝ)
    (other : Call F → Except Err (Built Key State)) (c : Call F) (hc : Valid val c) :
    ∃ b, build R N val other c = .ok b ∧ b.mi = numberOf val c ∧ HonestTask R κ N μ (lawOf val c) b := by
  have step : ∀ (f : ∀ {K : Type}, Sampler K → Except Err (Sampler K)) {t : Call F} {q : Part},
      (∀ {K : Type} [MeasurableSpace K] (κ : Measure K) (init : ℤ → K) (ok : Set ℤ) (sizes : Set ℕ) (s : Sampler K),
        Honest κ init ok sizes s (lawOf val t) → ∃ s', f s = .ok s' ∧ s'.mi = s.mi ∧ Honest κ init ok sizes s' q) →
      (∃ b, build R N val other t = .ok b ∧ b.mi = numberOf val t ∧ HonestTask R κ N μ (lawOf val t) b) →
      ∃ b, (do (← build R N val other t).wrap f) = .ok b ∧ b.mi = numberOf val t ∧ HonestTask R κ N μ q b := by
    intro f t q hf ⟨b, h1, h2, h3⟩
    obtain ⟨b', e1, e2, e3⟩ := wrap_honest f hf h3
    exact ⟨b', by simp only [h1, bind, Except.bind]; exact e1, e2.trans h2, e3⟩
  have hdf : ∀ {n : ℕ}, 0 < n → (0 : ℝ) < n := fun h => by exact_mod_cast h
  have hst : ∀ {dx dy : ℕ} (S : Matrix (Fin (dx + dy)) (Fin (dx + dy)) ℝ) {ν : ℝ}, 0 < ν →
      IsProbabilityMeasure ((studentLaw 0 S ν).map (halves dx dy)) := fun S ν hν => splitStudent_prob 0 S hν
  induction c with
  | additive ε =>
    obtain ⟨s, h1, h2⟩ := additiveUniform_correct R κ hR (val ε) hc
    refine ⟨.jax s, by simp [build, h1, Except.map], ?_, ?_⟩
    · have : s.mi = additiveMI (val ε) := by
        have h3 := h1
        unfold additiveUniform at h3
        rw [if_neg (not_le.2 hc)] at h3
        rw [← Except.ok.inj h3]
      show s.mi = _
      rw [this]
      simp only [additiveMI, numberOf]
      split_ifs with h4 h5 h5
      · rw [div_eq_div_iff (ne_of_gt hc) (by have : 0 < val ε := hc; positivity)]; ring
      · norm_num at h4 h5; linarith
      · norm_num at h4 h5; linarith
      · rfl
    · rw [additive_law] at h2
      exact honest_of_correct h2
  | binormal ρ =>
    obtain ⟨s, h1, h2⟩ := bivariateNormal_correct R κ hR (val ρ) 1 1 0 0 one_pos one_pos hc.1 hc.2
    obtain ⟨s', h3, h4⟩ := bivariateNormal_eq R (val ρ) 1 1 0 0 one_pos one_pos hc.1 hc.2
    refine ⟨.jax s, by simp [build, h1, Except.map], ?_, ?_⟩
    · rw [Except.ok.inj (h1.symm.trans h4)]
      show -0.5 * Real.log (1 - val ρ ^ 2) = -(1 / 2 * Real.log (1 - val ρ ^ 2))
      norm_num
    · have e : (![0, 0] : Fin 2 → ℝ) = 0 := by ext i; fin_cases i <;> rfl
      rw [e] at h2
      norm_num only [one_pow, mul_one] at h2
      exact honest_of_correct h2
  | dense dx dy off =>
    obtain ⟨h1, h2, h3, h4⟩ := hc
    obtain ⟨s, e1, e2, e3⟩ := taskMultinormalDense_correct R κ hR dx dy h1 h2 (val off) h3 h4
    exact ⟨.jax s, by simp [build, e1, Except.map], e3, honest_of_correct e2⟩
  | sparse dx dy n s =>
    obtain ⟨h1, h2, h3, h4⟩ := hc
    obtain ⟨t, e1, e2, e3⟩ := taskMultinormalSparse_correct R κ hR dx dy n h1 h2 h3 h4 (val s)
    exact ⟨.jax t, by simp [build, e1, Except.map], e3, honest_of_correct e2⟩
  | studentIdentity dx dy df =>
    obtain ⟨h1, h2, h3⟩ := hc
    obtain ⟨t, e1, e2, -, -, e3⟩ := taskStudentIdentity_correct R N μ hN dx dy h1 h2 df (hdf h3)
    refine ⟨.np t.sampler, by simp [build, e1, Except.map], e3, honest_of_student e2 (hst _ (hdf h3)) h1 h2 fun n z hz => ?_⟩
    unfold taskStudentIdentity at e1
    rw [if_neg (by omega)] at e1
    exact student_seeds e1 n z hz
  | studentDense dx dy df off =>
    obtain ⟨h1, h2, h3, h4, h5⟩ := hc
    obtain ⟨t, e1, e2, e3⟩ := taskStudentDense_correct R N μ hN dx dy h1 h2 (val off) h3 h4 df (hdf h5)
    refine ⟨.np t.sampler, by simp [build, e1, Except.map], e3, honest_of_student e2 (hst _ (hdf h5)) h1 h2 fun n z hz => ?_⟩
    unfold taskStudentDense at e1
    simp only [bind, Except.bind] at e1
    split at e1
    · simp at e1
    · exact student_seeds e1 n z hz
  | studentSparse dx dy df n s =>
    obtain ⟨h1, h2, h3, h4, h5⟩ := hc
    obtain ⟨t, e1, e2, e3⟩ := taskStudentSparse_correct R N μ hN dx dy n h1 h2 h3 h4 (val s) df (hdf h5)
    refine ⟨.np t.sampler, by simp [build, e1, Except.map], e3, honest_of_student e2 (hst _ (hdf h5)) h1 h2 fun n z hz => ?_⟩
    unfold taskStudentSparse at e1
    simp only [bind, Except.bind] at e1
    split at e1
    · simp at e1
    · split at e1
      · simp at e1
      · exact student_seeds e1 n z hz
  | asinh t ih =>
    exact step (fun s => asinhTask s) (fun κ init ok sizes s h => honest_each h _ _ Real.arsinh Real.arsinh
      Real.continuous_arsinh.measurable Real.continuous_arsinh.measurable Real.arsinh_injective Real.arsinh_injective
      (acts_map _ Real.arsinh) (acts_map _ Real.arsinh)) (ih hc)
  | halfCube t ih =>
    exact step (fun s => halfCubeTask s) (fun κ init ok sizes s h => honest_each h _ _ Samplers.halfCube Samplers.halfCube
      (by unfold Samplers.halfCube; fun_prop) (by unfold Samplers.halfCube; fun_prop) halfCube_injective.2.2
      halfCube_injective.2.2 (acts_map _ Samplers.halfCube) (acts_map _ Samplers.halfCube)) (ih hc)
  | normalCdf t ih =>
    refine step (fun s => normalCdfTask s) (fun κ init ok sizes s h => ?_) (ih hc)
    have := honest_each h (.row (List.map Samplers.normalCdf)) (.row (List.map Samplers.normalCdf)) Samplers.normalCdf
      Samplers.normalCdf continuous_normalCdf.measurable continuous_normalCdf.measurable normalCdf_strictMono.injective
      normalCdf_strictMono.injective (acts_map _ Samplers.normalCdf) (acts_map _ Samplers.normalCdf)
    rw [show Samplers.normalCdf = cdf (gaussianReal 0 1) from funext normalCdf_eq_cdf] at this
    unfold normalCdfTask
    rw [show Samplers.normalCdf = cdf (gaussianReal 0 1) from funext normalCdf_eq_cdf]
    exact this
  | wiggly t ih =>
    refine step (fun s => wigglyTask s) (fun κ init ok sizes s h => ?_) (ih hc)
    have := honest_each h (.row (List.map wigglyX)) (.row (List.map wigglyY)) wigglyX wigglyY continuous_wigglyX.measurable
      continuous_wigglyY.measurable wigglyX_strictMono.injective wigglyY_strictMono.injective (acts_map _ wigglyX)
      (acts_map _ wigglyY)
    have ex : wigglyX = fun x => x + 2 / 5 * Real.sin x + 1 / 5 * Real.sin (17 / 10 * x + 1)
        + 3 / 100 * Real.sin (33 / 10 * x - 5 / 2) := by
      funext x; norm_num [wigglyX]
    have ey : wigglyY = fun y => y - 2 / 5 * Real.sin (2 / 5 * y) + 17 / 100 * Real.sin (13 / 10 * y + 7 / 2)
        + 1 / 50 * Real.sin (43 / 10 * y - 5 / 2) := by
      funext x; norm_num [wigglyY]
    obtain ⟨s', e1, e2, e3⟩ := this
    rw [ex, ey] at e3
    exact ⟨s', e1, e2, e3⟩
  | rotate t ih =>
    exact step (fun s => rotateTask s) (fun κ init ok sizes s h => honest_rotate h hc.2.1 hc.2.2) (ih hc.1)
  | swissroll t ih =>
    exact step (fun s => swissrollTask s) (fun κ init ok sizes s h => honest_swissroll h hc.2.1 hc.2.2) (ih hc.1)
  | power t α ih =>
    exact step (fun s => powerTask s (val α)) (fun κ init ok sizes s h => honest_each h _ _ (signedPow (val α))
      (signedPow (val α)) (measurable_signedPow _) (measurable_signedPow _) (signedPow_injective hc.2)
      (signedPow_injective hc.2) (acts_map _ (signedPow (val α))) (acts_map _ (signedPow (val α)))) (ih hc.1)
  | spiral t speed normalize ih =>
    exact step (fun s => spiralTask s (val speed) normalize)
      (fun κ init ok sizes s h => honest_spiral h hc.2.1 hc.2.2 _ _) (ih hc.1)
  | bimodal | lvm | mixX | mixAI | galaxy | waves | concentric | inliers | rescale | uniformise | gaussianise => exact hc.elim

/-- A tower of four transforms over a Student-t task. -/
example : ∃ b, build tree table (fun x : ℝ => x) (fun _ => .error .valueError)
      (.power (.spiral (.rotate (.wiggly (.studentDense 3 4 5 0.25))) 2 false) 3) = .ok b ∧
    HonestTask tree treeLaw table tableLaw
      (lawOf (fun x : ℝ => x) (.power (.spiral (.rotate (.wiggly (.studentDense 3 4 5 0.25))) 2 false) 3)) b := by
  obtain ⟨b, h1, -, h2⟩ := build_honest tree_ideal table_ideal (fun x : ℝ => x) (fun _ => .error .valueError)
    (.power (.spiral (.rotate (.wiggly (.studentDense 3 4 5 0.25))) 2 false) 3)
    (by simp only [Valid, lawOf, each, rotated, whirled]; norm_num)
  exact ⟨b, h1, h2⟩

/-- The normal distribution function has values in the unit interval, so that the Swiss roll can be applied to it. -/
theorem valid_swissroll {F : Type} (val : F → ℝ) (t : Call F) (ht : Valid val t) (h1 : (lawOf val t).dx = 1) :
    Valid val (.swissroll (.normalCdf t)) := by
  have hm : Measurable (cdf (gaussianReal 0 1)) := (cdf (gaussianReal 0 1)).mono.measurable
  have hm' : ∀ d : ℕ, Measurable fun (v : Fin d → ℝ) i => cdf (gaussianReal 0 1) (v i) := fun d =>
    measurable_pi_lambda _ fun i => hm.comp (measurable_pi_apply i)
  refine ⟨ht, h1, ?_⟩
  refine ae_all_iff.2 fun i => ?_
  refine (ae_map_iff ((hm' _).prodMap (hm' _)).aemeasurable
    (((measurable_pi_apply i).comp measurable_fst) measurableSet_Icc)).2 (ae_of_all _ fun z => ?_)
  exact ⟨cdf_nonneg _ _, cdf_le_one _ _⟩

theorem entries_calls : entries.map Entry.call = registry := rfl

theorem names_nodup : (entries.map Entry.name).Nodup := by
  decide +kernel

theorem foldl_insert (l d : List (TaskObj Key State)) (h : ((d ++ l).map TaskObj.id).Nodup) :
    l.foldl insertObj (d.map fun t => (t.id, t)) = (d ++ l).map fun t => (t.id, t) := by
  induction l generalizing d with
  | nil => simp
  | cons t l ih =>
    have hn : (d.map fun t => (t.id, t)).any (fun e => e.1 = t.id) = false := by
      rw [List.any_eq_false]
      rintro e he
      obtain ⟨t', h1, rfl⟩ := List.mem_map.1 he
      simp only [decide_eq_true_eq]
      intro e
      rw [List.map_append, List.nodup_append] at h
      exact h.2.2 _ (List.mem_map_of_mem h1) _ (List.mem_map_of_mem (List.mem_cons_self)) e
    have := ih (d ++ [t]) (by simpa using h)
    rw [List.foldl_cons, insertObj, hn]
    simp only [List.map_append, List.map_cons, List.map_nil, List.append_assoc, List.cons_append, List.nil_append] at this ⊢
    exact this

theorem mapM_forall2 {A B E : Type} {Q : A → B → Prop} {f : A → Except E B} (l : List A)
    (h : ∀ a ∈ l, ∃ b, f a = .ok b ∧ Q a b) : ∃ m, l.mapM f = .ok m ∧ List.Forall₂ Q l m := by
  induction l with
  | nil => exact ⟨[], rfl, .nil⟩
  | cons a l ih =>
    obtain ⟨b, h1, h2⟩ := h a List.mem_cons_self
    obtain ⟨m, h3, h4⟩ := ih fun a ha => h a (List.mem_cons_of_mem _ ha)
    refine ⟨b :: m, ?_, .cons h2 h4⟩
    rw [List.mapM_cons, h1, h3]
    rfl

/-- All tasks of the benchmark but one are among those treated above. -/
theorem entries_valid : ∀ e ∈ entries, e.call = .bimodal .f0_75 ∨ Valid regVal e.call := by
  have hb : Valid regVal (.binormal .f0_75) := by norm_num [Valid, regVal]
  have hs := valid_swissroll regVal (.binormal .f0_75) hb rfl
  have hp : ∀ d, 2 ≤ d → Valid regVal (twoPair d d) := fun d hd => ⟨by omega, by omega, hd, hd⟩
  have hd : ∀ d, 0 < d → Valid regVal (.dense d d .f0_5) := fun d hd =>
    ⟨hd, hd, by
      have : (1 : ℝ) ≤ d := by exact_mod_cast hd
      simp only [regVal]; push_cast; nlinarith, by norm_num [regVal]⟩
  have hst : ∀ d f, 0 < d → 0 < f → Valid regVal (.studentIdentity d d f) := fun d f h1 h2 => ⟨h1, h1, h2⟩
  simp only [entries, oneDim, embeddings, multinormal, students, transformedTasks, List.forall_mem_append,
    List.forall_mem_cons, List.not_mem_nil, false_imp_iff, implies_true, and_true]
  refine ⟨⟨⟨⟨⟨.inr hb, .inr hb, .inr ?_, .inr ?_, .inl rfl, .inr hb, .inr hb, .inr (hst _ _ ?_ ?_), .inr (hst _ _ ?_ ?_)⟩, .inr hs⟩,
    .inr (hd _ ?_), .inr (hd _ ?_), .inr (hd _ ?_), .inr (hd _ ?_), .inr (hd _ ?_), .inr (hp _ ?_), .inr (hp _ ?_),
    .inr (hp _ ?_), .inr (hp _ ?_)⟩, .inr (hst _ _ ?_ ?_), .inr (hst _ _ ?_ ?_), .inr (hst _ _ ?_ ?_), .inr (hst _ _ ?_ ?_),
    .inr (hst _ _ ?_ ?_), .inr (hst _ _ ?_ ?_)⟩, .inr (hp _ ?_), .inr (hp _ ?_), .inr (hp _ ?_), .inr (hp _ ?_), .inr (hp _ ?_),
    .inr (hp _ ?_), .inr ⟨hp _ ?_, ?_, ?_⟩, .inr ⟨hp _ ?_, ?_, ?_⟩, .inr ⟨hp _ ?_, ?_, ?_⟩, .inr ⟨hp _ ?_, ?_, ?_⟩,
    .inr ⟨hp _ ?_, ?_, ?_⟩, .inr ⟨hp _ ?_, ?_, ?_⟩, .inr (hst _ _ ?_ ?_), .inr (hst _ _ ?_ ?_), .inr (hst _ _ ?_ ?_)⟩ <;>
    first
      | decide
      | (show (0 : ℝ) < _; norm_num [regVal])
      | (show _ ≤ _; norm_num [lawOf, twoPair, pair2, each, normalCdf])

/-- The law, dimensions and number of a task: those of the call, and for the bimodal task those of its advertisement. -/
noncomputable def factOf (e : Entry) : ℕ × ℕ × ℝ :=
  if e.call = .bimodal .f0_75 then (1, 1, -(1 / 2) * Real.log (1 - 0.75 ^ 2))
  else ((lawOf regVal e.call).dx, (lawOf regVal e.call).dy, numberOf regVal e.call)

theorem entries_facts : entries.map factOf = facts := by
  have hb : numberOf regVal (.binormal .f0_75) = 1 / 2 * Real.log (16 / 7) := by
    simp only [numberOf, regVal]
    rw [show (1 - 0.75 ^ 2 : ℝ) = (16 / 7)⁻¹ by norm_num, Real.log_inv]
    ring
  have hbi : -(1 / 2) * Real.log (1 - 0.75 ^ 2) = 1 / 2 * Real.log (16 / 7) := by
    rw [show (1 - 0.75 ^ 2 : ℝ) = (16 / 7)⁻¹ by norm_num, Real.log_inv]
    ring
  have ha : numberOf regVal (.additive .f0_1) = 1 / 10 + Real.log 5 := by
    rw [numberOf, if_neg (by norm_num [regVal])]
    simp only [regVal]
    rw [show (2 * 0.1 : ℝ) = 5⁻¹ by norm_num, Real.log_inv]
    norm_num
  have ha' : numberOf regVal (.additive .f0_75) = 1 / 3 := by
    rw [numberOf, if_pos (by norm_num [regVal])]
    norm_num [regVal]
  have hp : ∀ d, numberOf regVal (twoPair d d) = Real.log (25 / 9) := fun d => by
    simp only [numberOf, twoPair, regVal]
    rw [show (1 - (2 ^ 2 / (1 + 2 ^ 2)) ^ 2 : ℝ) = (25 / 9)⁻¹ by norm_num, Real.log_inv]
    norm_num
  have hd : ∀ d : ℕ, 0 < d → numberOf regVal (.dense d d .f0_5) = 1 / 2 * Real.log ((d + 1) ^ 2 / (2 * d + 1)) := fun d h => by
    simp only [numberOf, regVal]
    congr 2
    have : (0 : ℝ) < d := by exact_mod_cast h
    rw [div_eq_div_iff (by norm_num; linarith) (by positivity)]
    ring
  have hs : ∀ d f : ℕ, numberOf regVal (.studentIdentity d d f) = studentNumber d f := fun d f => rfl
  simp only [entries, oneDim, embeddings, multinormal, students, transformedTasks, List.map_append, List.map_cons, List.map_nil,
    factOf, bivariate, normalCdf, additive, bimodal, wiggly, halfCube, studentT, asinh, swissroll, dense, pair2, spiralise,
    reduceCtorEq, if_true, if_false, List.cons_append, List.nil_append, facts]
  have t1 : ∀ t, numberOf regVal (.asinh t) = numberOf regVal t := fun _ => rfl
  have t2 : ∀ t, numberOf regVal (.halfCube t) = numberOf regVal t := fun _ => rfl
  have t3 : ∀ t, numberOf regVal (.normalCdf t) = numberOf regVal t := fun _ => rfl
  have t4 : ∀ t, numberOf regVal (.wiggly t) = numberOf regVal t := fun _ => rfl
  have t5 : ∀ t, numberOf regVal (.swissroll t) = numberOf regVal t := fun _ => rfl
  have t6 : ∀ t a b, numberOf regVal (.spiral t a b) = numberOf regVal t := fun _ _ _ => rfl
  have hne : ∀ d, twoPair d d ≠ .bimodal .f0_75 := fun d => by simp [twoPair]
  simp only [t1, t2, t3, t4, t5, t6, hb, hbi, ha, ha', hp, hs, hne, if_false, hd 2 (by norm_num), hd 3 (by norm_num),
    hd 5 (by norm_num), hd 25 (by norm_num), hd 50 (by norm_num), Nat.cast_ofNat, Nat.cast_one, studentNumber_1_1,
    studentNumber_2_1, studentNumber_2_2, studentNumber_3_2, studentNumber_3_3, studentNumber_5_2, studentNumber_5_3]
  norm_num [lawOf, each, rolled, whirled, twoPair]

/-- An honest task has the dimensions of its law. -/
theorem honest_dims {p : Part} {b : Built Key State} (h : HonestTask R κ N μ p b) : b.dimX = .ok p.dx ∧ b.dimY = .ok p.dy := by
  cases b with
  | jax s => exact ⟨Honest.dimX h, Honest.dimY h⟩
  | np s => exact ⟨Honest.dimX h, Honest.dimY h⟩

/-- What is claimed of a task. -/
def Described (R : JaxRandom Key) (κ : Measure Key) (N : NpRandom State) (μ : Measure State) (e : Entry) (t : TaskObj Key State) :
    Prop :=
  t.id = e.call.id regFormat ∧ t.name = e.name ∧
    t.sampler.dimX = .ok (factOf e).1 ∧ t.sampler.dimY = .ok (factOf e).2.1 ∧ t.sampler.mi = (factOf e).2.2 ∧
    if e.call = .bimodal .f0_75 then Overstated R κ t.sampler else HonestTask R κ N μ (lawOf regVal e.call) t.sampler

theorem entry_described (hR : IdealRandom R κ) (hN : IdealStudent N μ) (other : Call RegF → Except Err (Built Key State))
    (e : Entry) (he : e ∈ entries) : ∃ t, e.task R N other = .ok t ∧ Described R κ N μ e t := by
  have hκ := hR.prob
  by_cases hb : e.call = .bimodal .f0_75
  · obtain ⟨s, Q, h1, h2, h3, h4, h5, -, -⟩ := bimodalTask_overstates R κ hR 0.75 (by norm_num) (by norm_num) (by norm_num)
    obtain ⟨s', -, h1', -, hw, hk, -⟩ := bimodalTask_correct_partial R κ hR 0.75 (by norm_num) (by norm_num)
    obtain rfl : s = s' := Except.ok.inj (h1.symm.trans h1')
    refine ⟨⟨_, _, .jax s⟩, ?_, rfl, rfl, ?_⟩
    · unfold Entry.task
      have : build R N regVal other e.call = .ok (.jax s) := by
        rw [hb]
        show (bimodalTask R (regVal .f0_75)).map (Built.jax (State := State)) = _
        rw [show regVal .f0_75 = 0.75 from rfl, h1]
        rfl
      rw [this]
      rfl
    · simp only [factOf, if_pos hb]
      exact ⟨hw.2.2.1, hw.2.2.2.1, h2, s, rfl, hk, Q, h3, h4, h5⟩
  · obtain ⟨b, h1, h2, h3⟩ := build_honest hR hN regVal other e.call ((entries_valid e he).resolve_left hb)
    refine ⟨⟨_, _, b⟩, ?_, rfl, rfl, ?_⟩
    · unfold Entry.task
      rw [h1]
      rfl
    · simp only [factOf, if_neg hb]
      exact ⟨(honest_dims h3).1, (honest_dims h3).2, h2, h3⟩

theorem forall2_map {A B C : Type} {f : A → C} {g : B → C} {l : List A} {m : List B}
    (h : List.Forall₂ (fun a b => g b = f a) l m) : m.map g = l.map f := by
  induction h with
  | nil => rfl
  | cons h1 _ ih => rw [List.map_cons, List.map_cons, h1, ih]

/-- **C90** `BENCHMARK_TASKS` can be made.  It has forty tasks, each under its identifier, with pairwise different identifiers and
pairwise different names, and with the dimensions and the numbers of the table `facts`.  All of them but the bimodal task are honest:
they sample independent draws of the law described for them, and the advertised number is the mutual information of that law. -/
theorem benchmark_tasks_partial (hR : IdealRandom R κ) (hN : IdealStudent N μ) (other : Call RegF → Except Err (Built Key State)) :
    ∃ tasks : List (TaskObj Key State), benchmarkTasks R N other = .ok (tasks.map fun t => (t.id, t)) ∧ tasks.length = 40 ∧
      (tasks.map TaskObj.id).Nodup ∧ (tasks.map TaskObj.name).Nodup ∧
      (tasks.map fun t => (t.sampler.dimX, t.sampler.dimY, t.sampler.mi))
        = facts.map (fun f => (.ok f.1, .ok f.2.1, f.2.2)) ∧
      List.Forall₂ (fun e t => t.id = e.call.id regFormat ∧ t.name = e.name ∧ (e.call ≠ .bimodal .f0_75 →
        HonestTask R κ N μ (lawOf regVal e.call) t.sampler)) entries tasks := by
  obtain ⟨tasks, h1, h2⟩ := mapM_forall2 (Q := Described R κ N μ) entries (entry_described hR hN other)
  have hid : tasks.map TaskObj.id = registry.map (Call.id regFormat) := by
    rw [← entries_calls, List.map_map]
    exact forall2_map (h2.imp fun _ _ h => h.1)
  have hnd : (tasks.map TaskObj.id).Nodup := hid ▸ registry_ids_nodup
  refine ⟨tasks, ?_, ?_, hnd, ?_, ?_, h2.imp fun e t h => ⟨h.1, h.2.1, fun hb => ?_⟩⟩
  · unfold benchmarkTasks
    rw [h1]
    show Except.ok _ = Except.ok _
    congr 1
    simpa using foldl_insert tasks [] (by simpa using hnd)
  · rw [← h2.length_eq]; rfl
  · rw [forall2_map (f := Entry.name) (h2.imp fun _ _ h => h.2.1)]
    exact names_nodup
  · rw [← entries_facts, List.map_map]
    exact forall2_map (h2.imp fun e t h => by
      show (_, _, _) = (_, _, _)
      rw [h.2.2.1, h.2.2.2.1, h.2.2.2.2.1])
  · have := h.2.2.2.2.2
    rwa [if_neg hb] at this

/-- No law makes the bimodal task honest. -/
theorem overstated_not_honest {b : Built Key State} (h : Overstated R κ b) (hd : b.dimX = .ok 1 ∧ b.dimY = .ok 1) (p : Part) :
    ¬ HonestTask R κ N μ p b := by
  obtain ⟨s, rfl, -, Q, hQ, hl, hlt⟩ := h
  intro hh
  have hh : Honest κ R.prngKey Set.univ Set.univ s p := hh
  obtain ⟨dx, dy, P⟩ := p
  obtain rfl : dx = 1 := Except.ok.inj (hh.dimX.symm.trans hd.1)
  obtain rfl : dy = 1 := Except.ok.inj (hh.dimY.symm.trans hd.2)
  have hP : IsProbabilityMeasure P := hh.prob
  have hu : P = Q := hasLaw_unique (fun n => hh.law n trivial) hl
  have hmi : mutualInfo P = ENNReal.ofReal s.mi := hh.mi
  rw [← hmi, hu] at hlt
  exact lt_irrefl _ hlt

/-- **C90**, the exception: the task `1v1-bimodal-0.75` advertises more than the mutual information of the law it samples from, and
there is no law for which it would be honest. -/
theorem bimodal_overstates (hR : IdealRandom R κ) (hN : IdealStudent N μ) (other : Call RegF → Except Err (Built Key State)) :
    ∃ tasks, benchmarkTasks R N other = .ok tasks ∧ ∃ t, tasks[4]? = some (Call.id regFormat (.bimodal .f0_75), t) ∧
      Overstated R κ t.sampler ∧ ∀ p, ¬ HonestTask R κ N μ p t.sampler := by
  obtain ⟨tasks, h1, h2⟩ := mapM_forall2 (Q := Described R κ N μ) entries (entry_described hR hN other)
  obtain ⟨tasks', h3, h4, -⟩ := benchmark_tasks_partial (μ := μ) hR hN other
  have e : tasks' = tasks := by
    have hid : tasks.map TaskObj.id = registry.map (Call.id regFormat) := by
      rw [← entries_calls, List.map_map]
      exact forall2_map (h2.imp fun _ _ h => h.1)
    have := foldl_insert tasks [] (by simpa [hid] using registry_ids_nodup)
    unfold benchmarkTasks at h3
    rw [h1] at h3
    have h5 : tasks.foldl insertObj [] = tasks'.map fun t => (t.id, t) := Except.ok.inj h3
    rw [List.map_nil, List.nil_append] at this
    rw [this] at h5
    have := congrArg (List.map Prod.snd) h5
    rw [List.map_map, List.map_map] at this
    simpa [Function.comp_def] using this.symm
  subst e
  refine ⟨_, h3, ?_⟩
  have hl : 4 < tasks'.length := by omega
  have hd := List.Forall₂.get h2 (i := 4) (by decide) hl
  have hc : (entries.get ⟨4, by decide⟩).call = .bimodal .f0_75 := rfl
  have ho := hd.2.2.2.2.2
  rw [if_pos hc] at ho
  have hf : factOf (entries.get ⟨4, by decide⟩) = (1, 1, -(1 / 2) * Real.log (1 - 0.75 ^ 2)) := by
    rw [factOf, if_pos hc]
  refine ⟨tasks'.get ⟨4, hl⟩, ?_, ho, overstated_not_honest ho ⟨?_, ?_⟩⟩
  · rw [List.getElem?_map, List.getElem?_eq_getElem hl]
    have := hd.1
    rw [hc] at this
    show some (_, _) = some (_, _)
    rw [← this]
    rfl
  · rw [hd.2.2.1, hf]
  · rw [hd.2.2.2.1, hf]

/-- The assumptions on the generators can be met. -/
example : ∃ tasks : List (TaskObj _ _), benchmarkTasks tree table (fun _ => .error .valueError) = .ok (tasks.map fun t => (t.id, t)) ∧
    tasks.length = 40 := by
  obtain ⟨tasks, h1, h2, -⟩ := benchmark_tasks_partial tree_ideal table_ideal (fun _ => .error .valueError)
  exact ⟨tasks, h1, h2⟩

/-- **C90** A sample drawn from an honest task with a seed is the sample drawn with the state made from the seed, and has the
advertised shapes. -/
theorem honest_sample {p : Part} {b : Built Key State} (h : HonestTask R κ N μ p b) (n : ℕ) (hn : n ≠ 1) (z : ℤ) (hz : 0 ≤ z)
    (hz' : z < 2 ^ 32) :
    ∃ x y, b.sample n z = .ok (x, y) ∧ x.length = n ∧ y.length = n ∧ (∀ r ∈ x, r.length = p.dx) ∧ ∀ r ∈ y, r.length = p.dy := by
  have key : ∀ {K : Type} [MeasurableSpace K] (κ : Measure K) (init : ℤ → K) (ok : Set ℤ) (sizes : Set ℕ) (s : Sampler K),
      Honest κ init ok sizes s p → z ∈ ok → n ∈ sizes →
      ∃ x y, s.sample n (.seed z) = .ok (x, y) ∧ x.length = n ∧ y.length = n ∧ (∀ r ∈ x, r.length = p.dx) ∧
        ∀ r ∈ y, r.length = p.dy := by
    intro K _ κ init ok sizes s h hz hn
    obtain ⟨draw, -, e, -⟩ := h.law n hn
    refine ⟨_, _, (h.seeds n z hz).trans (e _), by simp [rowsOf], by simp [rowsOf], ?_, ?_⟩ <;>
    · intro r hr
      simp only [rowsOf, List.mem_ofFn] at hr
      obtain ⟨i, rfl⟩ := hr
      simp
  cases b with
  | jax s => exact key _ _ _ _ s h trivial trivial
  | np s => exact key _ _ _ _ s h ⟨hz, hz'⟩ hn

/-- **C90** The names of the constructors tell the dimensions, which may differ from each other. -/
theorem entry_dims (dx dy df : ℕ) : ∀ e ∈ [dense dx dy, pair2 dx dy, studentT dx dy df],
    (lawOf regVal e.call).dx = dx ∧ (lawOf regVal e.call).dy = dy ∧ times dx dy <:+: e.name := by
  intro e he
  simp only [List.mem_cons, List.not_mem_nil, or_false] at he
  rcases he with rfl | rfl | rfl
  · exact ⟨rfl, rfl, _, _, rfl⟩
  · exact ⟨rfl, rfl, _, _, rfl⟩
  · exact ⟨rfl, rfl, ['S', 't', 'u', 'd', 'e', 'n', 't', '-', 't', ' '], _, by simp [studentT]; rfl⟩

/-- Five variables on the one side, two on the other. -/
example : times 5 2 <:+: (dense 5 2).name ∧ (lawOf regVal (dense 5 2).call).dx ≠ (lawOf regVal (dense 5 2).call).dy := by
  obtain ⟨h1, h2, h3⟩ := entry_dims 5 2 1 (dense 5 2) (by simp)
  exact ⟨h3, by rw [h1, h2]; norm_num⟩

end BMI.Registry
