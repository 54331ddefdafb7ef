import Verif.Lemmas.KdeMoments

/-! C107: the kernel density estimator on the tasks of the benchmark. -/

namespace BMI.Kde

open MeasureTheory ProbabilityTheory Filter Topology BMI.Kde.Spec BMI.Consistency BMI.Samplers BMI.Student BMI.Registry BMI.TaskIds BMI.Search Matrix

variable {Key State : Type} [MeasurableSpace Key] [MeasurableSpace State] {R : JaxRandom Key} {κ : Measure Key}
  {N : NpRandom State} {μ : Measure State}

theorem momentsBelow_ne_zero {F : Type} (val : F → ℝ) (c : Call F) (hc : Valid val c) : momentsBelow val c ≠ 0 := by
  induction c with
  | studentIdentity dx dy df => simpa [momentsBelow] using (hc.2.2).ne'
  | studentDense dx dy df off => simpa [momentsBelow] using (hc.2.2.2.2).ne'
  | studentSparse dx dy df n s => simpa [momentsBelow] using (hc.2.2.2.2).ne'
  | halfCube t ih => exact ENNReal.div_ne_zero.2 ⟨ih hc, ENNReal.ofReal_ne_top⟩
  | power t α ih => exact ENNReal.div_ne_zero.2 ⟨ih hc.1, ENNReal.ofReal_ne_top⟩
  | wiggly t ih => exact ih hc
  | rotate t ih => exact ih hc.1
  | spiral t speed normalize ih => exact ih hc.1
  | _ => simp [momentsBelow]

/-- The laws of all these tasks have densities, and moments. -/
theorem task_sides {F : Type} (val : F → ℝ) (c : Call F) (hc : Valid val c) (hs : Smooth val c) : Sides (momentsBelow val c) (lawOf val c) := by
  induction c with
  | additive ε =>
    have := sides_additive (e := val ε) hc
    rw [additive_law] at this
    exact this
  | binormal ρ =>
    have hpos := bivariateCov_posDef (val ρ) 1 1 one_pos one_pos hc.1 hc.2
    have hb : (bivariateCov (val ρ) 1 1 : Matrix (Fin 2) (Fin 2) ℝ) = !![1, val ρ; val ρ, 1] := by
      simp [bivariateCov]
    have e : (normalLaw 0 !![1, val ρ; val ρ, 1]).map (fun z => ((fun _ => z 0, fun _ => z 1) : (Fin 1 → ℝ) × (Fin 1 → ℝ)))
        = splitNormal 1 1 0 !![1, val ρ; val ρ, 1] := by
      unfold splitNormal
      congr 1
      funext z
      refine Prod.ext (funext fun i => ?_) (funext fun i => ?_) <;> (rw [Subsingleton.elim i 0]; rfl)
    rw [hb] at hpos
    have := sides_normal (dx := 1) (dy := 1) hpos
    unfold lawOf
    rw [e]
    exact this
  | dense dx dy off =>
    obtain ⟨h1, h2, h3, h4⟩ := hc
    exact sides_normal ((equicorrelation_posDef_iff (by omega) _).2 ⟨by exact_mod_cast h3, h4⟩)
  | sparse dx dy n s =>
    obtain ⟨h1, h2, h3, h4⟩ := hc
    exact sides_normal (pairs_posDef h3 (strength_lt _))
  | studentIdentity dx dy df => exact sides_student PosDef.one hc.2.2
  | studentDense dx dy df off =>
    obtain ⟨h1, h2, h3, h4, h5⟩ := hc
    exact sides_student ((equicorrelation_posDef_iff (by omega) _).2 ⟨by exact_mod_cast h3, h4⟩) h5
  | studentSparse dx dy df n s =>
    obtain ⟨h1, h2, h3, h4, h5⟩ := hc
    exact sides_student (pairs_posDef h3 (strength_lt _)) h5
  | asinh t ih =>
    have h := ih hc hs
    have hr := momentsBelow_ne_zero val t hc
    exact sides_map (r := momentsBelow val t) (measurable_each Real.continuous_arsinh.measurable) (measurable_each Real.continuous_arsinh.measurable)
      (side_asinh h.1 hr) (side_asinh h.2 hr)
  | halfCube t ih =>
    have h := ih hc hs
    have e : (fun v : ℝ => v * √|v|) = signedPow (3 / 2) := by
      funext v
      have := halfCube_eq v
      rw [show (1.5 : ℝ) = 3 / 2 by norm_num] at this
      exact this
    show Sides _ (each (fun v => v * √|v|) (fun v => v * √|v|) (lawOf val t))
    rw [e]
    exact sides_map (r := momentsBelow val t) (measurable_each (measurable_signedPow _)) (measurable_each (measurable_signedPow _))
      (side_power h.1 (by norm_num)) (side_power h.2 (by norm_num))
  | normalCdf t ih =>
    have h := ih hc hs.1
    show Sides _ (each (cdf (gaussianReal 0 1)) (cdf (gaussianReal 0 1)) (lawOf val t))
    rw [show cdf (gaussianReal 0 1) = Samplers.normalCdf from (funext normalCdf_eq_cdf).symm]
    exact sides_map (r := momentsBelow val t) (measurable_each continuous_normalCdf.measurable) (measurable_each continuous_normalCdf.measurable)
      (side_normalCdf h.1 hs.2) (side_normalCdf h.2 hs.2)
  | wiggly t ih =>
    have h := ih hc hs
    have ex : wigglyX = fun x => x + 2 / 5 * Real.sin x + 1 / 5 * Real.sin (17 / 10 * x + 1)
        + 3 / 100 * Real.sin (33 / 10 * x - 5 / 2) := by
      funext x; norm_num [wigglyX]
    have ey : wigglyY = fun y => y - 2 / 5 * Real.sin (2 / 5 * y) + 17 / 100 * Real.sin (13 / 10 * y + 7 / 2)
        + 1 / 50 * Real.sin (43 / 10 * y - 5 / 2) := by
      funext x; norm_num [wigglyY]
    unfold lawOf
    rw [← ex, ← ey]
    exact sides_map (r := momentsBelow val t) (measurable_each continuous_wigglyX.measurable) (measurable_each continuous_wigglyY.measurable)
      (side_wigglyX h.1) (side_wigglyY h.2)
  | rotate t ih =>
    have h := ih hc.1 hs
    have o1 : (NormedSpace.exp ((2 : ℝ) • gen (lawOf val t).dx 0 1 - gen (lawOf val t).dx 1 2 - gen (lawOf val t).dx 0 2))ᵀ
        * NormedSpace.exp ((2 : ℝ) • gen (lawOf val t).dx 0 1 - gen (lawOf val t).dx 1 2 - gen (lawOf val t).dx 0 2) = 1 := by
      refine exp_skew_orthogonal ?_
      rw [Matrix.transpose_sub, Matrix.transpose_sub, Matrix.transpose_smul, gen_skew _ (by norm_num), gen_skew _ (by norm_num), gen_skew _ (by norm_num)]
      simp only [smul_neg]
      abel
    have o2 : (NormedSpace.exp (gen (lawOf val t).dy 0 1 + (2 : ℝ) • gen (lawOf val t).dy 1 2))ᵀ
        * NormedSpace.exp (gen (lawOf val t).dy 0 1 + (2 : ℝ) • gen (lawOf val t).dy 1 2) = 1 := by
      refine exp_skew_orthogonal ?_
      rw [Matrix.transpose_add, Matrix.transpose_smul, gen_skew _ (by norm_num), gen_skew _ (by norm_num)]
      simp only [smul_neg]
      abel
    exact sides_map (r := momentsBelow val t) (vecMul_preserving o1).measurable (vecMul_preserving o2).measurable (side_vecMul h.1 o1) (side_vecMul h.2 o2)
  | swissroll t ih => exact hs.elim
  | power t α ih =>
    have h := ih hc.1 hs
    exact sides_map (r := momentsBelow val t) (measurable_each (measurable_signedPow _)) (measurable_each (measurable_signedPow _))
      (side_power h.1 hc.2) (side_power h.2 hc.2)
  | spiral t speed normalize ih =>
    have h := ih hc.1 hs
    have h1 := hc.2.1
    have h2 := hc.2.2
    have l1 : (⟨0, by omega⟩ : Fin (lawOf val t).dx) < ⟨1, by omega⟩ := Fin.mk_lt_mk.2 (by norm_num)
    have l2 : (⟨1, by omega⟩ : Fin (lawOf val t).dy) < ⟨2, by omega⟩ := Fin.mk_lt_mk.2 (by norm_num)
    have w1 := whirl_eq (⟨0, by omega⟩ : Fin (lawOf val t).dx) ⟨1, by omega⟩ (if normalize then val speed / (lawOf val t).dx else val speed)
    have w2 := whirl_eq (⟨1, by omega⟩ : Fin (lawOf val t).dy) ⟨2, by omega⟩ (if normalize then val speed / (lawOf val t).dy else val speed)
    simp only at w1 w2
    unfold lawOf whirled
    rw [w1, w2]
    exact sides_map (r := momentsBelow val t) (measurable_turn l1 _) (measurable_turn l2 _) (side_turn h.1 l1 _) (side_turn h.2 l2 _)
  | bimodal | lvm | mixX | mixAI | galaxy | waves | concentric | inliers | rescale | uniformise | gaussianise => exact hc.elim

theorem sides_memLp {r : ENNReal} {p : Part} (h : Sides r p) (hr : 2 < r) :
    (∀ c, MemLp (fun z : (Fin p.dx → ℝ) × (Fin p.dy → ℝ) => z.1 c) 2 p.law) ∧
      ∀ c, MemLp (fun z : (Fin p.dx → ℝ) × (Fin p.dy → ℝ) => z.2 c) 2 p.law :=
  ⟨fun c => (memLp_map_measure_iff (measurable_pi_apply c).aestronglyMeasurable measurable_fst.aemeasurable).1 (h.1.second hr c),
    fun c => (memLp_map_measure_iff (measurable_pi_apply c).aestronglyMeasurable measurable_snd.aemeasurable).1 (h.2.second hr c)⟩

theorem honest_found {K : Type} [MeasurableSpace K] {κ : Measure K} {init : ℤ → K} {ok : Set ℤ} {sizes : Set ℕ} {s : Sampler K} {p : Part}
    (h : Honest κ init ok sizes s p) (hn : ∀ n, n ≠ 1 → n ∈ sizes) {r : ENNReal} (hp : Sides r p) {Z : Kernel → ℕ → ℝ}
    (hZ : ∀ k d, Z k d = mass k d) (E : Estimator) (h2 : E.standardize = true → 2 < r)
    (bx : ByRule E.kdeX.bandwidth) (by' : ByRule E.kdeY.bandwidth) (bxy : ByRule E.kdeXY.bandwidth) :
    ConvergesTo κ s (Gives (dx := p.dx) (dy := p.dy) Z 0 E) s.mi := by
  haveI := h.prob
  have hS : Spread p.law := ⟨hp.1.regular, hp.2.regular, by rw [h.mi]; exact ENNReal.ofReal_ne_top⟩
  have := kde_consistent (fun n h1 => h.law n (hn n h1)) h.posX h.posY hS hZ E (fun _ => rfl)
    (fun hE => (sides_memLp hp (h2 hE)).1) (fun hE => (sides_memLp hp (h2 hE)).2) bx by' bxy
  rwa [h.mi, ENNReal.toReal_ofReal h.nonneg] at this

theorem task_found {F : Type} {val : F → ℝ} {c : Call F} {b : Built Key State} (h : HonestTask R κ N μ (lawOf val c) b) (hc : Valid val c)
    (hs : Smooth val c) {Z : Kernel → ℕ → ℝ} (hZ : ∀ k d, Z k d = mass k d) (E : Estimator)
    (h2 : E.standardize = true → 2 < momentsBelow val c)
    (bx : ByRule E.kdeX.bandwidth) (by' : ByRule E.kdeY.bandwidth) (bxy : ByRule E.kdeXY.bandwidth) :
    Finds κ μ (Gives (dx := (lawOf val c).dx) (dy := (lawOf val c).dy) Z 0 E) b.mi b := by
  have hp := task_sides val c hc hs
  cases b with
  | jax s => exact honest_found (s := s) h (fun n _ => trivial) hp hZ E h2 bx by' bxy
  | np s => exact honest_found (s := s) h (fun n hn => hn) hp hZ E h2 bx by' bxy

/-- **C107** On every task built from the base tasks by the transforms without a Swiss roll, in any order and any number of them, the
estimates of the kernel density estimator converge to the closed form of the mutual information of the base task: with standardisation
if the variables have second moments, without standardisation always. -/
theorem kde_tasks {F : Type} (hR : IdealRandom R κ) (hN : IdealStudent N μ) (val : F → ℝ) (other : Call F → Except Err (Built Key State))
    (c : Call F) (hc : Valid val c) (hs : Smooth val c) {Z : Kernel → ℕ → ℝ} (hZ : ∀ k d, Z k d = mass k d) :
    ∃ b, build R N val other c = .ok b ∧ b.dimX = .ok (lawOf val c).dx ∧ b.dimY = .ok (lawOf val c).dy ∧ b.mi = numberOf val c ∧
      ∀ E : Estimator, (E.standardize = true → 2 < momentsBelow val c) → ByRule E.kdeX.bandwidth → ByRule E.kdeY.bandwidth →
        ByRule E.kdeXY.bandwidth → Finds κ μ (Gives (dx := (lawOf val c).dx) (dy := (lawOf val c).dy) Z 0 E) (numberOf val c) b := by
  obtain ⟨b, h1, h2, h3⟩ := build_honest hR hN val other c hc
  refine ⟨b, h1, (honest_dims h3).1, (honest_dims h3).2, h2, fun E h4 bx by' bxy => ?_⟩
  rw [← h2]
  exact task_found h3 hc hs hZ E h4 bx by' bxy

/-- A tower of five transforms over Student-t variables with five degrees of freedom; the last but one is the inverse hyperbolic sine, so
that there are second moments in spite of the cubes. -/
example : ∃ b, build tree table (fun x : ℝ => x) (fun _ => .error .valueError)
      (.normalCdf (.asinh (.spiral (.rotate (.power (.wiggly (.studentDense 3 4 5 0.25)) 3)) 2 false))) = .ok b ∧
    ∃ E, create "tophat" none none (.text "scott") none none true = .ok E ∧
      Finds treeLaw tableLaw (Gives (dx := 3) (dy := 4) mass 0 E)
        (numberOf (fun x : ℝ => x) (.studentDense 3 4 5 0.25)) b := by
  obtain ⟨b, h1, -, -, -, h2⟩ := kde_tasks tree_ideal table_ideal (fun x : ℝ => x) (fun _ => .error .valueError)
    (.normalCdf (.asinh (.spiral (.rotate (.power (.wiggly (.studentDense 3 4 5 0.25)) 3)) 2 false)))
    (by simp only [Valid, lawOf, each, rotated, whirled]; norm_num) (by simp [Smooth, momentsBelow]) (Z := mass) fun _ _ => rfl
  exact ⟨b, h1, _, rfl, h2 _ (by simp [momentsBelow]) (.inl rfl) (.inl rfl) (.inl rfl)⟩

theorem entries_smooth : ∀ e ∈ Registry.entries, e.call ≠ .bimodal .f0_75 → e.call ≠ .swissroll (.normalCdf (.binormal .f0_75)) →
    Smooth regVal e.call ∧ (e.call ∉ heavy → 2 < momentsBelow regVal e.call) := by
  have h : ∀ c ∈ registry, c ≠ .bimodal .f0_75 → c ≠ .swissroll (.normalCdf (.binormal .f0_75)) →
      Smooth regVal c ∧ (c ∉ heavy → 2 < momentsBelow regVal c) := by
    have h3 : (2 : ENNReal) < 3 := by norm_num
    have ht : (⊤ : ENNReal) / ENNReal.ofReal (3 / 2) = ⊤ := ENNReal.top_div_of_ne_top ENNReal.ofReal_ne_top
    simp only [registry, twoPair, List.cons_append, List.nil_append, List.forall_mem_cons, List.not_mem_nil, false_implies, implies_true, and_true]
    simp [Smooth, momentsBelow, heavy, h3, ht]
  intro e he
  refine h _ ?_
  rw [← entries_calls]
  exact List.mem_map_of_mem he

/-- **C107** The tasks of the benchmark.  On all of them apart from the bimodal task (whose number is wrong) and the Swiss roll the
estimates without standardisation converge to the advertised number.  The same is true of the default estimator, and of every other one
with bandwidths by the two rules, apart from the five tasks with Student-t variables with one or two degrees of freedom. -/
theorem kde_benchmark (hR : IdealRandom R κ) (hN : IdealStudent N μ) (other : Call RegF → Except Err (Built Key State))
    {Z : Kernel → ℕ → ℝ} (hZ : ∀ k d, Z k d = mass k d) :
    ∃ tasks : List (TaskObj Key State), benchmarkTasks R N other = .ok (tasks.map fun t => (t.id, t)) ∧ tasks.length = 40 ∧
      ∃ default, create "tophat" none none (.text "scott") none none true = .ok default ∧
      List.Forall₂ (fun e t => t.id = e.call.id regFormat ∧
        (e.call ≠ .bimodal .f0_75 → e.call ≠ .swissroll (.normalCdf (.binormal .f0_75)) →
          ∃ dx dy, t.sampler.dimX = .ok dx ∧ t.sampler.dimY = .ok dy ∧
          (e.call ∉ heavy → Finds κ μ (Gives (dx := dx) (dy := dy) Z 0 default) t.sampler.mi t.sampler) ∧
          ∀ E : Estimator, (E.standardize = true → e.call ∉ heavy) → ByRule E.kdeX.bandwidth → ByRule E.kdeY.bandwidth →
            ByRule E.kdeXY.bandwidth → Finds κ μ (Gives (dx := dx) (dy := dy) Z 0 E) t.sampler.mi t.sampler))
        Registry.entries tasks := by
  obtain ⟨tasks, h1, h2, -, -, -, h3⟩ := benchmark_tasks_partial hR hN other
  refine ⟨tasks, h1, h2, _, rfl, ?_⟩
  have h4 : List.Forall₂ (fun e t => e ∈ Registry.entries ∧ t.id = e.call.id regFormat ∧ t.name = e.name ∧ (e.call ≠ .bimodal .f0_75 →
      HonestTask R κ N μ (lawOf regVal e.call) t.sampler)) Registry.entries tasks :=
    (List.forall₂_and_left Registry.entries tasks).2 ⟨fun e he => he, h3⟩
  refine h4.imp fun e t h => ⟨h.2.1, fun hb hw => ?_⟩
  obtain ⟨he, -, -, hh⟩ := h
  have hv := (entries_valid e he).resolve_left hb
  have hd := honest_dims (hh hb)
  obtain ⟨s1, s2⟩ := entries_smooth e he hb hw
  have key : ∀ E : Estimator, (E.standardize = true → e.call ∉ heavy) → ByRule E.kdeX.bandwidth → ByRule E.kdeY.bandwidth →
      ByRule E.kdeXY.bandwidth → Finds κ μ (Gives Z 0 E) t.sampler.mi t.sampler :=
    fun E hE bx by' bxy => task_found (hh hb) hv s1 hZ E (fun h => s2 (hE h)) bx by' bxy
  exact ⟨_, _, hd.1, hd.2, fun hH => key _ (fun _ => hH) (.inl rfl) (.inl rfl) (.inl rfl), key⟩

/-- The assumptions can be met; among the forty tasks there are thirty-three for the default estimator. -/
example : (∃ tasks : List (TaskObj _ _), benchmarkTasks tree table (fun _ => .error .valueError) = .ok (tasks.map fun t => (t.id, t)) ∧ tasks.length = 40) ∧
    (Registry.entries.filter fun e => decide (e.call ≠ .bimodal .f0_75 ∧ e.call ≠ .swissroll (.normalCdf (.binormal .f0_75)) ∧ e.call ∉ heavy)).length = 33 := by
  obtain ⟨tasks, h1, h2, -⟩ := kde_benchmark tree_ideal table_ideal (fun _ => .error .valueError) (Z := mass) fun _ _ => rfl
  exact ⟨⟨tasks, h1, h2⟩, by decide⟩

end BMI.Kde
