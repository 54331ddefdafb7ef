import Verif.Lemmas.KdeMixture
import Verif.Spec.KdeMixture

/-! C108: the kernel density estimator on mixtures. -/

namespace BMI.Kde

open MeasureTheory ProbabilityTheory Filter Topology BMI.Kde.Spec BMI.Consistency BMI.Samplers BMI.Student BMI.Bmm

variable {Key State : Type} [MeasurableSpace Key] {R : JaxRandom Key} {T : Tfp Key} {κ : Measure Key} {dx dy m : ℕ}

/-! ## Samplers which refuse empty samples -/

/-- The sampler, with empty arrays for empty samples. -/
noncomputable def lenient (t : Sampler Key) : Sampler Key where
  dimX := t.dimX
  dimY := t.dimY
  sample := fun n rng => if n = 0 then .ok ([], []) else t.sample n rng
  mi := t.mi

theorem lenient_draws [IsProbabilityMeasure κ] {t : Sampler Key} {P : Measure ((Fin dx → ℝ) × (Fin dy → ℝ))} [IsProbabilityMeasure P]
    (h : MixtureTasks.Draws R κ t.sample P) : Consistency.Draws κ (lenient t) P := by
  intro n _
  rcases Nat.eq_zero_or_pos n with rfl | hn
  · refine ⟨fun _ i => i.elim0, measurable_const, fun k => ?_, ?_⟩
    · simp [lenient, rowsOf]
    · rw [Measure.map_const, measure_univ, one_smul, Measure.pi_of_empty _ fun i => i.elim0]
  · obtain ⟨draw, h1, h2, h3⟩ := h.2 n hn
    refine ⟨draw, h1, fun k => ?_, h2⟩
    show (if n = 0 then _ else _) = _
    rw [if_neg hn.ne', h3]
    rfl

theorem converges_lenient {t : Sampler Key} {gives : (n : ℕ) → (Fin n → Fin dx → ℝ) → (Fin n → Fin dy → ℝ) → ℝ → Prop} {c : ℝ}
    (h : ConvergesTo κ (lenient t) gives c) : ConvergesTo κ t gives c := by
  intro δ hδ
  refine (h δ hδ).congr' ?_
  filter_upwards [eventually_gt_atTop 0] with n hn
  have e : ∀ rng, (lenient t).sample n rng = t.sample n rng := fun rng => if_neg hn.ne'
  simp only [e]

/-- A law whose two sides have densities, and moments below `r`. -/
theorem draws_found [IsProbabilityMeasure κ] {t : Sampler Key} {P : Measure ((Fin dx → ℝ) × (Fin dy → ℝ))} [IsProbabilityMeasure P]
    (h : MixtureTasks.Draws R κ t.sample P) (hx : 0 < dx) (hy : 0 < dy) (hfin : mutualInfo P ≠ ⊤) {r : ENNReal} (h1 : Side r P.fst)
    (h2 : Side r P.snd) : FindsNumber κ t dx dy (2 < r) (mutualInfo P).toReal := by
  intro E hE bx by' bxy
  refine converges_lenient ?_
  exact kde_consistent (lenient_draws h) hx hy ⟨h1.regular, h2.regular, hfin⟩ (fun _ _ => rfl) E (fun _ => rfl)
    (fun hs c => (memLp_map_measure_iff (measurable_pi_apply c).aestronglyMeasurable measurable_fst.aemeasurable).1 (h1.second (hE hs) c))
    (fun hs c => (memLp_map_measure_iff (measurable_pi_apply c).aestronglyMeasurable measurable_snd.aemeasurable).1 (h2.second (hE hs) c))
    bx by' bxy

/-! ## Mixtures of normal and Student-t components -/

theorem sides_component (mean : Fin (dx + dy) → ℝ) {S : Matrix (Fin (dx + dy)) (Fin (dx + dy)) ℝ} (hS : S.PosDef) :
    Side ⊤ (MixtureTasks.component dx dy mean S).fst ∧ Side ⊤ (MixtureTasks.component dx dy mean S).snd := by
  rw [MixtureTasks.component_eq, splitNormal_fst _ hS.posSemidef, splitNormal_snd _ hS.posSemidef]
  exact ⟨side_normal _ (blockX_posDef hS), side_normal _ (blockY_posDef hS)⟩

theorem Side.mono {d : ℕ} {r r' : ENNReal} {Q : Measure (Fin d → ℝ)} (h : Side r Q) (hr : r' ≤ r) : Side r' Q :=
  ⟨h.prob, h.regular, fun p h0 hp h1 c => h.moment p h0 hp (h1.trans_le hr) c⟩

theorem sides_of_components {p : Fin m → ℝ} (h0 : ∀ j, 0 ≤ p j) (h1 : ∑ j, p j = 1) {P : Fin m → Measure ((Fin dx → ℝ) × (Fin dy → ℝ))}
    {r : ENNReal} (h : ∀ j, Side r (P j).fst ∧ Side r (P j).snd) : Side r (mixtureLaw p P).fst ∧ Side r (mixtureLaw p P).snd := by
  unfold Measure.fst Measure.snd
  rw [mixtureLaw_map p P measurable_fst, mixtureLaw_map p P measurable_snd]
  exact ⟨side_mixture h0 h1 fun j => (h j).1, side_mixture h0 h1 fun j => (h j).2⟩

/-- **C108** Mixtures of normal and Student-t components in any dimensions and any proportions: the kernel density estimator finds the
number which the wrapped mixture estimates without bias when it is asked for its mutual information. -/
theorem kde_mixture (hT : IdealTfp T κ) (N : NpRandom State) (hx : 0 < dx) (hy : 0 < dy) (p : Fin m → ℝ) (h0 : ∀ j, 0 ≤ p j)
    (h1 : ∑ j, p j = 1) (mean : Fin m → Fin (dx + dy) → ℝ) (S : Fin m → Matrix (Fin (dx + dy)) (Fin (dx + dy)) ℝ) (hS : ∀ j, (S j).PosDef)
    (df : Fin m → Option ℝ) (hdf : ∀ j, ∀ ν ∈ df j, 0 < ν) (size : ℕ) (hs : 0 < size) :
    ∃ (J : Fin m → JointDistribution Key) (M : JointDistribution Key) (s : BmmSampler Key),
      (∀ j, (match df j with
        | none => multivariateNormalDistribution R T dx dy (rowsOf (S j)) (some (List.ofFn (mean j)))
        | some ν => multivariateStudentDistribution R N T dx dy ν (rowsOf (S j)) (some (List.ofFn (mean j)))) = .ok (J j)) ∧
      mixture T (List.ofFn p) (List.ofFn J) = .ok M ∧ bmmSampler M none (.seed 0) size = .ok s ∧
      mutualInfo (mixtureLaw p fun j => ingredient dx dy (mean j) (S j) (df j)) ≠ ⊤ ∧
      FindsNumber κ (MixtureTasks.asSampler R s) dx dy (∀ j, ∀ ν ∈ df j, 2 < ν)
        (mutualInfo (mixtureLaw p fun j => ingredient dx dy (mean j) (S j) (df j))).toReal ∧
      ∃ v : Key → ℝ, (∀ᵐ k ∂κ, ({ s with seed := .key k }.mutualInformation R).1 = .ok (v k : EReal)) ∧
        ∫ k, v k ∂κ = (mutualInfo (mixtureLaw p fun j => ingredient dx dy (mean j) (S j) (df j))).toReal := by
  haveI := hT.prob
  have key : ∀ j, ∃ J : JointDistribution Key, (match df j with
        | none => multivariateNormalDistribution R T dx dy (rowsOf (S j)) (some (List.ofFn (mean j)))
        | some ν => multivariateStudentDistribution R N T dx dy ν (rowsOf (S j)) (some (List.ofFn (mean j)))) = .ok J ∧
      Consistent κ J Set.univ Set.univ (ingredient dx dy (mean j) (S j) (df j)) ∧
      mutualInfo (ingredient dx dy (mean j) (S j) (df j)) ≠ ⊤ ∧
      ∃ r : ENNReal, r ≠ 0 ∧ ((∀ ν ∈ df j, 2 < ν) → 2 < r) ∧ Side r (ingredient dx dy (mean j) (S j) (df j)).fst ∧
        Side r (ingredient dx dy (mean j) (S j) (df j)).snd := by
    intro j
    cases hj : df j with
    | none =>
      obtain ⟨J, a1, -, a2⟩ := multivariateNormal_consistent hT R dx dy hx hy (mean j) (S j) (hS j)
      refine ⟨J, a1, a2, ?_, ⊤, ENNReal.top_ne_zero, fun _ => by norm_num, sides_component (mean j) (hS j)⟩
      have := (splitNormal_mi (dx := dx) (dy := dy) (mean j) (hS j)).1
      exact fun h => ENNReal.ofReal_ne_top (this.symm.trans h)
    | some ν =>
      have hν : 0 < ν := hdf j ν hj
      obtain ⟨J, a1, -, a2⟩ := multivariateStudent_consistent hT R N dx dy hx hy (mean j) (S j) (hS j) ν hν
      refine ⟨J, a1, a2, ?_, ENNReal.ofReal ν, by simpa using hν, fun h => ?_, ?_, ?_⟩
      · have := (splitStudent_mi (dx := dx) (dy := dy) (mean j) (hS j) hν).1
        exact fun h => ENNReal.ofReal_ne_top (this.symm.trans h)
      · have := h ν rfl
        rw [show (2 : ENNReal) = ENNReal.ofReal 2 by simp]
        exact (ENNReal.ofReal_lt_ofReal_iff hν).2 this
      · have := splitStudent_fst (dx := dx) (dy := dy) (mean j) (hS j).posSemidef hν
        show Side _ (splitStudent dx dy (mean j) (S j) ν).fst
        rw [this]
        exact side_student _ (blockX_posDef (hS j)) hν
      · have := splitStudent_snd (dx := dx) (dy := dy) (mean j) (hS j).posSemidef hν
        show Side _ (splitStudent dx dy (mean j) (S j) ν).snd
        rw [this]
        exact side_student _ (blockY_posDef (hS j)) hν
  choose J a1 a2 a3 r a4 a5 a6 a7 using key
  obtain ⟨M, b1, b2, b3, -, -, -⟩ := mixture_mi_le hT p h0 h1 J _ a2 a3
  haveI := b2.prob
  obtain ⟨s, hsam⟩ := (bmmSampler_accepts_iff M none (.seed 0) size).1.2
    ⟨by rw [b2.dimX]; exact hx, by rw [b2.dimY]; exact hy, by exact_mod_cast hs⟩
  obtain ⟨hd1, hd2⟩ := bmmSampler_sample R b2 none (.seed 0) size hsam
  refine ⟨J, M, s, a1, b1, hsam, b3, ?_, ?_⟩
  · have hr : ∀ j, (⨅ i, r i) ≤ r j := fun j => iInf_le r j
    obtain ⟨c1, c2⟩ := sides_of_components h0 h1 (r := ⨅ i, r i) fun j => ⟨(a6 j).mono (hr j), (a7 j).mono (hr j)⟩
    have h := draws_found (R := R) (t := MixtureTasks.asSampler R s) (P := mixtureLaw p fun j => ingredient dx dy (mean j) (S j) (df j))
      ⟨fun rng => hd1 0 (by norm_num) rng, hd2⟩ hx hy b3 c1 c2
    refine fun E hE => h E fun hst => ?_
    haveI : Nonempty (Fin m) := by
      by_contra hne
      rw [not_nonempty_iff] at hne
      simp at h1
    obtain ⟨i, hi⟩ := exists_eq_ciInf_of_finite (f := r)
    rw [← hi]
    exact a5 i (hE hst i)
  · obtain ⟨v, e, g1, g2, -⟩ := monteCarlo_estimate b2 size hs
    refine ⟨v, ?_, (g2 b3).2⟩
    obtain ⟨rfl, -⟩ := bmmSampler_ok hsam
    filter_upwards [g1] with k hk
    unfold BmmSampler.mutualInformation
    show Prod.fst (match monteCarloMiEstimate k M size with
      | .error e => _
      | .ok (v, err) => _) = _
    rw [hk]

/-! ## The mixture tasks -/

theorem wraps_found [IsProbabilityMeasure κ] {s : BmmSampler Key} {size : ℕ} {P : Measure ((Fin dx → ℝ) × (Fin dy → ℝ))}
    (h : MixtureTasks.Wraps R κ s size P) (hx : 0 < dx) (hy : 0 < dy) (hP : Side ⊤ P.fst ∧ Side ⊤ P.snd) :
    FindsNumber κ (MixtureTasks.asSampler R s) dx dy True (mutualInfo P).toReal := by
  haveI := h.prob
  exact fun E _ => draws_found (t := MixtureTasks.asSampler R s) h.draws hx hy h.finite hP.1 hP.2 E fun _ => by norm_num

theorem bends_found [IsProbabilityMeasure κ] {t : Sampler Key} {base : BmmSampler Key} {size : ℕ} {P : Measure ((Fin dx → ℝ) × (Fin dy → ℝ))}
    {f : (Fin dx → ℝ) → Fin dx → ℝ} (hf : Measurable f)
    (hb : MixtureTasks.Wraps R κ base size P) (h : MixtureTasks.Bends R κ t base P (P.map (Prod.map f id))) (hx : 0 < dx) (hy : 0 < dy)
    (h1 : Side ⊤ (P.fst.map f)) (h2 : Side ⊤ P.snd) : FindsNumber κ t dx dy True (mutualInfo P).toReal := by
  haveI := hb.prob
  haveI : IsProbabilityMeasure (P.map (Prod.map f id)) := Measure.isProbabilityMeasure_map (hf.prodMap measurable_id).aemeasurable
  have k1 : Side ⊤ (P.map (Prod.map f id)).fst := by rw [map_fst_prodMap _ hf measurable_id]; exact h1
  have k2 : Side ⊤ (P.map (Prod.map f id)).snd := by rw [map_snd_prodMap _ hf measurable_id, Measure.map_id]; exact h2
  rw [← h.same]
  exact fun E _ => draws_found h.draws hx hy (by rw [h.same]; exact hb.finite) k1 k2 E fun _ => by norm_num

theorem half_weights : (∀ j : Fin 2, 0 ≤ (![1 / 2, 1 / 2] : Fin 2 → ℝ) j) ∧ ∑ j, (![1 / 2, 1 / 2] : Fin 2 → ℝ) j = 1 :=
  ⟨fun j => by fin_cases j <;> norm_num, by norm_num [Fin.sum_univ_two]⟩

theorem uniform_weights {n : ℕ} (hn : 0 < n) : (∀ _j : Fin n, (0 : ℝ) ≤ 1 / n) ∧ ∑ _j : Fin n, (1 : ℝ) / n = 1 := by
  have : (0 : ℝ) < n := by exact_mod_cast hn
  refine ⟨fun _ => by positivity, ?_⟩
  simp
  field_simp

open MixtureTasks in
/-- **C108** X. -/
theorem kde_taskX (hT : IdealTfp T κ) (ρ : ℝ) (hρ : |ρ| < 1) (size : ℕ) (hs : 0 < size) :
    ∃ s, taskX R T ρ size = .ok s ∧ Wraps R κ s size (lawX ρ) ∧ FindsNumber κ (asSampler R s) 1 1 True (mutualInfo (lawX ρ)).toReal := by
  haveI := hT.prob
  obtain ⟨s, h1, h2, h3, h4, -⟩ := taskX_correct hT R ρ hρ size hs
  exact ⟨s, h1, h2, wraps_found h2 one_pos one_pos ⟨by rw [h3]; exact side_normal 0 Matrix.PosDef.one, by rw [h4]; exact side_normal 0 Matrix.PosDef.one⟩⟩

open MixtureTasks in
/-- **C108** AI. -/
theorem kde_taskAi (hT : IdealTfp T κ) (size : ℕ) (hs : 0 < size) :
    ∃ s, taskAi R T size = .ok s ∧ Wraps R κ s size lawAi ∧ FindsNumber κ (asSampler R s) 1 1 True (mutualInfo lawAi).toReal := by
  haveI := hT.prob
  obtain ⟨s, h1, h2, -⟩ := taskAi_correct hT R size hs
  have hc : ∀ j, |(strokes j).2.2| < 1 := fun j => by
    fin_cases j <;> norm_num [strokes, abs_of_pos, abs_of_neg]
  have hv : ∀ j, 0 < (strokes j).2.1.1 ∧ 0 < (strokes j).2.1.2 := fun j => by fin_cases j <;> norm_num [strokes]
  exact ⟨s, h1, h2, wraps_found h2 one_pos one_pos (sides_of_components (by norm_num) (by norm_num) fun j =>
    sides_component (dx := 1) (dy := 1) _ (pair_posDef (hv j).1 (hv j).2 (hc j)))⟩

open MixtureTasks in
/-- **C108** Galaxy. -/
theorem kde_taskGalaxy (hT : IdealTfp T κ) (speed d : ℝ) (size : ℕ) (hs : 0 < size) :
    ∃ base t, taskGalaxy R T speed d size = .ok (base, t) ∧ Wraps R κ base size (lawBalls d) ∧
      FindsNumber κ t 2 1 True (mutualInfo (lawBalls d)).toReal := by
  haveI := hT.prob
  obtain ⟨base, t, h1, h2, h3, -⟩ := taskGalaxy_correct hT R speed d size hs
  obtain ⟨k1, k2⟩ := sides_of_components (dx := 2) (dy := 1) half_weights.1 half_weights.2 fun j : Fin 2 =>
    sides_component (dx := 2) (dy := 1) (fun _ => ![-(d / 2), d / 2] j) Matrix.PosDef.one
  have h01 : (0 : Fin 2) < 1 := by decide
  have hsum : ∀ x : Fin 2 → ℝ, sumSq x = x 0 ^ 2 + x 1 ^ 2 := fun x => Fin.sum_univ_two _
  have hm := measurable_turn h01 speed
  have ht := side_turn k1 h01 speed
  simp only [hsum] at hm ht
  exact ⟨base, t, h1, h2, bends_found hm h2 h3 two_pos one_pos ht k2⟩

open MixtureTasks in
/-- **C108** Waves. -/
theorem kde_taskWaves (hT : IdealTfp T κ) (n : ℕ) (hn : 0 < n) (amplitude frequency : ℝ) (size : ℕ) (hs : 0 < size) :
    ∃ base t, taskWaves R T n amplitude frequency size = .ok (base, t) ∧ Wraps R κ base size (lawColumns n) ∧
      FindsNumber κ t 2 1 True (mutualInfo (lawColumns n)).toReal := by
  haveI := hT.prob
  obtain ⟨base, t, h1, h2, h3, -⟩ := taskWaves_correct hT R n hn amplitude frequency size hs
  have hv : ∀ i, 0 < (![1 / 10, 1, 1 / 10] : Fin 3 → ℝ) i := fun i => by fin_cases i <;> norm_num
  obtain ⟨k1, k2⟩ := sides_of_components (dx := 2) (dy := 1) (uniform_weights hn).1 (uniform_weights hn).2 fun j : Fin n =>
    sides_component (dx := 2) (dy := 1) ![3 / 2 * (j : ℕ), 0, 3 / 2 * ((j : ℕ) % 4 : ℕ)] (Matrix.PosDef.diagonal hv)
  have e1 := (waves_facts amplitude frequency).1
  have hu : ∀ c, 0 < (![10, 2] : Fin 2 → ℝ) c := fun c => by fin_cases c <;> norm_num
  have e2 : Measurable fun u : Fin 2 → ℝ => u + ![-(4 / 5), 0] := measurable_id.add_const _
  have ht := side_shift (side_units (side_shear k1 amplitude frequency) hu) ![-(4 / 5), 0]
  rw [Measure.map_map (measurable_units _) e1, Measure.map_map e2 ((measurable_units _).comp e1)] at ht
  have e : ((fun u : Fin 2 → ℝ => u + ![-(4 / 5), 0]) ∘ units ![10, 2] ∘ fun x : Fin 2 → ℝ => (![x 0 + amplitude * Real.sin (frequency * x 1), x 1] : Fin 2 → ℝ))
      = fun x => ![(x 0 + amplitude * Real.sin (frequency * x 1)) / 10 - 4 / 5, x 1 / 2] := by
    funext x i
    fin_cases i
    · show (x 0 + amplitude * Real.sin (frequency * x 1)) / 10 + -(4 / 5) = (x 0 + amplitude * Real.sin (frequency * x 1)) / 10 - 4 / 5
      ring
    · show x 1 / 2 + 0 = x 1 / 2
      ring
  have hm := e2.comp ((measurable_units ![10, 2]).comp e1)
  rw [e] at ht hm
  exact ⟨base, t, h1, h2, bends_found hm h2 h3 two_pos one_pos ht k2⟩

open MixtureTasks in
/-- **C108** Concentric normal distributions. -/
theorem kde_taskConcentric (hT : IdealTfp T κ) (d n : ℕ) (hd : 0 < d) (hn : 0 < n) (size : ℕ) (hs : 0 < size) :
    ∃ s, taskConcentric R T d n size = .ok s ∧ Wraps R κ s size (lawConcentric d n) ∧
      FindsNumber κ (asSampler R s) d 1 True (mutualInfo (lawConcentric d n)).toReal := by
  haveI := hT.prob
  obtain ⟨s, h1, h2, -⟩ := taskConcentric_correct hT R d n hd hn size hs
  have hv : ∀ (j : Fin n) i, 0 < Fin.append (fun _ : Fin d => (((j : ℕ) : ℝ) + 1) ^ 2) (fun _ : Fin 1 => (1 / 10000 : ℝ)) i :=
    fun j i => by
      refine Fin.addCases (fun i => ?_) (fun i => ?_) i
      · rw [Fin.append_left]
        positivity
      · rw [Fin.append_right]
        norm_num
  exact ⟨s, h1, h2, wraps_found h2 hd one_pos (sides_of_components (uniform_weights hn).1 (uniform_weights hn).2 fun j =>
    sides_component (dx := d) (dy := 1) _ (Matrix.PosDef.diagonal (hv j)))⟩

open MixtureTasks in
/-- **C108** Sparse with inliers. -/
theorem kde_taskInliers (hT : IdealTfp T κ) (dx dy k : ℕ) (hx : 0 < dx) (hy : 0 < dy) (hkx : k ≤ dx) (hky : k ≤ dy) (strength ε : ℝ)
    (h0 : 0 ≤ ε) (h1 : ε ≤ 1) (size : ℕ) (hs : 0 < size) :
    ∃ s, taskInliers R T dx dy k strength ε size = .ok s ∧ Wraps R κ s size (lawInliers dx dy k strength ε) ∧
      FindsNumber κ (asSampler R s) dx dy True (mutualInfo (lawInliers dx dy k strength ε)).toReal := by
  haveI := hT.prob
  obtain ⟨s, a1, a2, a3, a4, -⟩ := taskInliers_correct hT R dx dy k hx hy hkx hky strength ε h0 h1 size hs
  exact ⟨s, a1, a2, wraps_found a2 hx hy ⟨by rw [a3]; exact side_normal 0 Matrix.PosDef.one, by rw [a4]; exact side_normal 0 Matrix.PosDef.one⟩⟩

/-! ## The assumptions can be met -/

open MixtureTasks in
/-- The default estimator on the tasks with their default arguments. -/
example (R : JaxRandom PathKey) : ∃ E, create "tophat" none none (.text "scott") none none true = .ok E ∧
    (∃ s, taskX R path 0.9 100000 = .ok s ∧ ConvergesTo pathLaw (asSampler R s) (Gives (dx := 1) (dy := 1) mass 0 E) (mutualInfo (lawX 0.9)).toReal) ∧
    (∃ base t, taskGalaxy R path 0.5 3 100000 = .ok (base, t) ∧ ConvergesTo pathLaw t (Gives (dx := 2) (dy := 1) mass 0 E) (mutualInfo (lawBalls 3)).toReal) ∧
    (∃ base t, taskWaves R path 12 5 3 100000 = .ok (base, t) ∧ ConvergesTo pathLaw t (Gives (dx := 2) (dy := 1) mass 0 E) (mutualInfo (lawColumns 12)).toReal) ∧
    ∃ s, taskInliers R path 5 4 2 2 0.2 100000 = .ok s ∧
      ConvergesTo pathLaw (asSampler R s) (Gives (dx := 5) (dy := 4) mass 0 E) (mutualInfo (lawInliers 5 4 2 2 0.2)).toReal := by
  obtain ⟨s1, a1, -, a2⟩ := kde_taskX (R := R) path_ideal 0.9 (by norm_num [abs_of_pos]) 100000 (by norm_num)
  obtain ⟨s3, t3, c1, -, c2⟩ := kde_taskGalaxy (R := R) path_ideal 0.5 3 100000 (by norm_num)
  obtain ⟨s4, t4, d1, -, d2⟩ := kde_taskWaves (R := R) path_ideal 12 (by norm_num) 5 3 100000 (by norm_num)
  obtain ⟨s6, f1, -, f2⟩ := kde_taskInliers (R := R) path_ideal 5 4 2 (by norm_num) (by norm_num) (by norm_num) (by norm_num) 2 0.2
    (by norm_num) (by norm_num) 100000 (by norm_num)
  exact ⟨_, rfl, ⟨s1, a1, a2 _ (fun _ => trivial) (.inl rfl) (.inl rfl) (.inl rfl)⟩, ⟨s3, t3, c1, c2 _ (fun _ => trivial) (.inl rfl) (.inl rfl) (.inl rfl)⟩,
    ⟨s4, t4, d1, d2 _ (fun _ => trivial) (.inl rfl) (.inl rfl) (.inl rfl)⟩, ⟨s6, f1, f2 _ (fun _ => trivial) (.inl rfl) (.inl rfl) (.inl rfl)⟩⟩

/-- Cauchy outliers: without standardisation nothing is needed, with it the degrees of freedom have to be above two. -/
example (R : JaxRandom PathKey) (N : NpRandom State) : ∃ (s : BmmSampler PathKey) (v : ℝ),
    (∀ E, create "gaussian" none none (.text "silverman") none none false = .ok E →
      ConvergesTo pathLaw (MixtureTasks.asSampler R s) (Gives (dx := 2) (dy := 3) mass 0 E) v) := by
  obtain ⟨J, M, s, -, -, -, -, h, -⟩ := kde_mixture (R := R) path_ideal N (dx := 2) (dy := 3) two_pos three_pos ![9 / 10, 1 / 10]
    (fun j => by fin_cases j <;> norm_num) (by norm_num [Fin.sum_univ_two]) (fun _ => 0) (fun _ => 1) (fun _ => Matrix.PosDef.one) ![none, some 1]
    (fun j ν hν => by fin_cases j <;> simp at hν; rw [← hν]; norm_num) 1000 (by norm_num)
  refine ⟨s, _, fun E hE => h E ?_ ?_ ?_ ?_⟩ <;> cases hE
  · simp
  all_goals exact .inr rfl

end BMI.Kde
