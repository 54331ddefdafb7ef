import Verif.Props.AdditiveUniform

/-! Properties C07 (transformed samplers) and C08 (concatenations), over /repo/src/bmi/samplers. -/

namespace BMI.Samplers

open MeasureTheory

variable {Key : Type}

/-! ## C07: transformed samplers -/

theorem transformed_law [MeasurableSpace Key] (R : JaxRandom Key) (κ : Measure Key) [IsProbabilityMeasure κ]
    (base s : Sampler Key) {dx dy ex ey : ℕ}
    (P : Measure ((Fin dx → ℝ) × (Fin dy → ℝ))) (hP : Correct R κ base dx dy P) (tx ty : Transform) (ax ay : ℤ)
    (f : (Fin dx → ℝ) → (Fin ex → ℝ)) (g : (Fin dy → ℝ) → (Fin ey → ℝ)) (hf : Measurable f) (hg : Measurable g)
    (htx : Acts tx f) (hty : Acts ty g) (h : transformed base tx ty ax ay = .ok s) :
    HasLaw κ s (P.map (Prod.map f g)) ∧ SeedsAreKeys R s := by
  have hp := hP.prob
  obtain ⟨_, _, _, _, _, _, _, _, rfl⟩ := transformed_inv h
  constructor
  · intro n
    obtain ⟨draw, m, e, l⟩ := hP.law n
    have hfg : Measurable (Prod.map f g) := hf.prodMap hg
    have hfg' : Measurable (fun (z : Fin n → (Fin dx → ℝ) × (Fin dy → ℝ)) i => Prod.map f g (z i)) :=
      measurable_pi_lambda _ fun i => hfg.comp (measurable_pi_apply i)
    have : IsProbabilityMeasure (P.map (Prod.map f g)) := Measure.isProbabilityMeasure_map hfg.aemeasurable
    refine ⟨fun k i => Prod.map f g (draw k i), hfg'.comp m, fun k => ?_, ?_⟩
    · simp only [e k]
      show Except.ok _ = _
      rw [htx, hty]
      rfl
    · have h2 := Measure.pi_map_pi (μ := fun _ : Fin n => P) (f := fun _ => Prod.map f g)
        (fun _ => hfg.aemeasurable)
      rw [← h2, ← l, Measure.map_map hfg' m]
      rfl
  · intro n z
    simp only [hP.seeds n z]

/-- **C07**: a transformed sampler reports the base sampler's number.  If the base sampler is correct with law `P`
and the transforms act on rows as measurable maps that are injective on sets of full probability, then the
transformed sampler is correct: its samples are independent draws of `(f X, g Y)`, and the reported number is the
mutual information of that pair. -/
theorem transformed_correct [MeasurableSpace Key] (R : JaxRandom Key) (κ : Measure Key) [IsProbabilityMeasure κ]
    (base : Sampler Key) {dx dy ex ey : ℕ} (P : Measure ((Fin dx → ℝ) × (Fin dy → ℝ)))
    (hP : Correct R κ base dx dy P) (tx ty : Transform) (ax ay : ℤ) (hax : 0 ≤ ax) (hay : 0 ≤ ay)
    (hex : (ex : ℤ) = dx + ax) (hey : (ey : ℤ) = dy + ay)
    (f : (Fin dx → ℝ) → (Fin ex → ℝ)) (g : (Fin dy → ℝ) → (Fin ey → ℝ)) (hf : Measurable f) (hg : Measurable g)
    (htx : Acts tx f) (hty : Acts ty g) (S : Set (Fin dx → ℝ)) (T : Set (Fin dy → ℝ)) (hS : MeasurableSet S)
    (hT : MeasurableSet T) (hPS : ∀ᵐ x ∂P.fst, x ∈ S) (hPT : ∀ᵐ y ∂P.snd, y ∈ T) (hfS : Set.InjOn f S)
    (hgT : Set.InjOn g T) :
    ∃ s, transformed base tx ty ax ay = .ok s ∧ s.mi = base.mi ∧
      Correct R κ s ex ey (P.map (Prod.map f g)) := by
  obtain ⟨s, hs, hw⟩ := transformed_wellShaped base tx ty ax ay dx dy ex ey hP.shape hax hay hex hey htx.reshapes
    hty.reshapes
  have hp := hP.prob
  obtain ⟨h1, h2⟩ := transformed_law R κ base s P hP tx ty ax ay f g hf hg htx hty hs
  have hmi : s.mi = base.mi := by
    obtain ⟨_, _, _, _, _, _, _, _, rfl⟩ := transformed_inv hs
    rfl
  refine ⟨s, hs, hmi, Measure.isProbabilityMeasure_map (hf.prodMap hg).aemeasurable, hw, h2, h1, ?_, ?_⟩
  · rw [hmi]; exact hP.nonneg
  · rw [hmi, ← hP.mi]
    exact mutualInfo_map_eq_of_injOn P hf hg hS hT hPS hPT hfS hgT

/-- A function applied to every coordinate. -/
theorem acts_map (d : ℕ) (g : ℝ → ℝ) : Acts (.row (List.map g)) (d := d) fun v i => g (v i) := by
  intro n a
  exact rowsOf_map a (List.map g) (fun v i => g (v i)) fun v => by rw [List.map_ofFn]; rfl

/-- The additive uniform sampler with `x` replaced by `exp x` and `y` kept. -/
example : ∃ base s, additiveUniform tree 0.75 = .ok base ∧
    transformed base (.row (List.map Real.exp)) .none 0 0 = .ok s ∧ s.mi = base.mi ∧
    Correct tree treeLaw s 1 1
      ((liftPair (uniformNoiseLaw 0.75)).map (Prod.map (fun v i => Real.exp (v i)) id)) := by
  have := tree_ideal.prob
  obtain ⟨base, h1, h2⟩ := additiveUniform_correct tree treeLaw tree_ideal 0.75 (by norm_num)
  obtain ⟨s, h3, h4, h5⟩ := transformed_correct tree treeLaw base _ h2 (.row (List.map Real.exp)) .none 0 0 le_rfl le_rfl
    (by norm_num) (by norm_num) (fun v i => Real.exp (v i)) id (by fun_prop) measurable_id (acts_map 1 Real.exp) (fun n a => rfl)
    Set.univ Set.univ MeasurableSet.univ MeasurableSet.univ (by simp) (by simp)
    (fun x _ y _ h => funext fun i => Real.exp_injective (congrFun h i)) Function.injective_id.injOn
  exact ⟨base, s, h1, h3, h4, h5⟩

/-- **C07**: for arbitrary measurable transforms, the reported number is an upper bound on the mutual information of
the transformed pair. -/
theorem transformed_upper_bound [MeasurableSpace Key] (R : JaxRandom Key) (κ : Measure Key) [IsProbabilityMeasure κ]
    (base s : Sampler Key) {dx dy ex ey : ℕ} (P : Measure ((Fin dx → ℝ) × (Fin dy → ℝ)))
    (hP : Correct R κ base dx dy P) (tx ty : Transform) (ax ay : ℤ)
    (f : (Fin dx → ℝ) → (Fin ex → ℝ)) (g : (Fin dy → ℝ) → (Fin ey → ℝ)) (hf : Measurable f) (hg : Measurable g)
    (htx : Acts tx f) (hty : Acts ty g) (hs : transformed base tx ty ax ay = .ok s) :
    HasLaw κ s (P.map (Prod.map f g)) ∧ mutualInfo (P.map (Prod.map f g)) ≤ ENNReal.ofReal s.mi := by
  have hp := hP.prob
  obtain ⟨h1, _⟩ := transformed_law R κ base s P hP tx ty ax ay f g hf hg htx hty hs
  have hmi : s.mi = base.mi := by
    obtain ⟨_, _, _, _, _, _, _, _, rfl⟩ := transformed_inv hs
    rfl
  exact ⟨h1, by rw [hmi, ← hP.mi]; exact mutualInfo_map_le P hf hg⟩

/-- Replacing `x` by its absolute value. -/
example : ∃ base s, additiveUniform tree 0.75 = .ok base ∧
    transformed base (.row (List.map abs)) .none 0 0 = .ok s ∧
    mutualInfo ((liftPair (uniformNoiseLaw 0.75)).map (Prod.map (fun v i => |v i|) id)) ≤ ENNReal.ofReal s.mi := by
  have := tree_ideal.prob
  obtain ⟨base, h1, h2⟩ := additiveUniform_correct tree treeLaw tree_ideal 0.75 (by norm_num)
  obtain ⟨p1, p2, d1, d2, _⟩ := h2.shape
  have h3 := transformed_of (tx := .row (List.map abs)) (ty := .none) (ax := 0) (ay := 0) le_rfl le_rfl d1 d2 p1 p2
  exact ⟨base, _, h1, h3, (transformed_upper_bound tree treeLaw base _ _ h2 _ _ _ _ (fun v i => |v i|) id
    (by fun_prop) measurable_id
    (acts_map 1 abs) (fun n a => rfl) h3).2⟩

/-- **C07**: negative `add_dim_x` or `add_dim_y` is rejected. -/
theorem transformed_rejects (base : Sampler Key) (tx ty : Transform) (ax ay : ℤ) (h : ax < 0 ∨ ay < 0) :
    transformed base tx ty ax ay = .error .valueError := by
  unfold transformed
  rw [if_pos h]

/-! ## C08: concatenations -/

/-- **C08**: the concatenation of correct samplers is correct for the law of independent concatenated pairs, and
reports the sum of the parts' numbers, which is therefore the mutual information of that law.  Its dimensions are the
sums of the parts' dimensions. -/
theorem concatenation_correct [MeasurableSpace Key] (R : JaxRandom Key) (κ : Measure Key) [IsProbabilityMeasure κ]
    (hsplit : IdealSplit R κ) (ss : List (Sampler Key)) (ps : List Part) (hne : ss ≠ [])
    (h : List.Forall₂ (fun s p => Correct R κ s p.dx p.dy p.law) ss ps) :
    ∃ s, concatenation R ss = .ok s ∧ s.mi = (ss.map (·.mi)).sum ∧
      s.dimX = .ok (ps.map (·.dx)).sum ∧ s.dimY = .ok (ps.map (·.dy)).sum ∧
      Correct R κ s (independent ps).dx (independent ps).dy (independent ps).law := by
  obtain ⟨s, hs, hw⟩ := concatenation_wellShaped R ss (ps.map fun p => (p.dx, p.dy)) hne (by
    rw [List.forall₂_map_right_iff]
    exact h.imp fun _ _ hh => hh.shape)
  simp only [List.map_map] at hw
  obtain ⟨d1, d2⟩ := independent_dims ps
  have hw' : WellShaped s (independent ps).dx (independent ps).dy := by
    rw [d1, d2]
    exact hw
  have hprob : ∀ p ∈ ps, IsProbabilityMeasure p.law := by
    clear hs hw hw' d1 d2 hne
    induction h with
    | nil => simp
    | cons h _ ih =>
      intro q hq
      rcases List.mem_cons.1 hq with rfl | hq
      exacts [h.prob, ih q hq]
  have hsum : 0 ≤ (ss.map (·.mi)).sum ∧
      (ps.map fun p => mutualInfo p.law).sum = ENNReal.ofReal (ss.map (·.mi)).sum := by
    clear hs hw hw' d1 d2 hne hprob
    induction h with
    | nil => simp
    | cons h _ ih =>
      simp only [List.map_cons, List.sum_cons]
      exact ⟨add_nonneg h.nonneg ih.1, by rw [ih.2, h.mi, ENNReal.ofReal_add h.nonneg ih.1]⟩
  obtain ⟨_, _, _, _, _, _, rfl⟩ := concatenation_inv hs
  refine ⟨_, hs, rfl, hw.2.2.1, hw.2.2.2.1, independent_prob ps hprob, hw', fun _ _ => rfl, ?_, hsum.1, ?_⟩
  · intro n
    obtain ⟨draw, m, e, l⟩ := sampleAll_law κ n ss ps (h.imp fun _ _ hh => ⟨hh.prob, hh.law⟩)
    obtain ⟨ms, ls⟩ := hsplit ss.length
    refine ⟨fun k => draw (R.split k ss.length), m.comp ms, fun k => ?_, ?_⟩
    · obtain ⟨xs, ys, h1, h2, h3, h4, h5, h6, h7⟩ := e (R.split k ss.length)
      have nex : xs ≠ [] := by rintro rfl; exact hne (List.length_eq_zero_iff.1 h2.symm)
      have ney : ys ≠ [] := by rintro rfl; exact hne (List.length_eq_zero_iff.1 h3.symm)
      show (Except.bind (sampleAll n ((List.ofFn (R.split k ss.length)).zip ss)) fun parts =>
        Except.bind (hstack parts.1) fun x => Except.bind (hstack parts.2) fun y => Except.ok (x, y)) = _
      rw [h1]
      show (Except.bind (hstack xs) fun x => Except.bind (hstack ys) fun y => Except.ok (x, y)) = _
      rw [hstack_eq n xs nex h4, hstack_eq n ys ney h5, h6, h7]
      rfl
    · rw [← l, ← ls, Measure.map_map m ms]
      rfl
  · rw [mutualInfo_independent ps hprob, hsum.2]

/-- Two additive uniform samplers. -/
example : ∃ a b s, additiveUniform tree 0.75 = .ok a ∧ additiveUniform tree 0.1 = .ok b ∧
    concatenation tree [a, b] = .ok s ∧ s.mi = a.mi + b.mi ∧ s.dimX = .ok 2 := by
  have := tree_ideal.prob
  obtain ⟨a, h1, h2⟩ := additiveUniform_correct tree treeLaw tree_ideal 0.75 (by norm_num)
  obtain ⟨b, h3, h4⟩ := additiveUniform_correct tree treeLaw tree_ideal 0.1 (by norm_num)
  obtain ⟨s, h5, h6, h7, _⟩ := concatenation_correct tree treeLaw tree_ideal.split [a, b] [⟨1, 1, _⟩, ⟨1, 1, _⟩]
    (by simp) (.cons h2 (.cons h4 .nil))
  exact ⟨a, b, s, h1, h3, h5, by simpa using h6, h7⟩

/-- **C08**: an empty list of samplers is rejected. -/
theorem concatenation_nil (R : JaxRandom Key) : concatenation R [] = .error .valueError := rfl

end BMI.Samplers
