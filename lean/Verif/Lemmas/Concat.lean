import Verif.Lemmas.Samplers

/-! The law of a concatenation, by induction over the list of samplers. -/

namespace BMI.Samplers

open MeasureTheory

variable {Key : Type}

theorem measure_eq_of_subsingleton {Ω : Type*} [MeasurableSpace Ω] [Subsingleton Ω] (μ ν : Measure Ω)
    [IsProbabilityMeasure μ] [IsProbabilityMeasure ν] : μ = ν := by
  ext s _
  rcases s.eq_empty_or_nonempty with rfl | h
  · simp
  · rw [Subsingleton.eq_univ_of_nonempty h, measure_univ, measure_univ]

theorem independent_prob (ps : List Part) (h : ∀ p ∈ ps, IsProbabilityMeasure p.law) :
    IsProbabilityMeasure (independent ps).law := by
  induction ps with
  | nil => exact Measure.dirac.isProbabilityMeasure
  | cons p ps ih =>
    have h1 := h p List.mem_cons_self
    have h2 := ih fun q hq => h q (List.mem_cons_of_mem _ hq)
    exact Measure.isProbabilityMeasure_map measurable_joinPair.aemeasurable

theorem independent_dims (ps : List Part) :
    (independent ps).dx = (ps.map (·.dx)).sum ∧ (independent ps).dy = (ps.map (·.dy)).sum := by
  induction ps with
  | nil => exact ⟨rfl, rfl⟩
  | cons p ps ih => exact ⟨by simp [independent, ih.1], by simp [independent, ih.2]⟩

theorem mutualInfo_independent (ps : List Part) (h : ∀ p ∈ ps, IsProbabilityMeasure p.law) :
    mutualInfo (independent ps).law = (ps.map fun p => mutualInfo p.law).sum := by
  induction ps with
  | nil =>
    show mutualInfo (Measure.dirac (Fin.elim0, Fin.elim0) : Measure ((Fin 0 → ℝ) × (Fin 0 → ℝ))) = 0
    rw [measure_eq_of_subsingleton (Measure.dirac (Fin.elim0, Fin.elim0) : Measure ((Fin 0 → ℝ) × (Fin 0 → ℝ)))
      ((Measure.dirac Fin.elim0).prod (Measure.dirac Fin.elim0)), mutualInfo_prod]
  | cons p ps ih =>
    have h1 := h p List.mem_cons_self
    have h2 := fun q hq => h q (List.mem_cons_of_mem p hq)
    have h3 := independent_prob ps h2
    rw [List.map_cons, List.sum_cons, ← ih h2]
    exact mutualInfo_joinPair p.law (independent ps).law

/-- Shapes only: the loop over the parts. -/
theorem sampleAll_shape (n : ℕ) (ks : List Key) (ss : List (Sampler Key)) (ds : List (ℕ × ℕ))
    (h : List.Forall₂ (fun s d => WellShaped s d.1 d.2) ss ds) (hk : ks.length = ss.length) :
    ∃ xs ys, sampleAll n (ks.zip ss) = .ok (xs, ys) ∧ xs.length = ss.length ∧ ys.length = ss.length ∧
      (∀ a ∈ xs, a.length = n) ∧ (∀ a ∈ ys, a.length = n) ∧
      (∀ r ∈ hstackN n xs, r.length = (ds.map (·.1)).sum) ∧ (∀ r ∈ hstackN n ys, r.length = (ds.map (·.2)).sum) := by
  have hcatlen : ∀ (a b : Arr) (p q : ℕ), (∀ r ∈ a, r.length = p) → (∀ r ∈ b, r.length = q) →
      ∀ r ∈ hcat a b, r.length = p + q := by
    intro a b p q ha hb r hr
    unfold hcat at hr
    rw [List.mem_iff_getElem] at hr
    obtain ⟨i, hi, rfl⟩ := hr
    rw [List.getElem_zipWith, List.length_append, ha _ (List.getElem_mem _), hb _ (List.getElem_mem _)]
  induction h generalizing ks with
  | nil =>
    refine ⟨[], [], by simp [sampleAll], rfl, rfl, by simp, by simp, ?_, ?_⟩
    all_goals
      intro r hr
      simp only [hstackN, List.foldr] at hr
      rw [List.eq_of_mem_replicate hr]
      rfl
  | @cons s d ss ds hs _ ih =>
    cases ks with
    | nil => simp at hk
    | cons k ks =>
      obtain ⟨xs, ys, h1, h2, h3, h4, h5, h6, h7⟩ := ih ks (by simpa using hk)
      obtain ⟨x, y, g1, g2, g3, g4, g5⟩ := hs.2.2.2.2 n (.key k)
      refine ⟨x :: xs, y :: ys, ?_, by simp [h2], by simp [h3], ?_, ?_, ?_, ?_⟩
      · simp only [List.zip_cons_cons, sampleAll, g1, h1]
        rfl
      · intro a ha
        rcases List.mem_cons.1 ha with rfl | ha
        exacts [g2, h4 a ha]
      · intro a ha
        rcases List.mem_cons.1 ha with rfl | ha
        exacts [g3, h5 a ha]
      · exact hcatlen x (hstackN n xs) _ _ g4 h6
      · exact hcatlen y (hstackN n ys) _ _ g5 h7

/-- The loop over the parts, with independent keys, draws from the law of the concatenation. -/
theorem sampleAll_law [MeasurableSpace Key] (κ : Measure Key) [IsProbabilityMeasure κ] (n : ℕ)
    (ss : List (Sampler Key)) (ps : List Part)
    (h : List.Forall₂ (fun s p => IsProbabilityMeasure p.law ∧ HasLaw κ s p.law) ss ps) :
    ∃ draw : (Fin ss.length → Key) → Fin n → (Fin (independent ps).dx → ℝ) × (Fin (independent ps).dy → ℝ),
      Measurable draw ∧
      (∀ ks, ∃ xs ys, sampleAll n ((List.ofFn ks).zip ss) = .ok (xs, ys) ∧
        xs.length = ss.length ∧ ys.length = ss.length ∧
        (∀ a ∈ xs, a.length = n) ∧ (∀ a ∈ ys, a.length = n) ∧
        hstackN n xs = rowsOf (fun i => (draw ks i).1) ∧ hstackN n ys = rowsOf (fun i => (draw ks i).2)) ∧
      (Measure.pi fun _ => κ).map draw = Measure.pi fun _ => (independent ps).law := by
  induction h with
  | nil =>
    refine ⟨fun _ _ => (Fin.elim0, Fin.elim0), measurable_const, ?_, ?_⟩
    · intro ks
      refine ⟨[], [], by simp [sampleAll], rfl, rfl, by simp, by simp, ?_, ?_⟩
      all_goals
        simp only [hstackN, rowsOf, List.ofFn_const, List.foldr]
        congr 1
    · have h1 : IsProbabilityMeasure (independent []).law := independent_prob [] (by simp)
      have h2 : IsProbabilityMeasure ((Measure.pi fun _ : Fin ([] : List (Sampler Key)).length => κ).map
          (fun (_ : Fin ([] : List (Sampler Key)).length → Key) (_ : Fin n) =>
            ((Fin.elim0, Fin.elim0) : (Fin 0 → ℝ) × (Fin 0 → ℝ)))) :=
        Measure.isProbabilityMeasure_map measurable_const.aemeasurable
      have h3 : IsProbabilityMeasure (Measure.pi fun _ : Fin n => (independent []).law) := inferInstance
      have h4 : Subsingleton (Fin n → (Fin 0 → ℝ) × (Fin 0 → ℝ)) := inferInstance
      exact @measure_eq_of_subsingleton (Fin n → (Fin 0 → ℝ) × (Fin 0 → ℝ)) _ h4 _ _ h2 h3
  | @cons s p ss ps hs hrest ih =>
    obtain ⟨hp, hs⟩ := hs
    obtain ⟨d2, m2, e2, l2⟩ := ih
    obtain ⟨d1, m1, e1, l1⟩ := hs n
    have hps : IsProbabilityMeasure (independent ps).law := by
      refine independent_prob ps ?_
      clear e2 l2 m2 d2
      induction hrest with
      | nil => simp
      | cons h _ ih =>
        intro q hq
        rcases List.mem_cons.1 hq with rfl | hq
        exacts [h.1, ih q hq]
    let e := MeasurableEquiv.piFinSuccAbove (fun _ : Fin (ss.length + 1) => Key) 0
    have he : ∀ ks, e ks = (ks 0, fun i => ks i.succ) := fun ks => rfl
    have hpres : MeasurePreserving e (Measure.pi fun _ => κ) (κ.prod (Measure.pi fun _ => κ)) :=
      measurePreserving_piFinSuccAbove (fun _ => κ) 0
    have hj : Measurable (fun (z : (Fin n → _) × (Fin n → _)) (i : Fin n) =>
        (joinPair (z.1 i, z.2 i) : (Fin (independent (p :: ps)).dx → ℝ) × (Fin (independent (p :: ps)).dy → ℝ))) := by
      refine measurable_pi_lambda _ fun i => measurable_joinPair.comp ?_
      exact ((measurable_pi_apply i).comp measurable_fst).prodMk ((measurable_pi_apply i).comp measurable_snd)
    refine ⟨fun ks i => joinPair (d1 (ks 0) i, d2 (fun j => ks j.succ) i), ?_, ?_, ?_⟩
    · exact hj.comp ((m1.prodMap m2).comp hpres.measurable)
    · intro ks
      obtain ⟨xs, ys, h1, h2, h3, h4, h5, h6, h7⟩ := e2 (fun j => ks j.succ)
      refine ⟨rowsOf (fun i => (d1 (ks 0) i).1) :: xs, rowsOf (fun i => (d1 (ks 0) i).2) :: ys, ?_, by simp [h2], by simp [h3], ?_, ?_, ?_, ?_⟩
      · have hz : (List.ofFn ks).zip (s :: ss) = (ks 0, s) :: (List.ofFn fun j => ks j.succ).zip ss := by
          have : List.ofFn ks = ks 0 :: List.ofFn fun j => ks j.succ := List.ofFn_succ (n := ss.length)
          rw [this, List.zip_cons_cons]
        rw [hz]
        simp only [sampleAll, e1 (ks 0), h1]
        rfl
      · intro a ha
        rcases List.mem_cons.1 ha with rfl | ha
        exacts [length_rowsOf _, h4 a ha]
      · intro a ha
        rcases List.mem_cons.1 ha with rfl | ha
        exacts [length_rowsOf _, h5 a ha]
      · show hcat _ (hstackN n xs) = _
        rw [h6, hcat_rowsOf]
        rfl
      · show hcat _ (hstackN n ys) = _
        rw [h7, hcat_rowsOf]
        rfl
    · show Measure.map ((fun (z : (Fin n → (Fin p.dx → ℝ) × (Fin p.dy → ℝ)) × (Fin n → _)) (i : Fin n) =>
          joinPair (z.1 i, z.2 i)) ∘ (Prod.map d1 d2) ∘ e) (Measure.pi fun _ : Fin (ss.length + 1) => κ)
        = Measure.pi fun _ => (p.law.prod (independent ps).law).map joinPair
      rw [← Measure.map_map hj ((m1.prodMap m2).comp hpres.measurable),
        ← Measure.map_map (m1.prodMap m2) hpres.measurable, hpres.map_eq,
        ← Measure.map_prod_map _ _ m1 m2, l1, l2]
      exact pi_join p.law (independent ps).law

end BMI.Samplers
