import Verif.Lemmas.BmmTransform
import Mathlib.Probability.ProductMeasure

/-! Mixtures and products of distributions. -/

namespace BMI.Bmm

open MeasureTheory ProbabilityTheory BMI.Samplers

variable {Key : Type} [MeasurableSpace Key]

/-- Exchanging the order of two finite products. -/
theorem pi_swap {Ω : Type} [MeasurableSpace Ω] {m n : ℕ} (μ : Fin m → Measure Ω) [∀ j, IsProbabilityMeasure (μ j)] :
    (Measure.pi fun j : Fin m => Measure.pi fun _ : Fin n => μ j).map (fun z i j => z j i)
      = Measure.pi fun _ : Fin n => Measure.pi fun j : Fin m => μ j := by
  have hc : (Measure.pi fun p : Fin m × Fin n => μ p.1).map (fun z j i => z (j, i))
      = Measure.pi fun j : Fin m => Measure.pi fun _ : Fin n => μ j := by
    have := Measure.infinitePi_map_curry (fun (j : Fin m) (_ : Fin n) => μ j)
    simp only [Measure.infinitePi_eq_pi] at this
    exact this
  have hc' : (Measure.pi fun p : Fin n × Fin m => μ p.2).map (fun z i j => z (i, j))
      = Measure.pi fun _ : Fin n => Measure.pi fun j : Fin m => μ j := by
    have := Measure.infinitePi_map_curry (fun (_ : Fin n) (j : Fin m) => μ j)
    simp only [Measure.infinitePi_eq_pi] at this
    exact this
  have hs : (Measure.pi fun p : Fin m × Fin n => μ p.1).map (fun z (q : Fin n × Fin m) => z (q.2, q.1))
      = Measure.pi fun p : Fin n × Fin m => μ p.2 := by
    have hm : Measurable fun (z : Fin m × Fin n → Ω) (q : Fin n × Fin m) => z (q.2, q.1) := by fun_prop
    refine (Measure.pi_eq fun s hs => ?_).symm
    rw [Measure.map_apply hm (MeasurableSet.univ_pi hs)]
    have : (fun (z : Fin m × Fin n → Ω) (q : Fin n × Fin m) => z (q.2, q.1)) ⁻¹' Set.univ.pi s
        = Set.univ.pi fun p : Fin m × Fin n => s (p.2, p.1) := by
      ext z
      simp only [Set.mem_preimage, Set.mem_pi, Set.mem_univ, true_imp_iff]
      exact ⟨fun h p => h (p.2, p.1), fun h q => h (q.2, q.1)⟩
    rw [this, Measure.pi_pi]
    exact Fintype.prod_equiv (Equiv.prodComm _ _) _ _ fun p => rfl
  rw [← hc, ← hc', ← hs, Measure.map_map (by fun_prop) (by fun_prop), Measure.map_map (by fun_prop) (by fun_prop)]
  rfl

theorem sum_ofFn_ofReal {m : ℕ} {p : Fin m → ℝ} (h0 : ∀ j, 0 ≤ p j) (h1 : (List.ofFn p).sum = 1) :
    ∑ j, ENNReal.ofReal (p j) = 1 := by
  rw [← ENNReal.ofReal_sum_of_nonneg fun j _ => h0 j, ← List.sum_ofFn, h1, ENNReal.ofReal_one]

theorem mixtureLaw_prob {Ω : Type} [MeasurableSpace Ω] {m : ℕ} {p : Fin m → ℝ} (h0 : ∀ j, 0 ≤ p j)
    (h1 : (List.ofFn p).sum = 1) (μ : Fin m → Measure Ω) [∀ j, IsProbabilityMeasure (μ j)] :
    IsProbabilityMeasure (mixtureLaw p μ) := by
  constructor
  unfold mixtureLaw
  simp [Measure.finset_sum_apply, sum_ofFn_ofReal h0 h1]

theorem mixtureLaw_map {Ω Ω' : Type} [MeasurableSpace Ω] [MeasurableSpace Ω'] {m : ℕ} (p : Fin m → ℝ)
    (μ : Fin m → Measure Ω) {f : Ω → Ω'} (hf : Measurable f) :
    (mixtureLaw p μ).map f = mixtureLaw p fun j => (μ j).map f := by
  refine Measure.ext fun s hs => ?_
  unfold mixtureLaw
  simp [Measure.finset_sum_apply, Measure.map_apply hf hs, Measure.map_apply hf hs]

theorem categoricalLaw_ofFn {m : ℕ} (p : Fin m → ℝ) :
    categoricalLaw (List.ofFn p) = ∑ j, ENNReal.ofReal (p j) • Measure.dirac j.val := by
  unfold categoricalLaw
  refine Fintype.sum_equiv (finCongr (List.length_ofFn (f := p))) _ _ fun j => ?_
  simp
  rfl

theorem categoricalLaw_prob {m : ℕ} {p : Fin m → ℝ} (h0 : ∀ j, 0 ≤ p j) (h1 : (List.ofFn p).sum = 1) :
    IsProbabilityMeasure (categoricalLaw (List.ofFn p)) := by
  rw [categoricalLaw_ofFn]
  exact mixtureLaw_prob h0 h1 fun j => Measure.dirac j.val

/-- Picking the entry selected by an index. -/
def pick {Ω : Type} {m : ℕ} (hm : 0 < m) (w : ℕ × (Fin m → Ω)) : Ω := w.2 ⟨w.1 % m, Nat.mod_lt _ hm⟩

theorem measurable_pick {Ω : Type} [MeasurableSpace Ω] {m : ℕ} (hm : 0 < m) :
    Measurable (pick hm : ℕ × (Fin m → Ω) → Ω) :=
  measurable_from_prod_countable_right fun c => measurable_pi_apply (⟨c % m, Nat.mod_lt _ hm⟩ : Fin m)

theorem pick_law {Ω : Type} [MeasurableSpace Ω] {m : ℕ} (hm : 0 < m) {p : Fin m → ℝ} (h0 : ∀ j, 0 ≤ p j)
    (h1 : (List.ofFn p).sum = 1) (μ : Fin m → Measure Ω) [∀ j, IsProbabilityMeasure (μ j)] :
    ((categoricalLaw (List.ofFn p)).prod (Measure.pi μ)).map (pick hm) = mixtureLaw p μ := by
  haveI := categoricalLaw_prob h0 h1
  refine Measure.ext fun s hs => ?_
  have hp := measurable_pick (Ω := Ω) hm
  rw [Measure.map_apply hp hs, Measure.prod_apply (hp hs), categoricalLaw_ofFn, lintegral_finset_sum_measure]
  unfold mixtureLaw
  rw [Measure.finset_sum_apply]
  refine Finset.sum_congr rfl fun j _ => ?_
  rw [lintegral_smul_measure, lintegral_dirac, Measure.smul_apply]
  congr 1
  have : Prod.mk j.val ⁻¹' (pick hm ⁻¹' s) = Function.eval j ⁻¹' s := by
    ext z
    simp [pick, Nat.mod_eq_of_lt j.2]
  rw [this]
  exact (measurePreserving_eval μ j).measure_preimage hs.nullMeasurableSet

/-- The components, each drawn `n` times, and the `n` selected indices. -/
theorem select_law {Ω : Type} [MeasurableSpace Ω] {m n : ℕ} (hm : 0 < m) {p : Fin m → ℝ} (h0 : ∀ j, 0 ≤ p j)
    (h1 : (List.ofFn p).sum = 1) (μ : Fin m → Measure Ω) [∀ j, IsProbabilityMeasure (μ j)] :
    ((Measure.pi fun _ : Fin n => categoricalLaw (List.ofFn p)).prod
        (Measure.pi fun j : Fin m => Measure.pi fun _ : Fin n => μ j)).map
          (fun w i => pick hm (w.1 i, fun j => w.2 j i))
      = Measure.pi fun _ : Fin n => mixtureLaw p μ := by
  haveI := categoricalLaw_prob h0 h1
  haveI := mixtureLaw_prob h0 h1 μ
  have hp := measurable_pick (Ω := Ω) hm
  have hsw : Measurable fun (z : Fin m → Fin n → Ω) (i : Fin n) (j : Fin m) => z j i := by fun_prop
  have e1 : (Measure.pi fun _ : Fin n => categoricalLaw (List.ofFn p)).prod
        (Measure.pi fun _ : Fin n => Measure.pi fun j : Fin m => μ j)
      = ((Measure.pi fun _ : Fin n => categoricalLaw (List.ofFn p)).prod
        (Measure.pi fun j : Fin m => Measure.pi fun _ : Fin n => μ j)).map (Prod.map id fun z i j => z j i) := by
    rw [← pi_swap μ, ← Measure.map_prod_map _ _ measurable_id hsw, Measure.map_id]
  have h3 := (measurePreserving_arrowProdEquivProdArrow ℕ (Fin m → Ω) (Fin n)
    (fun _ => categoricalLaw (List.ofFn p)) (fun _ => Measure.pi μ)).symm
  have hq : IsProbabilityMeasure (((categoricalLaw (List.ofFn p)).prod (Measure.pi μ)).map (pick hm)) :=
    Measure.isProbabilityMeasure_map hp.aemeasurable
  have h4 := Measure.pi_map_pi (μ := fun _ : Fin n => (categoricalLaw (List.ofFn p)).prod (Measure.pi μ))
    (f := fun _ => pick hm) (fun _ => hp.aemeasurable)
  have hpp : Measurable fun (x : Fin n → ℕ × (Fin m → Ω)) i => pick hm (x i) :=
    measurable_pi_lambda _ fun i => hp.comp (measurable_pi_apply i)
  rw [← h3.map_eq, e1, Measure.map_map hpp h3.measurable, Measure.map_map (hpp.comp h3.measurable)
    (measurable_id.prodMap hsw)] at h4
  simp only [pick_law hm h0 h1] at h4
  exact h4

theorem getD_of_lt {α : Type} (l : List α) (a : α) {i : ℕ} (h : i < l.length) : l.getD i a = l[i] := by
  rw [List.getD_eq_getElem?_getD, List.getElem?_eq_getElem h, Option.getD_some]

theorem Represents.measurable_exp {κ : Measure Key} {D : Dist Key} {d : ℕ} {Ω : Type} [MeasurableSpace Ω]
    {e : Ω → List ℝ} {base μ : Measure Ω} (h : Represents κ D d e base μ) :
    AEMeasurable (fun z => (D.logProb (e z)).exp) base := EReal.measurable_exp.comp_aemeasurable h.measurable

theorem zipWith_ofFn_sum {m : ℕ} {α β : Type} (f : α → β → ENNReal) (a : Fin m → α) (b : Fin m → β) :
    (List.zipWith f (List.ofFn a) (List.ofFn b)).sum = ∑ j, f (a j) (b j) := by
  rw [zipWith_ofFn, List.sum_ofFn]

/-- The density of a mixture. -/
theorem mixture_exp (T : Tfp Key) {m : ℕ} (p : Fin m → ℝ) (D : Fin m → Dist Key) (z : List ℝ) :
    ((tfdMixture T (List.ofFn p) (List.ofFn D)).logProb z).exp
      = ∑ j, ENNReal.ofReal (p j) * ((D j).logProb z).exp := by
  show (ENNReal.log _).exp = _
  rw [ENNReal.exp_log, zipWith_ofFn_sum]
  refine Finset.sum_congr rfl fun j _ => ?_
  rw [EReal.exp_add, ENNReal.exp_log]

/-- A mixture of distributions that stand for laws stands for the mixture of the laws. -/
theorem mixture_represents {T : Tfp Key} {κ : Measure Key} (hT : IdealTfp T κ) {Ω : Type} [MeasurableSpace Ω] {m d : ℕ}
    {e : Ω → List ℝ} {base : Measure Ω} {p : Fin m → ℝ} (h0 : ∀ j, 0 ≤ p j) (h1 : (List.ofFn p).sum = 1)
    {D : Fin m → Dist Key} {μ : Fin m → Measure Ω} [∀ j, IsProbabilityMeasure (μ j)]
    (hD : ∀ j, Represents κ (D j) d e base (μ j)) :
    Represents κ (tfdMixture T (List.ofFn p) (List.ofFn D)) d e base (mixtureLaw p μ) := by
  haveI := hT.prob
  have hm : 0 < m := by
    rcases Nat.eq_zero_or_pos m with rfl | h
    · simp at h1
    · exact h
  refine ⟨?_, fun n => ?_, ?_, ?_⟩
  · show ((List.ofFn D).map Dist.eventShape).headD [] = _
    obtain ⟨m, rfl⟩ : ∃ k, m = k + 1 := ⟨m - 1, by omega⟩
    rw [List.ofFn_succ]
    exact (hD 0).shape
  · choose draw hdm hds hdl using fun j => (hD j).law n
    obtain ⟨hs, hsl⟩ := hT.split (m + 1)
    obtain ⟨hc, hcl⟩ := hT.categorical n (List.ofFn p) (by
      intro q hq
      obtain ⟨j, rfl⟩ := (List.mem_ofFn' _ _).1 hq
      exact h0 j) h1
    have hp := measurable_pick (Ω := Ω) hm
    let sel : (Fin n → ℕ) × (Fin m → Fin n → Ω) → Fin n → Ω := fun w i => pick hm (w.1 i, fun j => w.2 j i)
    have hsel : Measurable sel := by
      refine measurable_pi_lambda _ fun i => hp.comp ?_
      refine Measurable.prodMk ?_ ?_
      · exact (measurable_pi_apply i).comp measurable_fst
      · exact measurable_pi_lambda _ fun j => (measurable_pi_apply i).comp ((measurable_pi_apply j).comp measurable_snd)
    let all : (Fin (m + 1) → Key) → (Fin n → ℕ) × (Fin m → Fin n → Ω) := fun ks =>
      (T.categorical (ks 0) n (List.ofFn p), fun j => draw j (ks j.succ))
    have hall : Measurable all := by
      refine Measurable.prodMk (hc.comp (measurable_pi_apply 0)) ?_
      exact measurable_pi_lambda _ fun j => (hdm j).comp (measurable_pi_apply j.succ)
    have hlaw : (Measure.pi fun _ : Fin (m + 1) => κ).map all
        = (Measure.pi fun _ : Fin n => categoricalLaw (List.ofFn p)).prod
          (Measure.pi fun j : Fin m => Measure.pi fun _ : Fin n => μ j) := by
      have e1 := measurePreserving_piFinSuccAbove (fun _ : Fin (m + 1) => κ) 0
      have hdd : Measurable fun (ks : Fin m → Key) j => draw j (ks j) :=
        measurable_pi_lambda _ fun j => (hdm j).comp (measurable_pi_apply j)
      haveI : ∀ j, IsProbabilityMeasure (κ.map (draw j)) := fun j => Measure.isProbabilityMeasure_map (hdm j).aemeasurable
      have e2 := Measure.pi_map_pi (μ := fun _ : Fin m => κ) (f := draw) (fun j => (hdm j).aemeasurable)
      simp only [hdl] at e2
      haveI := categoricalLaw_prob h0 h1
      rw [← hcl, ← e2, Measure.map_prod_map _ _ hc hdd, ← e1.map_eq, Measure.map_map (hc.prodMap hdd) e1.measurable]
      rfl
    refine ⟨fun k => sel (all (T.split k (m + 1))), hsel.comp (hall.comp hs), fun k => ?_, ?_⟩
    · show (List.ofFn fun i : Fin n => ((List.ofFn fun j : Fin (List.ofFn D).length =>
          (List.ofFn D)[j].sample (T.split k ((List.ofFn D).length + 1) j.succ) n).getD
            (T.categorical (T.split k ((List.ofFn D).length + 1) 0) n (List.ofFn p) i) []).getD i []) = _
      have hlen : (List.ofFn D).length = m := List.length_ofFn
      congr 1
      funext i
      have gen : ∀ (L : List (Dist Key)) (hL : L.length = m) (hLD : ∀ (j : Fin m), L[j.val]'(by omega) = D j),
          ((List.ofFn fun j : Fin L.length => L[j].sample (T.split k (L.length + 1) j.succ) n).getD
            (T.categorical (T.split k (L.length + 1) 0) n (List.ofFn p) i) []).getD i []
          = e (sel (all (T.split k (m + 1))) i) := by
        intro L hL hLD
        subst hL
        have hlt := hT.categorical_lt (T.split k (L.length + 1) 0) n (List.ofFn p) i (by
          intro h
          rw [h] at h1
          simp at h1)
        rw [List.length_ofFn] at hlt
        rw [getD_of_lt (List.ofFn fun j : Fin L.length => L[j].sample (T.split k (L.length + 1) j.succ) n) []
          (by simpa using hlt), List.getElem_ofFn]
        have := hLD ⟨_, hlt⟩
        simp only at this
        simp only [Fin.getElem_fin]
        rw [this, hds, getD_of_lt _ _ (by simp), List.getElem_ofFn]
        congr 1
        simp only [sel, all, pick, Nat.mod_eq_of_lt hlt]
      exact gen (List.ofFn D) hlen fun j => by simp
    · rw [← select_law hm h0 h1 μ, ← hlaw, ← hsl, Measure.map_map hall hs, Measure.map_map hsel (hall.comp hs)]
      rfl
  · have h := mixture_exp T p D
    have : ∀ z, (tfdMixture T (List.ofFn p) (List.ofFn D)).logProb (e z)
        = ENNReal.log (∑ j, ENNReal.ofReal (p j) * ((D j).logProb (e z)).exp) := by
      intro z
      rw [← h, EReal.log_exp]
    simp only [this]
    refine ENNReal.measurable_log.comp_aemeasurable ?_
    refine Finset.aemeasurable_fun_sum _ fun j _ => ?_
    exact (hD j).measurable_exp.const_mul _
  · simp only [mixture_exp]
    refine Measure.ext fun s hs => ?_
    unfold mixtureLaw
    rw [withDensity_apply _ hs, Measure.finset_sum_apply, lintegral_finset_sum']
    · refine Finset.sum_congr rfl fun j _ => ?_
      rw [Measure.smul_apply, smul_eq_mul]
      conv_lhs => rw [(hD j).density]
      rw [withDensity_apply _ hs, lintegral_const_mul'' _
        (hD j).measurable_exp.restrict]
    · intro j _
      exact ((hD j).measurable_exp.const_mul _).restrict

/-- Independent blocks, with densities with respect to any measures. -/
theorem tfdBlockwise_general {T : Tfp Key} {κ : Measure Key} (hT : IdealTfp T κ) {dx dy : ℕ} {D E : Dist Key}
    {bx : Measure (Fin dx → ℝ)} {by' : Measure (Fin dy → ℝ)} [SFinite bx] [SFinite by'] {μ : Measure (Fin dx → ℝ)} {ν : Measure (Fin dy → ℝ)}
    [IsProbabilityMeasure μ] [IsProbabilityMeasure ν]
    (hD : Represents κ D dx List.ofFn bx μ) (hE : Represents κ E dy List.ofFn by' ν) :
    Represents κ (tfdBlockwise T D E) (dx + dy) pairList (bx.prod by') (μ.prod ν) := by
  haveI := hT.prob
  have hlp : ∀ z : (Fin dx → ℝ) × (Fin dy → ℝ), (tfdBlockwise T D E).logProb (pairList z)
      = D.logProb (List.ofFn z.1) + E.logProb (List.ofFn z.2) := by
    intro z
    show D.logProb ((pairList z).take D.eventShape.prod) + E.logProb ((pairList z).drop D.eventShape.prod) = _
    rw [hD.shape]
    simp only [List.prod_cons, List.prod_nil, mul_one]
    rw [take_pairList, drop_pairList]
  have h1 : AEMeasurable (fun z : (Fin dx → ℝ) × (Fin dy → ℝ) => D.logProb (List.ofFn z.1))
      (bx.prod by') := hD.measurable.comp_fst
  have h2 : AEMeasurable (fun z : (Fin dx → ℝ) × (Fin dy → ℝ) => E.logProb (List.ofFn z.2))
      (bx.prod by') := hE.measurable.comp_snd
  refine ⟨?_, fun n => ?_, ?_, ?_⟩
  · show [D.eventShape.prod + E.eventShape.prod] = _
    rw [hD.shape, hE.shape]
    simp
  · obtain ⟨f, f1, f2, f3⟩ := hD.law n
    obtain ⟨g, g1, g2, g3⟩ := hE.law n
    obtain ⟨hs, hsl⟩ := hT.split 2
    have hall : Measurable fun (ks : Fin 2 → Key) (i : Fin n) => (f (ks 0) i, g (ks 1) i) := by
      refine measurable_pi_lambda _ fun i => Measurable.prodMk ?_ ?_
      · exact (measurable_pi_apply i).comp (f1.comp (measurable_pi_apply 0))
      · exact (measurable_pi_apply i).comp (g1.comp (measurable_pi_apply 1))
    refine ⟨fun k i => (f (T.split k 2 0) i, g (T.split k 2 1) i), hall.comp hs, fun k => ?_, ?_⟩
    · show List.zipWith (· ++ ·) (D.sample (T.split k 2 0) n) (E.sample (T.split k 2 1) n) = _
      rw [f2, g2, zipWith_ofFn]
      rfl
    · have e1 := (measurePreserving_arrowProdEquivProdArrow (Fin dx → ℝ) (Fin dy → ℝ) (Fin n)
        (fun _ => μ) (fun _ => ν)).symm
      have e2 := measurePreserving_finTwoArrow κ
      rw [← e1.map_eq, ← f3, ← g3, Measure.map_prod_map _ _ f1 g1, ← e2.map_eq, ← hsl,
        Measure.map_map e2.measurable hs, Measure.map_map (f1.prodMap g1) (e2.measurable.comp hs),
        Measure.map_map e1.measurable ((f1.prodMap g1).comp (e2.measurable.comp hs))]
      rfl
  · simp only [hlp]
    exact h1.add h2
  · simp only [hlp, EReal.exp_add]
    conv_lhs => rw [hD.density, hE.density]
    rw [prod_withDensity₀ hD.measurable_exp
      hE.measurable_exp]

/-- Independent blocks. -/
theorem tfdBlockwise_represents {T : Tfp Key} {κ : Measure Key} (hT : IdealTfp T κ) {dx dy : ℕ} {D E : Dist Key}
    {Sx : Set (Fin dx → ℝ)} {Sy : Set (Fin dy → ℝ)} {μ : Measure (Fin dx → ℝ)} {ν : Measure (Fin dy → ℝ)}
    [IsProbabilityMeasure μ] [IsProbabilityMeasure ν]
    (hD : Represents κ D dx List.ofFn (volume.restrict Sx) μ) (hE : Represents κ E dy List.ofFn (volume.restrict Sy) ν) :
    Represents κ (tfdBlockwise T D E) (dx + dy) pairList (volume.restrict (Sx ×ˢ Sy)) (μ.prod ν) := by
  have := tfdBlockwise_general hT hD hE
  rwa [Measure.prod_restrict] at this

end BMI.Bmm
