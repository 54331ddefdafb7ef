import Verif.Lemmas.Integration
import Verif.Lemmas.InfoNCE
import Verif.Props.Losses

/-! Critics for which the variational bounds are attained. -/

namespace BMI.Neural

open MeasureTheory ProbabilityTheory BMI.Integration

variable {X Y : Type} [MeasurableSpace X] [MeasurableSpace Y] {P : Measure (X × Y)} [IsProbabilityMeasure P] {t f : X → Y → ℝ}

theorem pmi_ae_iff (h : IsPmi P t) {p : X × Y → Prop} : (∀ᵐ z ∂P, p z) ↔ ∀ᵐ z ∂(P.fst.prod P.snd), p z := by
  have hm : AEMeasurable (fun z : X × Y => ENNReal.ofReal (Real.exp (t z.1 z.2))) (P.fst.prod P.snd) :=
    (Real.measurable_exp.comp_aemeasurable h.product.1.aemeasurable).ennreal_ofReal
  conv_lhs => rw [h.density]
  rw [ae_withDensity_iff' hm]
  refine ⟨fun H => H.mono fun z hz => hz (ENNReal.ofReal_pos.2 (Real.exp_pos _)).ne', fun H => H.mono fun z hz _ => hz⟩

/-- Integrals with respect to the joint law and with respect to the product of the marginals. -/
theorem pmi_weight_iff (h : IsPmi P t) {u : X × Y → ℝ} :
    (Integrable u P ↔ Integrable (fun z : X × Y => Real.exp (t z.1 z.2) * u z) (P.fst.prod P.snd)) ∧
    ∫ z, Real.exp (t z.1 z.2) * u z ∂(P.fst.prod P.snd) = ∫ z, u z ∂P := by
  have hm : AEMeasurable (fun z : X × Y => ENNReal.ofReal (Real.exp (t z.1 z.2))) (P.fst.prod P.snd) :=
    (Real.measurable_exp.comp_aemeasurable h.product.1.aemeasurable).ennreal_ofReal
  have e : ∀ z : X × Y, (ENNReal.ofReal (Real.exp (t z.1 z.2))).toReal • u z = Real.exp (t z.1 z.2) * u z := fun z => by
    rw [ENNReal.toReal_ofReal (Real.exp_pos _).le, smul_eq_mul]
  have hfin : ∀ᵐ z ∂(P.fst.prod P.snd), ENNReal.ofReal (Real.exp (t z.1 z.2)) < ⊤ :=
    Filter.Eventually.of_forall fun z => ENNReal.ofReal_lt_top
  refine ⟨?_, ?_⟩
  · have := integrable_withDensity_iff_integrable_smul₀' hm hfin (g := u)
    rw [← h.density] at this
    simpa only [e] using this
  · have := integral_withDensity_eq_integral_toReal_smul₀ hm hfin u
    rw [← h.density] at this
    rw [this]
    simp only [e]

/-- The value of the NWJ functional. -/
theorem nwj_gap (h : IsPmi P t) (hP : Integrable (fun p : X × Y => f p.1 p.2) P)
    (hQ : Integrable (fun p : X × Y => Real.exp (f p.1 p.2)) (P.fst.prod P.snd)) :
    Integrable (fun p : X × Y => Real.exp (f p.1 p.2 - 1 - t p.1 p.2) - 1 - (f p.1 p.2 - 1 - t p.1 p.2)) P ∧
    ∫ p, f p.1 p.2 ∂P - Real.exp (-1) * ∫ p, Real.exp (f p.1 p.2) ∂(P.fst.prod P.snd)
      = (mutualInfo P).toReal - ∫ p, (Real.exp (f p.1 p.2 - 1 - t p.1 p.2) - 1 - (f p.1 p.2 - 1 - t p.1 p.2)) ∂P := by
  have e : ∀ p : X × Y, Real.exp (t p.1 p.2) * Real.exp (f p.1 p.2 - 1 - t p.1 p.2) = Real.exp (-1) * Real.exp (f p.1 p.2) := fun p => by
    rw [← Real.exp_add, ← Real.exp_add]
    congr 1
    ring
  have w := pmi_weight_iff h (u := fun p => Real.exp (f p.1 p.2 - 1 - t p.1 p.2))
  simp only [e] at w
  have i1 : Integrable (fun p : X × Y => Real.exp (f p.1 p.2 - 1 - t p.1 p.2)) P := w.1.2 (hQ.const_mul _)
  have i2 : Integrable (fun p : X × Y => f p.1 p.2 - 1 - t p.1 p.2) P := (hP.sub (integrable_const 1)).sub h.joint
  have i3 : Integrable (fun p : X × Y => Real.exp (f p.1 p.2 - 1 - t p.1 p.2) - 1) P := i1.sub (integrable_const 1)
  refine ⟨i3.sub i2, ?_⟩
  have w2 := w.2
  rw [integral_const_mul] at w2
  have i4 : Integrable (fun p : X × Y => f p.1 p.2 - 1) P := hP.sub (integrable_const 1)
  rw [integral_sub i3 i2, integral_sub i1 (integrable_const 1), integral_sub i4 h.joint, integral_sub hP (integrable_const 1), w2,
    h.info.2]
  simp
  ring

/-- The NWJ functional attains the mutual information only for one critic. -/
theorem nwj_value_iff (h : IsPmi P t) (hP : Integrable (fun p : X × Y => f p.1 p.2) P)
    (hQ : Integrable (fun p : X × Y => Real.exp (f p.1 p.2)) (P.fst.prod P.snd)) :
    ∫ p, f p.1 p.2 ∂P - Real.exp (-1) * ∫ p, Real.exp (f p.1 p.2) ∂(P.fst.prod P.snd) = (mutualInfo P).toReal
      ↔ ∀ᵐ p ∂(P.fst.prod P.snd), f p.1 p.2 = 1 + t p.1 p.2 := by
  obtain ⟨i, e⟩ := nwj_gap h hP hQ
  have h0 : ∀ v : ℝ, 0 ≤ Real.exp v - 1 - v := fun v => by
    have := Real.add_one_le_exp v
    linarith
  rw [e, sub_eq_self, integral_eq_zero_iff_of_nonneg (fun p => h0 _) i, ← pmi_ae_iff h]
  refine ⟨fun H => H.mono fun p hp => ?_, fun H => H.mono fun p hp => ?_⟩
  · simp only [Pi.zero_apply] at hp
    by_contra hne
    have := Real.add_one_lt_exp (x := f p.1 p.2 - 1 - t p.1 p.2) fun h => hne (by linarith)
    linarith
  · simp only [Pi.zero_apply, hp]
    norm_num

/-- The Donsker-Varadhan functional attains the mutual information for the critics that differ by a constant from one. -/
theorem dv_value_iff (h : IsPmi P t) (hP : Integrable (fun p : X × Y => f p.1 p.2) P)
    (hQ : Integrable (fun p : X × Y => Real.exp (f p.1 p.2)) (P.fst.prod P.snd)) :
    ∫ p, f p.1 p.2 ∂P - Real.log (∫ p, Real.exp (f p.1 p.2) ∂(P.fst.prod P.snd)) = (mutualInfo P).toReal
      ↔ ∃ c : ℝ, ∀ᵐ p ∂(P.fst.prod P.snd), f p.1 p.2 = t p.1 p.2 + c := by
  have hpos : 0 < ∫ p, Real.exp (f p.1 p.2) ∂(P.fst.prod P.snd) := integral_exp_pos hQ
  constructor
  · intro H
    set m := Real.log (∫ p, Real.exp (f p.1 p.2) ∂(P.fst.prod P.snd)) with hm
    refine ⟨m, ?_⟩
    have e0 : (fun p : X × Y => Real.exp (f p.1 p.2 - m + 1)) = fun p => Real.exp (1 - m) * Real.exp (f p.1 p.2) := by
      funext p
      rw [← Real.exp_add]
      congr 1
      ring
    have i1 : Integrable (fun p : X × Y => f p.1 p.2 - m) P := hP.sub (integrable_const m)
    have k := nwj_value_iff (f := fun x y => f x y - m + 1) h (i1.add (integrable_const 1)) (by
      rw [e0]
      exact hQ.const_mul _)
    have hem : Real.exp m = ∫ p, Real.exp (f p.1 p.2) ∂(P.fst.prod P.snd) := Real.exp_log hpos
    refine (k.1 ?_).mono fun p hp => by linarith
    rw [integral_add i1 (integrable_const 1), integral_sub hP (integrable_const m), e0, integral_const_mul, ← hem, ← H]
    have : Real.exp (-1) * (Real.exp (1 - m) * Real.exp m) = 1 := by
      rw [← Real.exp_add, ← Real.exp_add]
      norm_num
    simp only [integral_const, probReal_univ, smul_eq_mul, one_mul]
    linarith
  · rintro ⟨c, hc⟩
    have e1 : ∫ p, f p.1 p.2 ∂P = (mutualInfo P).toReal + c := by
      rw [integral_congr_ae ((pmi_ae_iff h).2 hc), integral_add h.joint (integrable_const c), h.info.2]
      simp
    have e2 : ∫ p, Real.exp (f p.1 p.2) ∂(P.fst.prod P.snd) = Real.exp c := by
      have := (pmi_weight_iff h (u := fun _ => Real.exp c)).2
      rw [integral_congr_ae (hc.mono fun p hp => by
        show Real.exp (f p.1 p.2) = Real.exp (t p.1 p.2) * Real.exp c
        rw [hp, Real.exp_add]), this]
      simp
    rw [e1, e2, Real.log_exp]
    ring

/-! ## InfoNCE -/

/-- The law of one point and all candidates, the true partner being number `i`. -/
theorem map_candidates (h : IsPmi P t) (ht : Measurable fun p : X × Y => t p.1 p.2) {m : ℕ} (i : Fin (m + 1)) :
    (Measure.pi fun _ : Fin (m + 1) => P).map (fun b => ((b i).1, fun j => (b j).2))
      = (P.fst.prod (Measure.pi fun _ : Fin (m + 1) => P.snd)).withDensity fun z => ENNReal.ofReal (Real.exp (t z.1 (z.2 i))) := by
  have hsnd : Measurable fun r : Fin m → X × Y => fun j => (r j).2 :=
    measurable_pi_lambda _ fun j => measurable_snd.comp (measurable_pi_apply j)
  have hw : Measurable fun p : X × Y => ENNReal.ofReal (Real.exp (t p.1 p.2)) := (Real.measurable_exp.comp ht).ennreal_ofReal
  have hpi : (Measure.pi fun _ : Fin m => P).map (fun r j => (r j).2) = Measure.pi fun _ : Fin m => P.snd :=
    Measure.pi_map_pi (μ := fun _ : Fin m => P) (f := fun _ => Prod.snd)
      (hμ := fun _ => inferInstanceAs (SigmaFinite P.snd)) fun _ => measurable_snd.aemeasurable
  -- put the partner among the candidates
  let e := (MeasurableEquiv.piFinSuccAbove (fun _ : Fin (m + 1) => Y) i).symm
  let F : (X × Y) × (Fin m → Y) → X × (Fin (m + 1) → Y) := fun q => (q.1.1, e (q.1.2, q.2))
  have hF : Measurable F := (measurable_fst.comp measurable_fst).prodMk
    (e.measurable.comp ((measurable_snd.comp measurable_fst).prodMk measurable_snd))
  have hmp := measurePreserving_piFinSuccAbove (fun _ : Fin (m + 1) => P) i
  have hsplit : (fun b : Fin (m + 1) → X × Y => ((b i).1, fun j => (b j).2))
      = F ∘ (Prod.map id fun r j => (r j).2) ∘ MeasurableEquiv.piFinSuccAbove (fun _ => X × Y) i := by
    funext b
    refine Prod.ext rfl ?_
    funext j
    show (b j).2 = i.insertNth (α := fun _ => Y) (b i).2 (fun j => (b (i.succAbove j)).2) j
    induction j using Fin.succAboveCases i with
    | x => simp
    | p j => simp
  have hFi : ∀ q, (F q).2 i = q.1.2 := fun q => by
    show i.insertNth (α := fun _ => Y) q.1.2 q.2 i = q.1.2
    simp
  rw [hsplit, ← Measure.map_map hF ((measurable_id.prodMap hsnd).comp (MeasurableEquiv.measurable _)),
    ← Measure.map_map (measurable_id.prodMap hsnd) (MeasurableEquiv.measurable _), hmp.map_eq, ← Measure.map_prod_map _ _ measurable_id hsnd,
    Measure.map_id, hpi]
  have hfd : P.prod (Measure.pi fun _ : Fin m => P.snd)
      = ((P.fst.prod P.snd).prod (Measure.pi fun _ : Fin m => P.snd)).withDensity
          fun q => ENNReal.ofReal (Real.exp (t q.1.1 q.1.2)) :=
    (congrArg (fun μ => μ.prod (Measure.pi fun _ : Fin m => P.snd)) h.density).trans (prod_withDensity_left hw)
  rw [hfd]
  have hbase : ((P.fst.prod P.snd).prod (Measure.pi fun _ : Fin m => P.snd)).map F
      = P.fst.prod (Measure.pi fun _ : Fin (m + 1) => P.snd) := by
    have h1 : F = (Prod.map id e) ∘ (MeasurableEquiv.prodAssoc : (X × Y) × (Fin m → Y) ≃ᵐ X × Y × (Fin m → Y)) := rfl
    have h2 := (measurePreserving_piFinSuccAbove (fun _ : Fin (m + 1) => P.snd) i).symm
    rw [h1, ← Measure.map_map (measurable_id.prodMap e.measurable) (MeasurableEquiv.measurable _), Measure.prodAssoc_prod,
      ← Measure.map_prod_map _ _ measurable_id e.measurable, Measure.map_id]
    congr 1
    exact h2.map_eq
  have hd : (fun q : (X × Y) × (Fin m → Y) => ENNReal.ofReal (Real.exp (t q.1.1 q.1.2)))
      = (fun z : X × (Fin (m + 1) → Y) => ENNReal.ofReal (Real.exp (t z.1 (z.2 i)))) ∘ F := by
    funext q
    show _ = ENNReal.ofReal (Real.exp (t q.1.1 ((F q).2 i)))
    rw [hFi]
  have hwz : Measurable fun z : X × (Fin (m + 1) → Y) => ENNReal.ofReal (Real.exp (t z.1 (z.2 i))) :=
    hw.comp (measurable_fst.prodMk ((measurable_pi_apply i).comp measurable_snd))
  rw [← hbase]
  ext A hA
  rw [Measure.map_apply hF hA, withDensity_apply _ (hF hA), withDensity_apply _ hA, setLIntegral_map hA hwz hF, hd]
  rfl

/-- The score of candidate `i` in InfoNCE. -/
noncomputable def logShare {m : ℕ} (v : Fin (m + 1) → ℝ) (i : Fin (m + 1)) : ℝ :=
  Real.log (Real.exp (v i) / ((∑ j, Real.exp (v j)) / (m + 1 : ℕ)))

theorem logShare_eq {m : ℕ} (v : Fin (m + 1) → ℝ) (i : Fin (m + 1)) :
    logShare v i = v i - Real.log (∑ j, Real.exp (v j)) + Real.log (m + 1 : ℕ) := by
  have hS : 0 < ∑ j, Real.exp (v j) := Finset.sum_pos (fun j _ => Real.exp_pos _) Finset.univ_nonempty
  have hn : (0 : ℝ) < (m + 1 : ℕ) := by positivity
  unfold logShare
  rw [Real.log_div (Real.exp_ne_zero _) (div_pos hS hn).ne', Real.log_exp, Real.log_div hS.ne' hn.ne']
  ring

/-- Cross entropy: scores other than the right ones, up to a common constant, are worse. -/
theorem logShare_gap {m : ℕ} (a c : Fin (m + 1) → ℝ) :
    0 ≤ ∑ i, Real.exp (a i) * (logShare a i - logShare c i) ∧
    (∑ i, Real.exp (a i) * (logShare a i - logShare c i) = 0 ↔ ∀ i j, c i - a i = c j - a j) := by
  have hA : 0 < ∑ j, Real.exp (a j) := Finset.sum_pos (fun j _ => Real.exp_pos _) Finset.univ_nonempty
  have hC : 0 < ∑ j, Real.exp (c j) := Finset.sum_pos (fun j _ => Real.exp_pos _) Finset.univ_nonempty
  set A := ∑ j, Real.exp (a j) with hAd
  set C := ∑ j, Real.exp (c j) with hCd
  have hd : ∀ i, logShare a i - logShare c i = a i - c i - Real.log A + Real.log C := fun i => by
    rw [logShare_eq, logShare_eq]
    ring
  have h1 : ∑ i, Real.exp (a i) * (1 - Real.exp (-(logShare a i - logShare c i))) = 0 := by
    have : ∀ i, Real.exp (a i) * (1 - Real.exp (-(logShare a i - logShare c i))) = Real.exp (a i) - A / C * Real.exp (c i) := fun i => by
      rw [hd, show -(a i - c i - Real.log A + Real.log C) = -a i + c i + Real.log A - Real.log C by ring, Real.exp_sub, Real.exp_add,
        Real.exp_add, Real.exp_log hA, Real.exp_log hC, Real.exp_neg, mul_sub, mul_one]
      field_simp
    simp only [this]
    rw [Finset.sum_sub_distrib, ← Finset.mul_sum, ← hAd, ← hCd]
    field_simp
    ring
  have h2 : ∑ i, Real.exp (a i) * (logShare a i - logShare c i)
      = ∑ i, Real.exp (a i) * ((logShare a i - logShare c i) - (1 - Real.exp (-(logShare a i - logShare c i)))) := by
    have : ∀ i, Real.exp (a i) * ((logShare a i - logShare c i) - (1 - Real.exp (-(logShare a i - logShare c i))))
        = Real.exp (a i) * (logShare a i - logShare c i) - Real.exp (a i) * (1 - Real.exp (-(logShare a i - logShare c i))) := fun i =>
      mul_sub _ _ _
    simp only [this]
    rw [Finset.sum_sub_distrib, h1, sub_zero]
  have h3 : ∀ d : ℝ, 0 ≤ d - (1 - Real.exp (-d)) := fun d => by
    have := Real.add_one_le_exp (-d)
    linarith
  have h4 : ∀ i ∈ Finset.univ, 0 ≤ Real.exp (a i) * ((logShare a i - logShare c i) - (1 - Real.exp (-(logShare a i - logShare c i)))) :=
    fun i _ => mul_nonneg (Real.exp_pos _).le (h3 _)
  rw [h2]
  refine ⟨Finset.sum_nonneg h4, ?_⟩
  rw [Finset.sum_eq_zero_iff_of_nonneg h4]
  constructor
  · intro H i j
    have key : ∀ i, logShare a i - logShare c i = 0 := fun i => by
      have := (mul_eq_zero.1 (H i (Finset.mem_univ i))).resolve_left (Real.exp_ne_zero _)
      by_contra hne
      have := Real.add_one_lt_exp (x := -(logShare a i - logShare c i)) (neg_ne_zero.2 hne)
      linarith
    have hi := key i
    have hj := key j
    rw [hd] at hi hj
    linarith
  · intro H i _
    have : logShare a i - logShare c i = 0 := by
      have hk : ∀ j, c j = a j + (c i - a i) := fun j => by
        have := H i j
        linarith
      have hCA : C = A * Real.exp (c i - a i) := by
        rw [hCd, hAd, Finset.sum_mul]
        refine Finset.sum_congr rfl fun j _ => ?_
        rw [← Real.exp_add, ← hk]
      rw [hd, hCA, Real.log_mul hA.ne' (Real.exp_ne_zero _), Real.log_exp]
      ring
    rw [this]
    simp

/-- One point and the candidates, independent of each other. -/
theorem candidate_pair (μ : Measure X) (ν : Measure Y) [IsProbabilityMeasure μ] [IsProbabilityMeasure ν] {n : ℕ} (i : Fin n) :
    MeasurePreserving (fun z : X × (Fin n → Y) => (z.1, z.2 i)) (μ.prod (Measure.pi fun _ => ν)) (μ.prod ν) :=
  (MeasurePreserving.id μ).prod (measurePreserving_eval (fun _ : Fin n => ν) i)

theorem candidate_two (μ : Measure X) (ν : Measure Y) [IsProbabilityMeasure μ] [IsProbabilityMeasure ν] {n : ℕ} {i j : Fin n} (hij : i ≠ j) :
    MeasurePreserving (fun z : X × (Fin n → Y) => (z.1, z.2 i, z.2 j)) (μ.prod (Measure.pi fun _ => ν)) (μ.prod (ν.prod ν)) := by
  refine (MeasurePreserving.id μ).prod (g := fun y : Fin n → Y => (y i, y j)) ⟨by fun_prop, ?_⟩
  have hi : iIndepFun (fun (i : Fin n) (b : Fin n → Y) => b i) (Measure.pi fun _ : Fin n => ν) :=
    iIndepFun_pi (μ := fun _ : Fin n => ν) (X := fun _ => id) fun _ => aemeasurable_id
  have h2 := hi.indepFun hij
  rw [indepFun_iff_map_prod_eq_prod_map_map (measurable_pi_apply i).aemeasurable (measurable_pi_apply j).aemeasurable] at h2
  refine h2.trans ?_
  rw [(measurePreserving_eval (fun _ : Fin n => ν) i).map_eq, (measurePreserving_eval (fun _ : Fin n => ν) j).map_eq]

/-- A function of two variables which does not depend on the second. -/
theorem depends_on_first (μ : Measure X) (ν : Measure Y) [IsProbabilityMeasure μ] [IsProbabilityMeasure ν] {g : X × Y → ℝ} (hg : Measurable g)
    (h : ∀ᵐ q : X × Y × Y ∂(μ.prod (ν.prod ν)), g (q.1, q.2.1) = g (q.1, q.2.2)) :
    ∃ c : X → ℝ, Measurable c ∧ ∀ᵐ p ∂(μ.prod ν), g p = c p.1 := by
  have hc : StronglyMeasurable fun x => ∫ y, g (x, y) ∂ν := hg.stronglyMeasurable.integral_prod_right'
  refine ⟨fun x => ∫ y, g (x, y) ∂ν, hc.measurable, ?_⟩
  refine (Measure.ae_prod_iff_ae_ae (p := fun p : X × Y => g p = ∫ y, g (p.1, y) ∂ν)
    (measurableSet_eq_fun hg (hc.measurable.comp measurable_fst))).2 ?_
  have h1 := Measure.ae_ae_of_ae_prod h
  filter_upwards [h1] with x hx
  filter_upwards [Measure.ae_ae_of_ae_prod hx] with y hy
  rw [integral_congr_ae (hy.mono fun y' h' => h'.symm)]
  simp

end BMI.Neural
