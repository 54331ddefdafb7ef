import Verif.Lemmas.OptimalCritic

/-! Sums of density ratios over a batch are constant only for independent variables. -/

namespace BMI.Neural

open MeasureTheory ProbabilityTheory BMI.Integration

variable {X Y : Type} [MeasurableSpace X] [MeasurableSpace Y] {P : Measure (X × Y)} [IsProbabilityMeasure P] {t : X → Y → ℝ}

theorem pmi_exp_integrable (h : IsPmi P t) : Integrable (fun p : X × Y => Real.exp (t p.1 p.2)) (P.fst.prod P.snd) := by
  have := (pmi_weight_iff h (u := fun _ => (1 : ℝ))).1.1 (integrable_const 1)
  simpa using this

theorem pmi_exp_integral (h : IsPmi P t) : ∫ p, Real.exp (t p.1 p.2) ∂(P.fst.prod P.snd) = 1 := by
  have := (pmi_weight_iff h (u := fun _ => (1 : ℝ))).2
  simpa using this

/-- Averaging the density ratio over `y`. -/
theorem pmi_marginal (h : IsPmi P t) (ht : Measurable fun p : X × Y => t p.1 p.2) :
    ∀ᵐ x ∂P.fst, Integrable (fun y => Real.exp (t x y)) P.snd ∧ ∫ y, Real.exp (t x y) ∂P.snd = 1 := by
  have hw : Measurable fun p : X × Y => ENNReal.ofReal (Real.exp (t p.1 p.2)) := ht.exp.ennreal_ofReal
  have hl : Measurable fun x => ∫⁻ y, ENNReal.ofReal (Real.exp (t x y)) ∂P.snd := hw.lintegral_prod_right'
  have h1 : (fun x => ∫⁻ y, ENNReal.ofReal (Real.exp (t x y)) ∂P.snd) =ᵐ[P.fst] fun _ => 1 := by
    refine ae_eq_of_forall_setLIntegral_eq_of_sigmaFinite hl measurable_const fun A hA _ => ?_
    have e1 : P.fst A = ∫⁻ x in A, ∫⁻ y, ENNReal.ofReal (Real.exp (t x y)) ∂P.snd ∂P.fst := by
      have : P (A ×ˢ Set.univ) = ∫⁻ p in A ×ˢ Set.univ, ENNReal.ofReal (Real.exp (t p.1 p.2)) ∂(P.fst.prod P.snd) := by
        conv_lhs => rw [h.density]
        rw [withDensity_apply _ (hA.prod MeasurableSet.univ)]
      rw [Measure.fst_apply hA, show Prod.fst ⁻¹' A = A ×ˢ (Set.univ : Set Y) by ext; simp, this, ← Measure.prod_restrict,
        Measure.restrict_univ, lintegral_prod _ hw.aemeasurable]
    rw [← e1]
    simp
  filter_upwards [h1, (pmi_exp_integrable h).prod_right_ae] with x hx hi
  refine ⟨hi, ?_⟩
  rw [integral_eq_lintegral_of_nonneg_ae (Filter.Eventually.of_forall fun y => (Real.exp_pos _).le) hi.1, hx]
  simp

theorem isPmi_swap (h : IsPmi P t) (ht : Measurable fun p : X × Y => t p.1 p.2) : IsPmi (P.map Prod.swap) fun y x => t x y := by
  have hm : Measurable (Prod.swap : X × Y → Y × X) := measurable_swap
  have hw : Measurable fun p : Y × X => ENNReal.ofReal (Real.exp (t p.2 p.1)) := (ht.comp measurable_swap).exp.ennreal_ofReal
  have e1 : (P.map Prod.swap).fst = P.snd := Measure.fst_map_swap
  have e2 : (P.map Prod.swap).snd = P.fst := Measure.snd_map_swap
  refine ⟨?_, ?_, ?_⟩
  · rw [e1, e2, ← Measure.prod_swap]
    ext A hA
    rw [Measure.map_apply hm hA, withDensity_apply _ hA, setLIntegral_map hA hw hm]
    conv_lhs => rw [h.density]
    rw [withDensity_apply _ (hm hA)]
    rfl
  · exact (integrable_map_measure (f := Prod.swap) (g := fun p : Y × X => t p.2 p.1) (ht.comp measurable_swap).aestronglyMeasurable
      hm.aemeasurable).2 h.joint
  · rw [e1, e2, ← Measure.prod_swap]
    exact (integrable_map_measure (f := Prod.swap) (g := fun p : Y × X => t p.2 p.1) (ht.comp measurable_swap).aestronglyMeasurable
      hm.aemeasurable).2 h.product

/-- If the average of the density ratio over independent candidates is one, the variables are independent. -/
theorem candidates_constant (h : IsPmi P t) (ht : Measurable fun p : X × Y => t p.1 p.2) (m : ℕ)
    (H : ∀ᵐ z : X × (Fin (m + 1) → Y) ∂(P.fst.prod (Measure.pi fun _ => P.snd)), ∑ j, Real.exp (t z.1 (z.2 j)) = (m + 1 : ℕ)) :
    ∀ᵐ p ∂(P.fst.prod P.snd), t p.1 p.2 = 0 := by
  refine (Measure.ae_prod_iff_ae_ae (p := fun p : X × Y => t p.1 p.2 = 0) (measurableSet_eq_fun ht measurable_const)).2 ?_
  filter_upwards [Measure.ae_ae_of_ae_prod H, pmi_marginal h ht] with x hx ⟨hi, h1⟩
  have hmp := measurePreserving_piFinSuccAbove (fun _ : Fin (m + 1) => P.snd) 0
  have htx : Measurable fun y => Real.exp (t x y) := (ht.comp (measurable_const.prodMk measurable_id)).exp
  have hx' : ∀ᵐ q : Y × (Fin m → Y) ∂(P.snd.prod (Measure.pi fun _ => P.snd)),
      Real.exp (t x q.1) + ∑ j, Real.exp (t x (q.2 j)) = (m + 1 : ℕ) := by
    rw [← hmp.map_eq]
    refine (ae_map_iff hmp.measurable.aemeasurable ?_).2 (hx.mono fun y hy => ?_)
    · exact measurableSet_eq_fun ((htx.comp measurable_fst).add (Finset.measurable_sum _ fun j _ =>
        htx.comp ((measurable_pi_apply j).comp measurable_snd))) measurable_const
    · rw [← hy, Fin.sum_univ_succ]
      rfl
  filter_upwards [Measure.ae_ae_of_ae_prod hx'] with y hy
  have i1 : ∀ j : Fin m, Integrable (fun s : Fin m → Y => Real.exp (t x (s j))) (Measure.pi fun _ => P.snd) := fun j =>
    (measurePreserving_eval (fun _ : Fin m => P.snd) j).integrable_comp_of_integrable hi
  have e1 : ∀ j : Fin m, ∫ s : Fin m → Y, Real.exp (t x (s j)) ∂(Measure.pi fun _ => P.snd) = 1 := fun j => by
    rw [← h1]
    exact integral_comp_eval (μ := fun _ : Fin m => P.snd) (f := fun y => Real.exp (t x y)) hi.1
  have e2 : ∫ s : Fin m → Y, ∑ j, Real.exp (t x (s j)) ∂(Measure.pi fun _ => P.snd) = m := by
    rw [integral_finsetSum _ fun j _ => i1 j]
    simp [e1]
  have e3 : ∫ s : Fin m → Y, ∑ j, Real.exp (t x (s j)) ∂(Measure.pi fun _ => P.snd) = (m + 1 : ℕ) - Real.exp (t x y) := by
    rw [integral_congr_ae (hy.mono fun s hs => by
      show ∑ j, Real.exp (t x (s j)) = (m + 1 : ℕ) - Real.exp (t x y)
      linarith)]
    simp
  have : Real.exp (t x y) = 1 := by
    rw [e2] at e3
    push_cast at e3
    linarith
  exact Real.exp_eq_one_iff _ |>.1 this

/-- The same for all pairs of different points in a batch. -/
theorem batch_constant (h : IsPmi P t) (ht : Measurable fun p : X × Y => t p.1 p.2) (n : ℕ) (hn : 2 ≤ n)
    (H : ∀ᵐ b : Fin n → X × Y ∂(Measure.pi fun _ => P), Spec.negative t (fun i => (b i).1) (fun i => (b i).2) = 1) :
    ∀ᵐ p ∂(P.fst.prod P.snd), t p.1 p.2 = 0 := by
  obtain ⟨m, rfl⟩ : ∃ m, n = m + 1 + 1 := ⟨n - 2, by omega⟩
  refine candidates_constant h ht m ?_
  have hE : Measurable fun p : X × Y => Real.exp (t p.1 p.2) := ht.exp
  have hmp := measurePreserving_piFinSuccAbove (fun _ : Fin (m + 1 + 1) => P) 0
  -- the rest of the batch
  let K : (Fin (m + 1) → X × Y) → ℝ := fun r => ∑ i, ∑ j, if i = j then 0 else Real.exp (t (r i).1 (r j).2)
  have hsum : ∀ b : Fin (m + 1 + 1) → X × Y, ∑ i, ∑ j, (if i = j then 0 else Real.exp (t (b i).1 (b j).2))
      = ∑ j : Fin (m + 1), Real.exp (t (b 0).1 (b j.succ).2) + ∑ i : Fin (m + 1), Real.exp (t (b i.succ).1 (b 0).2)
        + K fun i => b i.succ := fun b => by
    rw [Fin.sum_univ_succ]
    simp only [Fin.sum_univ_succ (n := m + 1), K, Fin.succ_ne_zero, (Fin.succ_ne_zero _).symm, if_true, if_false, Fin.succ_inj, zero_add,
      Finset.sum_add_distrib]
    ring
  have hb : ∀ i : Fin (m + 1), Measurable fun r : Fin (m + 1) → X × Y => r i := fun i => measurable_pi_apply i
  have hK : Measurable K := Finset.measurable_sum _ fun i _ => Finset.measurable_sum _ fun j _ => by
    by_cases hij : i = j
    · simp [hij]
    · simp only [if_neg hij]
      exact hE.comp ((measurable_fst.comp (hb i)).prodMk (measurable_snd.comp (hb j)))
  have hr : ∀ j : Fin (m + 1), Measurable fun q : (X × Y) × (Fin (m + 1) → X × Y) => q.2 j := fun j =>
    (measurable_pi_apply j).comp measurable_snd
  have hα : Measurable fun q : (X × Y) × (Fin (m + 1) → X × Y) => ∑ j, Real.exp (t q.1.1 (q.2 j).2) := Finset.measurable_sum _ fun j _ =>
    hE.comp ((measurable_fst.comp measurable_fst).prodMk (measurable_snd.comp (hr j)))
  have hβ : Measurable fun q : (X × Y) × (Fin (m + 1) → X × Y) => ∑ i, Real.exp (t (q.2 i).1 q.1.2) := Finset.measurable_sum _ fun j _ =>
    hE.comp ((measurable_fst.comp (hr j)).prodMk (measurable_snd.comp measurable_fst))
  have hc : (0 : ℝ) < ((m + 1 + 1 : ℕ) : ℝ) * (((m + 1 + 1 : ℕ) : ℝ) - 1) := by
    push_cast
    have : (0 : ℝ) ≤ m := Nat.cast_nonneg m
    nlinarith
  set C := ((m + 1 + 1 : ℕ) : ℝ) * (((m + 1 + 1 : ℕ) : ℝ) - 1) with hC
  have H' : ∀ᵐ q : (X × Y) × (Fin (m + 1) → X × Y) ∂(P.prod (Measure.pi fun _ => P)),
      ∑ j, Real.exp (t q.1.1 (q.2 j).2) + ∑ i, Real.exp (t (q.2 i).1 q.1.2) + K q.2 = C := by
    rw [← hmp.map_eq]
    refine (ae_map_iff hmp.measurable.aemeasurable ?_).2 (H.mono fun b hb => ?_)
    · exact measurableSet_eq_fun ((hα.add hβ).add (hK.comp measurable_snd)) measurable_const
    · unfold Spec.negative at hb
      rw [div_eq_one_iff_eq hc.ne', hsum] at hb
      exact hb
  have H2 : ∀ᵐ r : Fin (m + 1) → X × Y ∂(Measure.pi fun _ => P), ∀ᵐ p ∂P,
      ∑ j, Real.exp (t p.1 (r j).2) + ∑ i, Real.exp (t (r i).1 p.2) + K r = C := by
    refine (Measure.ae_ae_comm (p := fun (p : X × Y) (r : Fin (m + 1) → X × Y) =>
      ∑ j, Real.exp (t p.1 (r j).2) + ∑ i, Real.exp (t (r i).1 p.2) + K r = C) ?_).1 (Measure.ae_ae_of_ae_prod H')
    exact measurableSet_eq_fun ((hα.add hβ).add (hK.comp measurable_snd)) measurable_const
  -- averaging over `x`
  have hy : ∀ᵐ y ∂P.snd, Integrable (fun x => Real.exp (t x y)) P.fst ∧ ∫ x, Real.exp (t x y) ∂P.fst = 1 := by
    have h1 := isPmi_swap h ht
    haveI : IsProbabilityMeasure (P.map Prod.swap) := Measure.isProbabilityMeasure_map measurable_swap.aemeasurable
    have h2 := pmi_marginal h1 (show Measurable fun p : Y × X => t p.2 p.1 from ht.comp measurable_swap)
    rwa [Measure.fst_map_swap, Measure.snd_map_swap] at h2
  have hyr : ∀ᵐ r : Fin (m + 1) → X × Y ∂(Measure.pi fun _ => P), ∀ j,
      Integrable (fun x => Real.exp (t x (r j).2)) P.fst ∧ ∫ x, Real.exp (t x (r j).2) ∂P.fst = 1 := by
    refine ae_all_iff.2 fun j => ?_
    have hy' : ∀ᵐ p ∂P, Integrable (fun x => Real.exp (t x p.2)) P.fst ∧ ∫ x, Real.exp (t x p.2) ∂P.fst = 1 :=
      ae_of_ae_map measurable_snd.aemeasurable hy
    exact (measurePreserving_eval (fun _ : Fin (m + 1) => P) j).quasiMeasurePreserving.ae hy'
  have H3 : ∀ᵐ r : Fin (m + 1) → X × Y ∂(Measure.pi fun _ => P), ∀ᵐ x ∂P.fst, ∑ j, Real.exp (t x (r j).2) = (m + 1 : ℕ) := by
    filter_upwards [H2, hyr] with r hr2 hj
    have m1 : Measurable fun x => ∑ j, Real.exp (t x (r j).2) := Finset.measurable_sum _ fun j _ =>
      hE.comp (measurable_id.prodMk measurable_const)
    have m2 : Measurable fun y => ∑ i, Real.exp (t (r i).1 y) := Finset.measurable_sum _ fun j _ =>
      hE.comp (measurable_const.prodMk measurable_id)
    have hQ : ∀ᵐ p ∂(P.fst.prod P.snd), ∑ j, Real.exp (t p.1 (r j).2) + ∑ i, Real.exp (t (r i).1 p.2) + K r = C :=
      (pmi_ae_iff h).1 hr2
    have hyx : ∀ᵐ y ∂P.snd, ∀ᵐ x ∂P.fst, ∑ j, Real.exp (t x (r j).2) + ∑ i, Real.exp (t (r i).1 y) + K r = C := by
      refine (Measure.ae_ae_comm (p := fun (x : X) (y : Y) =>
        ∑ j, Real.exp (t x (r j).2) + ∑ i, Real.exp (t (r i).1 y) + K r = C) ?_).1 (Measure.ae_ae_of_ae_prod hQ)
      exact measurableSet_eq_fun (((m1.comp measurable_fst).add (m2.comp measurable_snd)).add measurable_const) measurable_const
    obtain ⟨y, hyy⟩ := hyx.exists
    have e : ∀ᵐ x ∂P.fst, ∑ j, Real.exp (t x (r j).2) = C - K r - ∑ i, Real.exp (t (r i).1 y) :=
      hyy.mono fun x hx => by linarith
    have e1 : ∫ x, ∑ j, Real.exp (t x (r j).2) ∂P.fst = (m + 1 : ℕ) := by
      rw [integral_finsetSum _ fun j _ => (hj j).1]
      simp [fun j => (hj j).2]
    have e2 : (m + 1 : ℕ) = C - K r - ∑ i, Real.exp (t (r i).1 y) := by
      rw [← e1, integral_congr_ae e]
      simp
    rw [e2]
    exact e
  -- back to independent candidates
  have hmap : (Measure.pi fun _ : Fin (m + 1) => P).map (fun r j => (r j).2) = Measure.pi fun _ => P.snd := by
    haveI : ∀ _ : Fin (m + 1), SigmaFinite (P.map Prod.snd) := fun _ => inferInstanceAs (SigmaFinite P.snd)
    exact (Measure.pi_map_pi (μ := fun _ : Fin (m + 1) => P) (f := fun _ => Prod.snd) fun _ => measurable_snd.aemeasurable)
  have mS : MeasurableSet {q : (Fin (m + 1) → Y) × X | ∑ j, Real.exp (t q.2 (q.1 j)) = (m + 1 : ℕ)} :=
    measurableSet_eq_fun (Finset.measurable_sum _ fun j _ => hE.comp (measurable_snd.prodMk
      ((measurable_pi_apply j).comp measurable_fst))) measurable_const
  have H4 : ∀ᵐ s : Fin (m + 1) → Y ∂(Measure.pi fun _ => P.snd), ∀ᵐ x ∂P.fst, ∑ j, Real.exp (t x (s j)) = (m + 1 : ℕ) := by
    rw [← hmap]
    have hmm : Measurable fun (r : Fin (m + 1) → X × Y) j => (r j).2 :=
      measurable_pi_lambda _ fun j => measurable_snd.comp (measurable_pi_apply j)
    have hset : MeasurableSet {s : Fin (m + 1) → Y | ∀ᵐ x ∂P.fst, ∑ j, Real.exp (t x (s j)) = (m + 1 : ℕ)} :=
      measurable_measure_prodMk_left mS.compl (measurableSet_singleton 0)
    exact (ae_map_iff hmm.aemeasurable hset).2 H3
  have mS' : MeasurableSet {z : X × (Fin (m + 1) → Y) | ∑ j, Real.exp (t z.1 (z.2 j)) = (m + 1 : ℕ)} :=
    measurable_swap mS
  exact (Measure.ae_prod_iff_ae_ae mS').2 ((Measure.ae_ae_comm (p := fun (s : Fin (m + 1) → Y) (x : X) =>
    ∑ j, Real.exp (t x (s j)) = (m + 1 : ℕ)) mS).1 H4)

end BMI.Neural
