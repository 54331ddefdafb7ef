import Verif.Lemmas.CriticNet
import Verif.Lemmas.VariationalLimit
import Verif.Props.BatchLimit
import Verif.Props.HistogramFine

/-! Property C103: which mutual information the MLP critics can find
(/repo/src/bmi/estimators/neural/_critics.py). -/

namespace BMI.Critic

open MeasureTheory ProbabilityTheory BMI.Neural BMI.Batch BMI.Samplers

variable {dx dy : ℕ} {P : Measure ((Fin dx → ℝ) × (Fin dy → ℝ))} [IsProbabilityMeasure P]

/-- Independent pairs are in the same box. -/
theorem box_prod {LX HX : Fin dx → ℝ} {LY HY : Fin dy → ℝ} (hbox : ∀ᵐ z ∂P, z.1 ∈ Set.Icc LX HX ∧ z.2 ∈ Set.Icc LY HY) :
    ∀ᵐ z ∂P.fst.prod P.snd, z.1 ∈ Set.Icc LX HX ∧ z.2 ∈ Set.Icc LY HY := by
  have b1 : ∀ᵐ x ∂P.fst, x ∈ Set.Icc LX HX :=
    (ae_map_iff measurable_fst.aemeasurable (measurableSet_Icc (a := LX) (b := HX))).2 (hbox.mono fun z hz => hz.1)
  have b2 : ∀ᵐ y ∂P.snd, y ∈ Set.Icc LY HY :=
    (ae_map_iff measurable_snd.aemeasurable (measurableSet_Icc (a := LY) (b := HY))).2 (hbox.mono fun z hz => hz.2)
  filter_upwards [Measure.quasiMeasurePreserving_fst.ae b1, Measure.quasiMeasurePreserving_snd.ae b2] with z z1 z2
  exact ⟨z1, z2⟩

theorem append_mem {LX HX : Fin dx → ℝ} {LY HY : Fin dy → ℝ} {x : Fin dx → ℝ} {y : Fin dy → ℝ} (hx : x ∈ Set.Icc LX HX) (hy : y ∈ Set.Icc LY HY) :
    Fin.append x y ∈ Set.Icc (Fin.append LX LY) (Fin.append HX HY) := by
  constructor <;> intro i <;> refine Fin.addCases (fun j => ?_) (fun j => ?_) i
  · simpa using hx.1 j
  · simpa using hy.1 j
  · simpa using hx.2 j
  · simpa using hy.2 j

theorem continuous_append : Continuous fun z : (Fin dx → ℝ) × (Fin dy → ℝ) => Fin.append z.1 z.2 := by
  refine continuous_pi fun i => Fin.addCases (fun j => ?_) (fun j => ?_) i
  · simp only [Fin.append_left]
    fun_prop
  · simp only [Fin.append_right]
    fun_prop

theorem continuous_unitSum {d h : ℕ} (a : Fin h → ℝ) (w : Fin h → Fin d → ℝ) (b : Fin h → ℝ) : Continuous (unitSum a w b) := by
  unfold unitSum
  refine continuous_finset_sum _ fun i _ => continuous_const.mul ?_
  exact ((continuous_finset_sum _ fun j _ => continuous_const.mul (continuous_apply j)).add continuous_const).max continuous_const

/-- The InfoNCE limit is at least the Donsker-Varadhan limit. -/
theorem dv_le_infonce {X Y : Type} [MeasurableSpace X] [MeasurableSpace Y] {P : Measure (X × Y)} [IsProbabilityMeasure P] {f : X → Y → ℝ}
    (hf : Measurable fun p : X × Y => f p.1 p.2) (hQ : Integrable (fun p : X × Y => f p.1 p.2) (P.fst.prod P.snd))
    (hE : Integrable (fun p : X × Y => Real.exp (f p.1 p.2)) (P.fst.prod P.snd)) :
    ∫ p, f p.1 p.2 ∂P - Real.log (∫ p, Real.exp (f p.1 p.2) ∂(P.fst.prod P.snd)) ≤
      ∫ p, f p.1 p.2 ∂P - ∫ x, Real.log (∫ y, Real.exp (f x y) ∂P.snd) ∂P.fst := by
  obtain ⟨hm, hpos, hli⟩ := partner_facts hf hQ hE
  set Z := ∫ p, Real.exp (f p.1 p.2) ∂(P.fst.prod P.snd) with hZ
  have hZ0 : 0 < Z := integral_exp_pos hE
  have hpi : Integrable (partner P f) P.fst := hE.integral_prod_left
  have hpe : ∫ x, partner P f x ∂P.fst = Z := (integral_prod _ hE).symm
  have h1 : ∫ x, Real.log (partner P f x) ∂P.fst ≤ ∫ x, (partner P f x / Z + (Real.log Z - 1)) ∂P.fst := by
    refine integral_mono_ae hli ((hpi.div_const Z).add (integrable_const _)) ?_
    filter_upwards [hpos] with x hx
    have := Real.log_le_sub_one_of_pos (div_pos hx hZ0)
    rw [Real.log_div hx.ne' hZ0.ne'] at this
    linarith
  have h2 : ∫ x, (partner P f x / Z + (Real.log Z - 1)) ∂P.fst = Real.log Z := by
    rw [integral_add (hpi.div_const Z) (integrable_const _), integral_div, hpe, div_self hZ0.ne']
    simp
  have h3 : ∫ x, Real.log (∫ y, Real.exp (f x y) ∂P.snd) ∂P.fst ≤ Real.log Z := h2 ▸ h1
  linarith

/-- **C103** On bounded variables, and for each number of hidden layers (at least one), some sizes of the hidden layers and some weights give a
critic for which the objectives, on growing batches, tend to numbers above any prescribed number below the mutual information. -/
theorem mlp_rich {LX HX : Fin dx → ℝ} {LY HY : Fin dy → ℝ} (hbox : ∀ᵐ z ∂P, z.1 ∈ Set.Icc LX HX ∧ z.2 ∈ Set.Icc LY HY)
    {c : ℝ} (hc : ENNReal.ofReal c < mutualInfo P) (k : ℕ) :
    ∃ (hidden : List ℕ) (layers : List Linear) (f : (Fin dx → ℝ) → (Fin dy → ℝ) → ℝ),
      hidden.length = k + 1 ∧ (∀ h ∈ hidden, 0 < h) ∧
      layers.map (fun l => (l.inF, l.outF)) = ((dx + dy) :: hidden).zip (hidden ++ [1]) ∧ (∀ l ∈ layers, l.WellShaped) ∧
      (∀ x y, mlpCall layers (List.ofFn x) (List.ofFn y) = .ok (f x y)) ∧
      (∃ v, MeanConverges P (Linear.nwj f) v ∧ MeanConverges P (Quadratic.nwj f) v ∧ c < v ∧ ENNReal.ofReal v ≤ mutualInfo P) ∧
      (∃ v, MeanConverges P (Linear.donskerVaradhan f) v ∧ MeanConverges P (Quadratic.donskerVaradhan f) v ∧ c < v ∧ ENNReal.ofReal v ≤ mutualInfo P) ∧
      ∃ v, MeanConverges P (Linear.infonce f) v ∧ MeanConverges P (Quadratic.infonce f) v ∧ c < v ∧ ENNReal.ofReal v ≤ mutualInfo P := by
  obtain ⟨φ, hφ, ⟨D, hD⟩, hφc⟩ := dv_continuous (P := P) (Q := P.fst.prod P.snd) hc
  obtain ⟨ε, hε, key⟩ := dv_close hφ.measurable (D := D + 1) (fun x => (hD x).trans (by linarith)) hφc
  have hboxQ := box_prod hbox
  set φ' : (Fin (dx + dy) → ℝ) → ℝ := fun z => φ (fun i => z (Fin.castAdd dy i), fun j => z (Fin.natAdd dx j)) with hφ'
  have hφ'c : Continuous φ' := hφ.comp (by fun_prop)
  obtain ⟨h, a, w, b, happ⟩ := exists_unitSum (isCompact_Icc (a := Fin.append LX LY) (b := Fin.append HX HY)) hφ'c (lt_min hε one_pos)
  set f₀ : (Fin dx → ℝ) × (Fin dy → ℝ) → ℝ := fun z => unitSum a w b (Fin.append z.1 z.2) with hf₀
  have hf₀c : Continuous f₀ := (continuous_unitSum a w b).comp continuous_append
  set B : Set ((Fin dx → ℝ) × (Fin dy → ℝ)) := {z | z.1 ∈ Set.Icc LX HX ∧ z.2 ∈ Set.Icc LY HY} with hB
  have hBm : MeasurableSet B := (measurable_fst measurableSet_Icc).inter (measurable_snd measurableSet_Icc)
  have hclose : ∀ z ∈ B, |φ z - f₀ z| ≤ min ε 1 := fun z hz => by
    have := happ _ (append_mem hz.1 hz.2)
    simpa [hφ'] using this
  have hf₀D : ∀ z ∈ B, |f₀ z| ≤ D + 1 := fun z hz => by
    have h1 := abs_le.1 ((hclose z hz).trans (min_le_right _ _))
    have h2 := abs_le.1 (hD z)
    exact abs_le.2 ⟨by linarith, by linarith⟩
  have hD0 : 0 ≤ D := (abs_nonneg _).trans (hD 0)
  -- the bound of the network
  have hsmall : ∀ μ : Measure ((Fin dx → ℝ) × (Fin dy → ℝ)), [IsProbabilityMeasure μ] → (∀ᵐ z ∂μ, z ∈ B) → ∫ z, |φ z - B.indicator f₀ z| ∂μ ≤ ε :=
    fun μ _ hμ => by
      refine (integral_mono_of_nonneg (.of_forall fun z => abs_nonneg _) (integrable_const ε) (hμ.mono fun z hz => ?_)).trans (by simp)
      dsimp only
      rw [Set.indicator_of_mem hz]
      exact (hclose z hz).trans (min_le_left _ _)
  have hlt := key (B.indicator f₀) (hf₀c.measurable.indicator hBm) (fun z => by
    by_cases hz : z ∈ B
    · rw [Set.indicator_of_mem hz]
      exact hf₀D z hz
    · rw [Set.indicator_of_notMem hz, abs_zero]
      linarith) (hsmall P hbox) (hsmall (P.fst.prod P.snd) hboxQ)
  have hind : ∀ μ : Measure ((Fin dx → ℝ) × (Fin dy → ℝ)), (∀ᵐ z ∂μ, z ∈ B) → B.indicator f₀ =ᵐ[μ] f₀ := fun μ hμ =>
    hμ.mono fun z hz => Set.indicator_of_mem hz _
  unfold dvValue at hlt
  rw [integral_congr_ae (hind P hbox), integral_congr_ae ((hind _ hboxQ).mono fun z hz => congrArg Real.exp hz)] at hlt
  -- the shifted network
  set Z := ∫ z, Real.exp (f₀ z) ∂(P.fst.prod P.snd) with hZ
  have bI : ∀ μ : Measure ((Fin dx → ℝ) × (Fin dy → ℝ)), [IsProbabilityMeasure μ] → (∀ᵐ z ∂μ, z ∈ B) → Integrable f₀ μ := fun μ _ hμ =>
    Integrable.of_bound hf₀c.measurable.aestronglyMeasurable (D + 1) (hμ.mono hf₀D)
  have bE : Integrable (fun z => Real.exp (f₀ z)) (P.fst.prod P.snd) :=
    Integrable.of_bound (Real.measurable_exp.comp hf₀c.measurable).aestronglyMeasurable (Real.exp (D + 1)) (hboxQ.mono fun z hz => by
      rw [Real.norm_eq_abs, Real.abs_exp]
      exact Real.exp_le_exp.2 ((le_abs_self _).trans (hf₀D z hz)))
  have hZ0 : 0 < Z := integral_exp_pos bE
  set t := 1 - Real.log Z with ht
  set f : (Fin dx → ℝ) → (Fin dy → ℝ) → ℝ := fun x y => unitSum a w b (Fin.append x y) + t with hf
  have hfm : Measurable fun p : (Fin dx → ℝ) × (Fin dy → ℝ) => f p.1 p.2 := hf₀c.measurable.add_const t
  have iP : Integrable (fun p : (Fin dx → ℝ) × (Fin dy → ℝ) => f p.1 p.2) P := (bI P hbox).add (integrable_const t)
  have iQ : Integrable (fun p : (Fin dx → ℝ) × (Fin dy → ℝ) => f p.1 p.2) (P.fst.prod P.snd) := (bI _ hboxQ).add (integrable_const t)
  have hexp : (fun p : (Fin dx → ℝ) × (Fin dy → ℝ) => Real.exp (f p.1 p.2)) = fun p => Real.exp (f₀ p) * Real.exp t := by
    funext p
    exact Real.exp_add _ _
  have iE : Integrable (fun p : (Fin dx → ℝ) × (Fin dy → ℝ) => Real.exp (f p.1 p.2)) (P.fst.prod P.snd) := by
    rw [hexp]
    exact bE.mul_const _
  have vP : ∫ p, f p.1 p.2 ∂P = ∫ p, f₀ p ∂P + t := by
    have := integral_add (bI P hbox) (integrable_const (μ := P) t)
    simpa using this
  have vE : ∫ p, Real.exp (f p.1 p.2) ∂(P.fst.prod P.snd) = Real.exp 1 := by
    rw [hexp, integral_mul_const, ← hZ, ht, Real.exp_sub, Real.exp_log hZ0]
    field_simp
  have hdv : c < ∫ p, f p.1 p.2 ∂P - Real.log (∫ p, Real.exp (f p.1 p.2) ∂(P.fst.prod P.snd)) := by
    rw [vP, vE, Real.log_exp, ht]
    linarith
  obtain ⟨l1, l2, l3⟩ := limits_le_mi hfm iP iQ iE
  refine ⟨List.replicate (k + 1) (h + 1), net a w b t k, f, List.length_replicate, fun n hn => ?_, (net_shapes a w b t k).1, (net_shapes a w b t k).2,
    fun x y => net_call a w b t k x y, ⟨_, (nwj_limit hfm iP iE).1, (nwj_limit hfm iP iE).2, ?_, l1⟩,
    ⟨_, (donskerVaradhan_limit hfm iP iQ iE).1, (donskerVaradhan_limit hfm iP iQ iE).2, hdv, l2⟩,
    ⟨_, (infonce_limit hfm iP iQ iE).1, (infonce_limit hfm iP iQ iE).2, hdv.trans_le (dv_le_infonce hfm iQ iE), l3⟩⟩
  · rw [(List.mem_replicate.1 hn).2]
    omega
  · rw [vE, Real.log_exp] at hdv
    rw [vE, ← Real.exp_add]
    simpa using hdv

/-- A critic which is a sum of a function of x and a function of y finds nothing. -/
theorem separable_blind {X Y : Type} [MeasurableSpace X] [MeasurableSpace Y] {P : Measure (X × Y)} [IsProbabilityMeasure P] {f : X → Y → ℝ}
    {a : X → ℝ} {b : Y → ℝ} (hf : ∀ x y, f x y = a x + b y) (ha : Measurable a) (hb : Measurable b) (hai : Integrable a P.fst) (hbi : Integrable b P.snd)
    (hE : Integrable (fun p : X × Y => Real.exp (f p.1 p.2)) (P.fst.prod P.snd)) :
    (∃ v, MeanConverges P (Linear.nwj f) v ∧ MeanConverges P (Quadratic.nwj f) v ∧ v ≤ 0) ∧
    (∃ v, MeanConverges P (Linear.donskerVaradhan f) v ∧ MeanConverges P (Quadratic.donskerVaradhan f) v ∧ v ≤ 0) ∧
    ∃ v, MeanConverges P (Linear.infonce f) v ∧ MeanConverges P (Quadratic.infonce f) v ∧ v ≤ 0 := by
  have hfm : Measurable fun p : X × Y => f p.1 p.2 := by
    simp only [hf]
    fun_prop
  have haP : Integrable (fun p : X × Y => a p.1) P := hai.comp_measurable (μ := P) measurable_fst
  have hbP : Integrable (fun p : X × Y => b p.2) P := hbi.comp_measurable (μ := P) measurable_snd
  have iP : Integrable (fun p : X × Y => f p.1 p.2) P := by
    simp only [hf]
    exact haP.add hbP
  have haQ : Integrable (fun p : X × Y => a p.1) (P.fst.prod P.snd) := hai.comp_fst P.snd
  have hbQ : Integrable (fun p : X × Y => b p.2) (P.fst.prod P.snd) := hbi.comp_snd P.fst
  have iQ : Integrable (fun p : X × Y => f p.1 p.2) (P.fst.prod P.snd) := by
    simp only [hf]
    exact haQ.add hbQ
  have e1 : ∫ p, f p.1 p.2 ∂P = ∫ p, f p.1 p.2 ∂(P.fst.prod P.snd) := by
    simp only [hf]
    rw [integral_add haP hbP, integral_add haQ hbQ]
    congr 1
    · rw [integral_fun_fst (μ := P.fst) (ν := P.snd) (f := a)]
      rw [probReal_univ, one_smul]
      exact (integral_map measurable_fst.aemeasurable ha.aestronglyMeasurable).symm
    · rw [integral_fun_snd (μ := P.fst) (ν := P.snd) (f := b)]
      rw [probReal_univ, one_smul]
      exact (integral_map measurable_snd.aemeasurable hb.aestronglyMeasurable).symm
  have f1 : (P.fst.prod P.snd).fst = P.fst := Measure.fst_prod
  have f2 : (P.fst.prod P.snd).snd = P.snd := Measure.snd_prod
  obtain ⟨l1, l2, l3⟩ := limits_le_mi (P := P.fst.prod P.snd) hfm iQ (by rw [f1, f2]; exact iQ) (by rw [f1, f2]; exact hE)
  rw [mutualInfo_prod, f1, f2, ← e1] at l1 l2 l3
  have hz : ∀ {v : ℝ}, ENNReal.ofReal v ≤ 0 → v ≤ 0 := fun h => by simpa using h
  exact ⟨⟨_, (nwj_limit hfm iP hE).1, (nwj_limit hfm iP hE).2, hz l1⟩,
    ⟨_, (donskerVaradhan_limit hfm iP iQ hE).1, (donskerVaradhan_limit hfm iP iQ hE).2, hz l2⟩,
    ⟨_, (infonce_limit hfm iP iQ hE).1, (infonce_limit hfm iP iQ hE).2, hz l3⟩⟩

/-- A layer of the right shape is given by its arrays. -/
theorem exists_dense {l : Linear} (hl : l.WellShaped) {m n : ℕ} (hi : l.inF = m) (ho : l.outF = n) :
    ∃ (W : Fin n → Fin m → ℝ) (b : Fin n → ℝ), l = dense W b := by
  obtain ⟨i, o, weight, bias⟩ := l
  obtain ⟨h1, h2, h3⟩ := hl
  dsimp only at hi ho h1 h2 h3
  subst hi ho
  refine ⟨fun p q => (weight[p.1]'(by omega))[q.1]'(by rw [h3 _ (List.getElem_mem _)]; exact q.2), fun p => bias[p.1]'(by omega), ?_⟩
  unfold dense
  congr 1
  · refine List.ext_getElem (by simp [h1]) fun p hp hp' => ?_
    rw [List.getElem_ofFn]
    refine List.ext_getElem (by simp [h3 _ (List.getElem_mem hp)]) fun q hq hq' => ?_
    rw [List.getElem_ofFn]
  · refine List.ext_getElem (by simp [h2]) fun p hp hp' => ?_
    rw [List.getElem_ofFn]

/-- **C103** Without hidden layers the limits of the objectives are never positive, whatever the (bounded) law and the weights. -/
theorem mlp_no_hidden_blind {LX HX : Fin dx → ℝ} {LY HY : Fin dy → ℝ} (hbox : ∀ᵐ z ∂P, z.1 ∈ Set.Icc LX HX ∧ z.2 ∈ Set.Icc LY HY)
    {layers : List Linear} (hs : layers.map (fun l => (l.inF, l.outF)) = [(dx + dy, 1)]) (hw : ∀ l ∈ layers, l.WellShaped) :
    ∃ f : (Fin dx → ℝ) → (Fin dy → ℝ) → ℝ, (∀ x y, mlpCall layers (List.ofFn x) (List.ofFn y) = .ok (f x y)) ∧
    (∃ v, MeanConverges P (Linear.nwj f) v ∧ MeanConverges P (Quadratic.nwj f) v ∧ v ≤ 0) ∧
    (∃ v, MeanConverges P (Linear.donskerVaradhan f) v ∧ MeanConverges P (Quadratic.donskerVaradhan f) v ∧ v ≤ 0) ∧
    ∃ v, MeanConverges P (Linear.infonce f) v ∧ MeanConverges P (Quadratic.infonce f) v ∧ v ≤ 0 := by
  obtain ⟨l, rfl, hl⟩ := List.map_eq_singleton_iff.1 hs
  rw [Prod.mk.injEq] at hl
  obtain ⟨W, b, rfl⟩ := exists_dense (hw l (by simp)) hl.1 hl.2
  set a₁ : (Fin dx → ℝ) → ℝ := fun x => ∑ i, W 0 (Fin.castAdd dy i) * x i with ha₁
  set b₁ : (Fin dy → ℝ) → ℝ := fun y => ∑ j, W 0 (Fin.natAdd dx j) * y j + b 0 with hb₁
  have ca : Continuous a₁ := continuous_finset_sum _ fun j _ => continuous_const.mul (continuous_apply j)
  have cb : Continuous b₁ := (continuous_finset_sum _ fun j _ => continuous_const.mul (continuous_apply j)).add continuous_const
  obtain ⟨A, hA⟩ := isCompact_Icc.exists_bound_of_continuousOn (s := Set.Icc LX HX) ca.continuousOn
  obtain ⟨B, hB⟩ := isCompact_Icc.exists_bound_of_continuousOn (s := Set.Icc LY HY) cb.continuousOn
  have b1 : ∀ᵐ x ∂P.fst, x ∈ Set.Icc LX HX :=
    (ae_map_iff measurable_fst.aemeasurable (measurableSet_Icc (a := LX) (b := HX))).2 (hbox.mono fun z hz => hz.1)
  have b2 : ∀ᵐ y ∂P.snd, y ∈ Set.Icc LY HY :=
    (ae_map_iff measurable_snd.aemeasurable (measurableSet_Icc (a := LY) (b := HY))).2 (hbox.mono fun z hz => hz.2)
  refine ⟨fun x y => a₁ x + b₁ y, fun x y => ?_, separable_blind (fun x y => rfl) ca.measurable cb.measurable
    (Integrable.of_bound ca.measurable.aestronglyMeasurable A (b1.mono hA)) (Integrable.of_bound cb.measurable.aestronglyMeasurable B (b2.mono hB))
    (Integrable.of_bound ?_ (Real.exp (A + B)) ((box_prod hbox).mono fun z hz => ?_))⟩
  · simp only [mlpCall, List.dropLast_singleton, hiddenPass, ← List.ofFn_fin_append, bind, Except.bind, List.getLast?_singleton, dense_call]
    simp [Fin.sum_univ_add, ha₁, hb₁, add_assoc]
  · exact (Real.continuous_exp.comp ((ca.comp continuous_fst).add (cb.comp continuous_snd))).measurable.aestronglyMeasurable
  · rw [Real.norm_eq_abs, Real.abs_exp]
    exact Real.exp_le_exp.2 (add_le_add ((le_abs_self _).trans (hA _ hz.1)) ((le_abs_self _).trans (hB _ hz.2)))

/-- **C103** On the tasks with uniform variables and additive uniform noise: points drawn from the sampler, and the number it reports. -/
theorem mlp_rich_additiveUniform {Key : Type} [MeasurableSpace Key] (R : JaxRandom Key) (κ : Measure Key) (hR : IdealRandom R κ) {e : ℝ} (he : 0 < e) :
    ∃ s, additiveUniform R e = .ok s ∧ 0 < s.mi ∧ Consistency.Draws κ s (liftPair (uniformNoiseLaw e)) ∧ ∀ c < s.mi, ∀ k : ℕ,
      ∃ (hidden : List ℕ) (layers : List Linear) (f : (Fin 1 → ℝ) → (Fin 1 → ℝ) → ℝ),
        hidden.length = k + 1 ∧ layers.map (fun l => (l.inF, l.outF)) = (2 :: hidden).zip (hidden ++ [1]) ∧ (∀ l ∈ layers, l.WellShaped) ∧
        (∀ x y, mlpCall layers (List.ofFn x) (List.ofFn y) = .ok (f x y)) ∧
        ∃ v, MeanConverges (liftPair (uniformNoiseLaw e)) (Linear.infonce f) v ∧ c < v ∧ v ≤ s.mi := by
  obtain ⟨s, hs, hd, hp, hmi, hpos, hX, hY⟩ := Consistency.additiveUniform_fills R κ hR he
  refine ⟨s, hs, hpos, hd, fun c hc k => ?_⟩
  have hbox : ∀ᵐ z ∂liftPair (uniformNoiseLaw e), z.1 ∈ Set.Icc (fun _ => 0) (fun _ => 1) ∧ z.2 ∈ Set.Icc (fun _ => 0 + -e) (fun _ => 1 + e) := by
    have b1 : ∀ᵐ z ∂liftPair (uniformNoiseLaw e), ∀ j, 0 ≤ z.1 j ∧ z.1 j ≤ 1 := ae_all_iff.2 fun j => ae_of_ae_map (by fun_prop) (hX 0 j).inside
    have b2 : ∀ᵐ z ∂liftPair (uniformNoiseLaw e), ∀ j, 0 + -e ≤ z.2 j ∧ z.2 j ≤ 1 + e := ae_all_iff.2 fun j => ae_of_ae_map (by fun_prop) (hY 0 j).inside
    filter_upwards [b1, b2] with z z1 z2
    exact ⟨⟨fun j => (z1 j).1, fun j => (z1 j).2⟩, fun j => (z2 j).1, fun j => (z2 j).2⟩
  obtain ⟨hidden, layers, f, h1, -, h3, h4, h5, -, -, v, v1, -, v2, v3⟩ := mlp_rich hbox (c := c) (by rwa [hmi, ENNReal.ofReal_lt_ofReal_iff hpos]) k
  rw [hmi, ENNReal.ofReal_le_ofReal_iff hpos.le] at v3
  exact ⟨hidden, layers, f, h1, h3, h4, h5, v, v1, v2, v3⟩

example : ∃ s, additiveUniform tree 0.75 = .ok s ∧ 0 < s.mi := by
  obtain ⟨s, h1, h2, -⟩ := mlp_rich_additiveUniform tree treeLaw tree_ideal (e := 0.75) (by norm_num)
  exact ⟨s, h1, h2⟩

/-- The absolute difference of x and y as a network with two units: `max(x - y, 0) + max(y - x, 0)`. -/
example : mlpCall (net (d := 1 + 1) (h := 2) (fun _ => 1) (fun i j => if i.1 = j.1 then 1 else -1) (fun _ => 0) 0 0) [5] [3] = .ok 2 := by
  have h := net_call (dx := 1) (dy := 1) (h := 2) (fun _ => 1) (fun i j => if i.1 = j.1 then 1 else -1) (fun _ => 0) 0 0 (fun _ => 5) (fun _ => 3)
  simp only [List.ofFn_succ, List.ofFn_zero] at h
  rw [h]
  congr 1
  simp only [unitSum, Fin.sum_univ_add, Fin.sum_univ_two, Fin.sum_univ_one, Fin.append_left, Fin.append_right, one_mul, add_zero]
  norm_num

end BMI.Critic
