import Verif.Props.HistogramBounded
import Verif.Lemmas.VariationalLimit
import Verif.Props.Losses

/-! C102: the limits of the histogram estimator when the cells get narrow. -/

namespace BMI.Consistency

open MeasureTheory ProbabilityTheory Filter BMI.Samplers BMI.PlugIn BMI.Histogram BMI.Neural Topology

variable {Key : Type} [MeasurableSpace Key] {dx dy : ℕ}

/-- The lower corner of a cell. -/
noncomputable def corner {d b : ℕ} (L H : Fin d → ℝ) (a : Fin d → Fin b) : Fin d → ℝ := fun j => L j + (H j - L j) * (a j : ℕ) / b

/-- The corner of the cell of a point is in the box and close to the point. -/
theorem corner_close {d b : ℕ} {L H : Fin d → ℝ} (hLH : ∀ j, L j < H j) {x : Fin d → ℝ} (hx : x ∈ Set.Icc L H) {a : Fin d → Fin b}
    (ha : ∀ j, IsCell (L j) (H j) b (x j) (a j)) {δ : ℝ} (hδ : 0 ≤ δ) (hb : ∀ j, (H j - L j) / b ≤ δ) :
    corner L H a ∈ Set.Icc L H ∧ dist x (corner L H a) ≤ δ := by
  have hb0 : ∀ j, (0 : ℝ) < b := fun j => by exact_mod_cast lt_of_le_of_lt (Nat.zero_le _) (a j).2
  have h1 : ∀ j, 0 ≤ (H j - L j) * (a j : ℕ) / b := fun j =>
    div_nonneg (mul_nonneg (sub_pos.2 (hLH j)).le (Nat.cast_nonneg _)) (hb0 j).le
  refine ⟨⟨fun j => by unfold corner; linarith [h1 j], fun j => ?_⟩, ?_⟩
  · exact ((ha j).2.1).trans (hx.2 j)
  · rw [dist_pi_le_iff hδ]
    intro j
    obtain ⟨c1, c2, c3⟩ := ha j
    have e : (H j - L j) * ((a j : ℕ) + 1) / b = (H j - L j) * (a j : ℕ) / b + (H j - L j) / b := by ring
    have c4 : x j ≤ L j + (H j - L j) * (a j : ℕ) / b + (H j - L j) / b := by
      rcases c3 with c3 | ⟨c3, c5⟩
      · rw [e] at c3
        linarith
      · have : ((a j : ℕ) : ℝ) + 1 = b := by exact_mod_cast c3
        rw [this, mul_div_assoc, div_self (hb0 j).ne', mul_one] at e
        linarith
    rw [Real.dist_eq, abs_of_nonneg (by unfold corner; linarith)]
    unfold corner
    linarith [hb j]

/-- For bounded variables, cells of small width carry nearly all of the mutual information. -/
theorem cells_mi {P : Measure ((Fin dx → ℝ) × (Fin dy → ℝ))} [IsProbabilityMeasure P] {LX HX : Fin dx → ℝ} {LY HY : Fin dy → ℝ}
    (hLX : ∀ j, LX j < HX j) (hLY : ∀ j, LY j < HY j) (hbox : ∀ᵐ z ∂P, z.1 ∈ Set.Icc LX HX ∧ z.2 ∈ Set.Icc LY HY)
    {c : ℝ} (hc : ENNReal.ofReal c < mutualInfo P) :
    ∃ m : ℕ, 0 < m ∧ ∀ bx by' : ℕ, m ≤ bx → m ≤ by' → ∀ (f : (Fin dx → ℝ) → Fin dx → Fin bx) (g : (Fin dy → ℝ) → Fin dy → Fin by'),
      Measurable f → (∀ x j, LX j ≤ x j → x j ≤ HX j → IsCell (LX j) (HX j) bx (x j) (f x j)) →
      Measurable g → (∀ y j, LY j ≤ y j → y j ≤ HY j → IsCell (LY j) (HY j) by' (y j) (g y j)) →
      mutualInfo (P.map (Prod.map f g)) ≠ ⊤ → c < (mutualInfo (P.map (Prod.map f g))).toReal := by
  obtain ⟨φ, hφ, ⟨D, hD⟩, hφc⟩ := dv_continuous (P := P) (Q := P.fst.prod P.snd) hc
  obtain ⟨ε, hε, key⟩ := dv_close hφ.measurable hD hφc
  have hcomp : IsCompact (Set.Icc LX HX ×ˢ Set.Icc LY HY) := isCompact_Icc.prod isCompact_Icc
  obtain ⟨δ, hδ, hu⟩ := Metric.uniformContinuousOn_iff_le.1 (hcomp.uniformContinuousOn_of_continuous hφ.continuousOn) ε hε
  have hm : ∀ t : ℝ, ∃ m : ℕ, ∀ b : ℕ, m ≤ b → t / b ≤ δ := fun t => by
    have h1 : Tendsto (fun b : ℕ => t / (b : ℝ)) atTop (𝓝 0) := tendsto_const_div_atTop_nhds_zero_nat t
    exact eventually_atTop.1 ((h1.eventually (gt_mem_nhds hδ)).mono fun _ h => h.le)
  choose m hm using hm
  refine ⟨max 1 (max (Finset.univ.sup fun j => m (HX j - LX j)) (Finset.univ.sup fun j => m (HY j - LY j))), by simp,
    fun bx by' h1 h2 f g hf hfc hg hgc hfin => ?_⟩
  have w1 : ∀ j, (HX j - LX j) / bx ≤ δ := fun j => hm _ _
    ((Finset.le_sup (f := fun j => m (HX j - LX j)) (Finset.mem_univ j)).trans ((le_max_left _ _).trans ((le_max_right _ _).trans h1)))
  have w2 : ∀ j, (HY j - LY j) / by' ≤ δ := fun j => hm _ _
    ((Finset.le_sup (f := fun j => m (HY j - LY j)) (Finset.mem_univ j)).trans ((le_max_right _ _).trans ((le_max_right _ _).trans h2)))
  have hfg : Measurable (Prod.map f g) := hf.prodMap hg
  haveI : IsProbabilityMeasure (P.map (Prod.map f g)) := Measure.isProbabilityMeasure_map hfg.aemeasurable
  set ψ : (Fin dx → Fin bx) → (Fin dy → Fin by') → ℝ := fun a b => φ (corner LX HX a, corner LY HY b) with hψ
  have hψm : Measurable fun p : (Fin dx → Fin bx) × (Fin dy → Fin by') => ψ p.1 p.2 := measurable_of_finite _
  have hψD : ∀ p : (Fin dx → Fin bx) × (Fin dy → Fin by'), |ψ p.1 p.2| ≤ D := fun p => hD _
  have hkm : Measurable fun z => ψ (Prod.map f g z).1 (Prod.map f g z).2 := hψm.comp hfg
  have hpt : ∀ z : (Fin dx → ℝ) × (Fin dy → ℝ), z.1 ∈ Set.Icc LX HX ∧ z.2 ∈ Set.Icc LY HY → |φ z - ψ (Prod.map f g z).1 (Prod.map f g z).2| ≤ ε := by
    rintro z ⟨z1, z2⟩
    obtain ⟨u1, u2⟩ := corner_close hLX z1 (fun j => hfc z.1 j (z1.1 j) (z1.2 j)) hδ.le w1
    obtain ⟨v1, v2⟩ := corner_close hLY z2 (fun j => hgc z.2 j (z2.1 j) (z2.2 j)) hδ.le w2
    have := hu z ⟨z1, z2⟩ (corner LX HX (f z.1), corner LY HY (g z.2)) ⟨u1, v1⟩ (by rw [Prod.dist_eq]; exact max_le u2 v2)
    rwa [Real.dist_eq] at this
  have hsmall : ∀ μ : Measure ((Fin dx → ℝ) × (Fin dy → ℝ)), [IsProbabilityMeasure μ] → (∀ᵐ z ∂μ, z.1 ∈ Set.Icc LX HX ∧ z.2 ∈ Set.Icc LY HY) →
      ∫ z, |φ z - ψ (Prod.map f g z).1 (Prod.map f g z).2| ∂μ ≤ ε := fun μ _ hμ => by
    refine (integral_mono_of_nonneg (.of_forall fun z => abs_nonneg _) (integrable_const ε) (hμ.mono hpt)).trans ?_
    simp
  have hbox' : ∀ᵐ z ∂P.fst.prod P.snd, z.1 ∈ Set.Icc LX HX ∧ z.2 ∈ Set.Icc LY HY := by
    have b1 : ∀ᵐ x ∂P.fst, x ∈ Set.Icc LX HX := by
      exact (ae_map_iff measurable_fst.aemeasurable (measurableSet_Icc (a := LX) (b := HX))).2 (hbox.mono fun z hz => hz.1)
    have b2 : ∀ᵐ y ∂P.snd, y ∈ Set.Icc LY HY := by
      exact (ae_map_iff measurable_snd.aemeasurable (measurableSet_Icc (a := LY) (b := HY))).2 (hbox.mono fun z hz => hz.2)
    filter_upwards [Measure.quasiMeasurePreserving_fst.ae b1, Measure.quasiMeasurePreserving_snd.ae b2] with z z1 z2
    exact ⟨z1, z2⟩
  have hlt := key _ hkm (fun z => hψD _) (hsmall P hbox) (hsmall (P.fst.prod P.snd) hbox')
  have hem : Measurable fun p : (Fin dx → Fin bx) × (Fin dy → Fin by') => Real.exp (ψ p.1 p.2) := Real.measurable_exp.comp hψm
  have hle := donskerVaradhan_le_mi (P.map (Prod.map f g)) ψ (Batch.integrable_bdd hψm hψD)
    (Batch.integrable_bdd hem (D := Real.exp D) fun p => by
      rw [Real.abs_exp]
      exact Real.exp_le_exp.2 ((le_abs_self _).trans (hψD p)))
  have hprod : (P.map (Prod.map f g)).fst.prod (P.map (Prod.map f g)).snd = (P.fst.prod P.snd).map (Prod.map f g) := by
    have e1 : (P.map (Prod.map f g)).fst = P.fst.map f := map_fst_prodMap P hf hg
    have e2 : (P.map (Prod.map f g)).snd = P.snd.map g := map_snd_prodMap P hf hg
    rw [e1, e2, Measure.map_prod_map _ _ hf hg]
  rw [hprod, integral_map hfg.aemeasurable hψm.aestronglyMeasurable,
    integral_map hfg.aemeasurable hem.aestronglyMeasurable] at hle
  unfold dvValue at hlt
  refine hlt.trans_le ?_
  rwa [ENNReal.ofReal_le_iff_le_toReal hfin] at hle

/-- **C102** With sufficiently narrow cells, the limit of the histogram estimates on bounded variables exceeds any number below the mutual
information; it never exceeds the mutual information itself. -/
theorem histogram_fine {κ : Measure Key} {s : Sampler Key} {P : Measure ((Fin dx → ℝ) × (Fin dy → ℝ))} [IsProbabilityMeasure P]
    (hs : Draws κ s P) (hdx : 0 < dx) (hdy : 0 < dy) {ε : ℝ} (hε : 0 ≤ ε)
    {LX HX : Fin dx → ℝ} {LY HY : Fin dy → ℝ} (hX : ∀ b j, Fills (P.map fun z => z.1 j) b (LX j) (HX j))
    (hY : ∀ b j, Fills (P.map fun z => z.2 j) b (LY j) (HY j)) {c : ℝ} (hc : ENNReal.ofReal c < mutualInfo P) :
    ∃ m : ℕ, 0 < m ∧ ∀ p : Params, m ≤ p.nBinsX → m ≤ p.nBinsY →
      ∃ v, ConvergesTo κ s (histogramGives (dx := dx) (dy := dy) ε p) v ∧ c < v ∧ ENNReal.ofReal v ≤ mutualInfo P := by
  have hbox : ∀ᵐ z ∂P, z.1 ∈ Set.Icc LX HX ∧ z.2 ∈ Set.Icc LY HY := by
    have b1 : ∀ᵐ z ∂P, ∀ j, LX j ≤ z.1 j ∧ z.1 j ≤ HX j := ae_all_iff.2 fun j => ae_of_ae_map (by fun_prop) (hX 0 j).inside
    have b2 : ∀ᵐ z ∂P, ∀ j, LY j ≤ z.2 j ∧ z.2 j ≤ HY j := ae_all_iff.2 fun j => ae_of_ae_map (by fun_prop) (hY 0 j).inside
    filter_upwards [b1, b2] with z z1 z2
    exact ⟨⟨fun j => (z1 j).1, fun j => (z1 j).2⟩, fun j => (z2 j).1, fun j => (z2 j).2⟩
  obtain ⟨m, hm, H⟩ := cells_mi (fun j => (hX 0 j).lt) (fun j => (hY 0 j).lt) hbox hc
  refine ⟨m, hm, fun p h1 h2 => ?_⟩
  have hx : 0 < p.nBinsX := hm.trans_le h1
  have hy : 0 < p.nBinsY := hm.trans_le h2
  obtain ⟨f, hf, hfc⟩ := exists_cells hx fun j => (hX 0 j).lt
  obtain ⟨g, hg, hgc⟩ := exists_cells hy fun j => (hY 0 j).lt
  obtain ⟨k1, k2, k3⟩ := histogram_bounded hs hdx hdy hε hx hy (hX _) (hY _) hf hfc hg hgc
  refine ⟨_, k1, H _ _ h1 h2 f g hf hfc hg hgc k2, ?_⟩
  rwa [ENNReal.ofReal_toReal k2]

/-- **C102** Hence the error which remains with many points tends to zero as the cells get narrow. -/
theorem histogram_bias {κ : Measure Key} {s : Sampler Key} {P : Measure ((Fin dx → ℝ) × (Fin dy → ℝ))} [IsProbabilityMeasure P]
    (hs : Draws κ s P) (hdx : 0 < dx) (hdy : 0 < dy) {ε : ℝ} (hε : 0 ≤ ε)
    {LX HX : Fin dx → ℝ} {LY HY : Fin dy → ℝ} (hX : ∀ b j, Fills (P.map fun z => z.1 j) b (LX j) (HX j))
    (hY : ∀ b j, Fills (P.map fun z => z.2 j) b (LY j) (HY j)) (hfin : mutualInfo P ≠ ⊤) {η : ℝ} (hη : 0 < η) :
    ∃ m : ℕ, 0 < m ∧ ∀ p : Params, m ≤ p.nBinsX → m ≤ p.nBinsY →
      Tendsto (fun n => κ {k | ¬ ∃ x y t, s.sample n (.key k) = .ok (rowsOf (d := dx) x, rowsOf (d := dy) y) ∧
        histogramGives ε p n x y t ∧ |t - (mutualInfo P).toReal| < η}) atTop (𝓝 0) := by
  by_cases h0 : mutualInfo P = 0
  · refine ⟨1, one_pos, fun p h1 h2 => ?_⟩
    obtain ⟨f, hf, hfc⟩ := exists_cells h1 fun j => (hX 0 j).lt
    obtain ⟨g, hg, hgc⟩ := exists_cells h2 fun j => (hY 0 j).lt
    obtain ⟨k1, -, k3⟩ := histogram_bounded hs hdx hdy hε h1 h2 (hX _) (hY _) hf hfc hg hgc
    rw [h0, nonpos_iff_eq_zero] at k3
    rw [h0]
    rw [k3] at k1
    exact k1 η hη
  · have hpos : 0 < (mutualInfo P).toReal := ENNReal.toReal_pos h0 hfin
    obtain ⟨m, hm, H⟩ := histogram_fine (c := (mutualInfo P).toReal - η / 2) hs hdx hdy hε hX hY
      (((ENNReal.ofReal_lt_ofReal_iff hpos).2 (by linarith)).trans_eq (ENNReal.ofReal_toReal hfin))
    refine ⟨m, hm, fun p h1 h2 => ?_⟩
    obtain ⟨v, v1, v2, v3⟩ := H p h1 h2
    rw [ENNReal.ofReal_le_iff_le_toReal hfin] at v3
    refine tendsto_of_tendsto_of_tendsto_of_le_of_le tendsto_const_nhds (v1 (η / 2) (half_pos hη)) (fun _ => bot_le) fun n => ?_
    refine measure_mono fun k hk hk' => hk ?_
    obtain ⟨x, y, t, t1, t2, t3⟩ := hk'
    refine ⟨x, y, t, t1, t2, ?_⟩
    rw [abs_lt] at t3 ⊢
    constructor <;> linarith

/-- The task with uniform variables and additive uniform noise: the columns fill intervals, and the number reported is positive. -/
theorem additiveUniform_fills (R : JaxRandom Key) (κ : Measure Key) (hR : IdealRandom R κ) {e : ℝ} (he : 0 < e) :
    ∃ s, additiveUniform R e = .ok s ∧ Draws κ s (liftPair (uniformNoiseLaw e)) ∧ IsProbabilityMeasure (liftPair (uniformNoiseLaw e)) ∧
      mutualInfo (liftPair (uniformNoiseLaw e)) = ENNReal.ofReal s.mi ∧ 0 < s.mi ∧
      (∀ b j, Fills ((liftPair (uniformNoiseLaw e)).map fun z => z.1 j) b 0 1) ∧
      ∀ b j, Fills ((liftPair (uniformNoiseLaw e)).map fun z => z.2 j) b (0 + -e) (1 + e) := by
  have pu : IsProbabilityMeasure (uniformLaw 0 1) := isProbabilityMeasure_uniformLaw (by norm_num)
  have pn : IsProbabilityMeasure (uniformLaw (-e) e) := isProbabilityMeasure_uniformLaw (by linarith)
  have pU : IsProbabilityMeasure (uniformNoiseLaw e) := by unfold uniformNoiseLaw; infer_instance
  obtain ⟨s, hs, hc⟩ := additiveUniform_correct R κ hR e he
  set P := liftPair (uniformNoiseLaw e) with hP
  have ms : Measurable (Prod.map single single : ℝ × ℝ → _) := measurable_single.prodMap measurable_single
  have hPmap : P = ((uniformLaw 0 1).prod (uniformLaw (-e) e)).map fun z => (single z.1, single (z.1 + z.2)) := by
    rw [hP, liftPair, uniformNoiseLaw, additiveLaw, Measure.map_map ms measurable_shear]
    rfl
  have m0 : Measurable fun z : ℝ × ℝ => (single z.1, single (z.1 + z.2)) := ms.comp measurable_shear
  have m1 : Measurable fun z : (Fin 1 → ℝ) × (Fin 1 → ℝ) => z.1 0 := by fun_prop
  have m2 : Measurable fun z : (Fin 1 → ℝ) × (Fin 1 → ℝ) => z.2 0 := by fun_prop
  have hX0 : P.map (fun z => z.1 0) = uniformLaw 0 1 := by
    rw [hPmap, Measure.map_map m1 m0]
    exact Measure.map_fst_prod.trans (by simp)
  have hY0 : P.map (fun z => z.2 0) = ((uniformLaw 0 1).prod (uniformLaw (-e) e)).map fun z => z.1 + z.2 := by
    rw [hPmap, Measure.map_map m2 m0]
    rfl
  have hpos : 0 < s.mi := by
    obtain ⟨s', c, hs', -, c1, c2⟩ := histogram_additiveUniform R κ hR he le_rfl (p := ⟨1, 1, false⟩) one_pos one_pos
    rw [hs] at hs'
    injection hs' with hs'
    rw [hs']
    exact c1.trans_lt c2
  refine ⟨s, hs, fun n _ => hc.law n, hc.prob, hc.mi, hpos, fun b j => ?_, fun b j => ?_⟩
  · rw [Subsingleton.elim j 0, hX0]
    exact fills_uniform one_pos _
  · rw [Subsingleton.elim j 0, hY0]
    exact fills_add (fills_uniform one_pos 1) (fills_uniform (by linarith) 1) fun x => by unfold uniformLaw; simp

/-- **C102** On the tasks with uniform variables and additive uniform noise: the limit is at most the number the sampler reports, and as close to
it as one likes if the cells are narrow. -/
theorem histogram_additiveUniform_fine (R : JaxRandom Key) (κ : Measure Key) (hR : IdealRandom R κ) {e : ℝ} (he : 0 < e) {ε : ℝ} (hε : 0 ≤ ε) :
    ∃ s, additiveUniform R e = .ok s ∧ ∀ c < s.mi, ∃ m : ℕ, 0 < m ∧ ∀ p : Params, m ≤ p.nBinsX → m ≤ p.nBinsY →
      ∃ v, ConvergesTo κ s (histogramGives (dx := 1) (dy := 1) ε p) v ∧ c < v ∧ v ≤ s.mi := by
  obtain ⟨s, hs, hd, hp, hmi, hpos, hX, hY⟩ := additiveUniform_fills R κ hR he
  refine ⟨s, hs, fun c hcs => ?_⟩
  obtain ⟨m, hm, H⟩ := histogram_fine (c := c) (LX := fun _ => 0) (HX := fun _ => 1) (LY := fun _ => 0 + -e) (HY := fun _ => 1 + e)
    hd one_pos one_pos hε hX hY (by rw [hmi, ENNReal.ofReal_lt_ofReal_iff hpos]; exact hcs)
  refine ⟨m, hm, fun p h1 h2 => ?_⟩
  obtain ⟨v, v1, v2, v3⟩ := H p h1 h2
  rw [hmi, ENNReal.ofReal_le_ofReal_iff hpos.le] at v3
  exact ⟨v, v1, v2, v3⟩

example : ∃ s, additiveUniform tree 0.75 = .ok s ∧ ∀ c < s.mi, ∃ m : ℕ, 0 < m ∧ ∀ p : Params, m ≤ p.nBinsX → m ≤ p.nBinsY →
    ∃ v, ConvergesTo treeLaw s (histogramGives (dx := 1) (dy := 1) 0 p) v ∧ c < v ∧ v ≤ s.mi :=
  histogram_additiveUniform_fine tree treeLaw tree_ideal (by norm_num) le_rfl

end BMI.Consistency
