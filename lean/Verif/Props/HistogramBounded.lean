import Verif.Props.HistogramLimit
import Verif.Lemmas.Binned
import Verif.Lemmas.StrictDpi
import Verif.Props.AdditiveUniform
import Mathlib.MeasureTheory.Function.Floor

/-! C100, continued: the histogram estimator on bounded variables. -/

namespace BMI.Consistency

open MeasureTheory ProbabilityTheory Filter BMI.Samplers BMI.PlugIn BMI.Histogram Topology

variable {Key : Type} [MeasurableSpace Key] {dx dy : ℕ}

/-- Finitely many requirements. -/
theorem all_tendsto {E ι : Type} [MeasurableSpace E] [Fintype ι] {P : Measure E} {good : ι → (n : ℕ) → (Fin n → E) → Prop}
    (h : ∀ j, Tendsto (fun n => (Measure.pi fun _ : Fin n => P) {w | ¬ good j n w}) atTop (𝓝 0)) :
    Tendsto (fun n => (Measure.pi fun _ : Fin n => P) {w | ¬ ∀ j, good j n w}) atTop (𝓝 0) := by
  have h1 := tendsto_finset_sum Finset.univ fun j _ => h j
  rw [Finset.sum_const_zero] at h1
  refine tendsto_of_tendsto_of_tendsto_of_le_of_le tendsto_const_nhds h1 (fun _ => bot_le) fun n => ?_
  have h2 : {w : Fin n → E | ¬ ∀ j, good j n w} = ⋃ j, {w | ¬ good j n w} := by ext w; simp
  simp only [h2]
  exact (measure_iUnion_le _).trans (tsum_fintype _).le

open Classical in
/-- On a sample which fills the ranges of the columns, few points are in another cell than they would be for the full ranges. -/
theorem few_change {E : Type} {n d b : ℕ} (hn : 0 < n) {c : Fin d → E → ℝ} {w : Fin n → E} {L H η : Fin d → ℝ} {δ : ℝ}
    (hη : ∀ j, 2 * η j ≤ H j - L j) (hfill : ∀ j, Filled (c j) b (L j) (H j) (η j) δ w) {A A' : Fin n → Fin d → Fin b}
    (hA : ∀ i j, ∃ lo hi, IsRange (fun i' => c j (w i')) lo hi ∧ IsCell lo hi b (c j (w i)) (A i j))
    (hA' : ∀ i j, L j ≤ c j (w i) → c j (w i) ≤ H j → IsCell (L j) (H j) b (c j (w i)) (A' i j)) :
    ((Finset.univ.filter fun i => A i ≠ A' i).card : ℝ) ≤ d * δ * n := by
  have h1 : ∀ i, (∀ j, c j (w i) ∉ nearEdge b (L j) (H j) (η j)) → A i = A' i := by
    intro i hi
    funext j
    obtain ⟨lo, hi', ⟨p, q, hpq, hr⟩, hc⟩ := hA i j
    obtain ⟨s1, ⟨i1, s2⟩, ⟨i2, s3⟩, -⟩ := hfill j
    have t1 := (hpq i1).1
    have t2 := (hpq i2).2
    have t3 := s1 p
    have t4 := s1 q
    have t5 := hη j
    dsimp only at t1 t2 hr
    rcases hr with ⟨r1, rfl, rfl⟩ | ⟨r1, -, -⟩
    · exact Fin.ext (same_cell t3.1 (by linarith) t4.2 (by linarith) r1 (hi j) hc (hA' i j (s1 i).1 (s1 i).2))
    · linarith
  have h2 : (Finset.univ.filter fun i => A i ≠ A' i).card ≤
      ∑ j, (Finset.univ.filter fun i => c j (w i) ∈ nearEdge b (L j) (H j) (η j)).card := by
    refine le_trans (Finset.card_le_card ?_) Finset.card_biUnion_le
    intro i hi
    simp only [Finset.mem_biUnion, Finset.mem_univ, true_and, Finset.mem_filter] at hi ⊢
    by_contra hcon
    push Not at hcon
    exact hi (h1 i hcon)
  calc ((Finset.univ.filter fun i => A i ≠ A' i).card : ℝ)
      ≤ ∑ j, ((Finset.univ.filter fun i => c j (w i) ∈ nearEdge b (L j) (H j) (η j)).card : ℝ) := by exact_mod_cast h2
    _ ≤ ∑ _j : Fin d, δ * n := Finset.sum_le_sum fun j _ => (hfill j).2.2.2.le
    _ = d * δ * n := by rw [Finset.sum_const, Finset.card_univ, Fintype.card_fin, nsmul_eq_mul]; ring

/-- **C100** If the variables are bounded - each column fills an interval - the estimates converge in probability to the mutual
information of the cells of X and Y in those intervals, which is at most the mutual information of X and Y. -/
theorem histogram_bounded {κ : Measure Key} {s : Sampler Key} {P : Measure ((Fin dx → ℝ) × (Fin dy → ℝ))} [IsProbabilityMeasure P]
    (hs : Draws κ s P) (hdx : 0 < dx) (hdy : 0 < dy) {ε : ℝ} (hε : 0 ≤ ε) {p : Params} (hx : 0 < p.nBinsX) (hy : 0 < p.nBinsY)
    {LX HX : Fin dx → ℝ} {LY HY : Fin dy → ℝ} (hX : ∀ j, Fills (P.map fun z => z.1 j) p.nBinsX (LX j) (HX j))
    (hY : ∀ j, Fills (P.map fun z => z.2 j) p.nBinsY (LY j) (HY j))
    {f : (Fin dx → ℝ) → Fin dx → Fin p.nBinsX} (hf : Measurable f)
    (hfc : ∀ x j, LX j ≤ x j → x j ≤ HX j → IsCell (LX j) (HX j) p.nBinsX (x j) (f x j))
    {g : (Fin dy → ℝ) → Fin dy → Fin p.nBinsY} (hg : Measurable g)
    (hgc : ∀ y j, LY j ≤ y j → y j ≤ HY j → IsCell (LY j) (HY j) p.nBinsY (y j) (g y j)) :
    ConvergesTo κ s (histogramGives (dx := dx) (dy := dy) ε p) (mutualInfo (P.map (Prod.map f g))).toReal ∧
      mutualInfo (P.map (Prod.map f g)) ≠ ⊤ ∧ mutualInfo (P.map (Prod.map f g)) ≤ mutualInfo P := by
  classical
  have hfg : Measurable (Prod.map f g) := hf.prodMap hg
  haveI : IsProbabilityMeasure (P.map (Prod.map f g)) := Measure.isProbabilityMeasure_map hfg.aemeasurable
  obtain ⟨m1, m2⟩ := mutualInfo_table (P.map (Prod.map f g))
  refine ⟨converges_of_small hs fun η hη => ?_, m1, mutualInfo_map_le P hf hg⟩
  rw [m2]
  obtain ⟨δ, hδ, hclose⟩ := tableInfo_close (fun a b => (P.map (Prod.map f g)).real {(a, b)}) hη
  set δ' : ℝ := δ / 2 / (dx + dy + 1) with hδ'
  have hδ'0 : 0 < δ' := by positivity
  choose ηX hηX hηX2 tX using fun j => filled_tendsto (c := fun z : (Fin dx → ℝ) × (Fin dy → ℝ) => z.1 j) (by fun_prop) (hX j) hδ'0
  choose ηY hηY hηY2 tY using fun j => filled_tendsto (c := fun z : (Fin dx → ℝ) × (Fin dy → ℝ) => z.2 j) (by fun_prop) (hY j) hδ'0
  have tF : ∀ ab : (Fin dx → Fin p.nBinsX) × (Fin dy → Fin p.nBinsY), Tendsto (fun n => (Measure.pi fun _ : Fin n => P)
      {w | ¬ |((Finset.univ.filter fun i => w i ∈ Prod.map f g ⁻¹' {ab}).card : ℝ) / n - P.real (Prod.map f g ⁻¹' {ab})| < δ / 2}) atTop (𝓝 0) := by
    intro ab
    have := frequency_tendsto (P := P) (hfg (measurableSet_singleton ab)) (half_pos hδ)
    simpa only [not_lt] using this
  have t1 := (all_tendsto tX).add ((all_tendsto tY).add (all_tendsto tF))
  rw [add_zero, add_zero] at t1
  refine ⟨fun n => {w | ¬ ∀ j, Filled (fun z : (Fin dx → ℝ) × (Fin dy → ℝ) => z.1 j) p.nBinsX (LX j) (HX j) (ηX j) δ' w} ∪
      ({w | ¬ ∀ j, Filled (fun z : (Fin dx → ℝ) × (Fin dy → ℝ) => z.2 j) p.nBinsY (LY j) (HY j) (ηY j) δ' w} ∪
      {w | ¬ ∀ ab, |((Finset.univ.filter fun i => w i ∈ Prod.map f g ⁻¹' {ab}).card : ℝ) / n - P.real (Prod.map f g ⁻¹' {ab})| < δ / 2}),
    tendsto_of_tendsto_of_tendsto_of_le_of_le tendsto_const_nhds t1 (fun _ => bot_le) fun n =>
      (measure_union_le _ _).trans (add_le_add le_rfl (measure_union_le _ _)), ?_⟩
  filter_upwards [eventually_gt_atTop 0] with n hn z hz
  have hn' : (0 : ℝ) < n := by exact_mod_cast hn
  simp only [Set.mem_union, Set.mem_setOf_eq, not_or, not_not] at hz
  obtain ⟨z1, z2, z3⟩ := hz
  obtain ⟨A, B, h1, h2, h3⟩ := estimate_raw ε hε p hx hy (fun i => (z i).1) (fun i => (z i).2) hn hdx hdy
  refine ⟨_, h1, ?_⟩
  have hAlt : ∀ i j, A i j < p.nBinsX := fun i j => by obtain ⟨lo, hi, -, hc⟩ := h2 i j; exact hc.1
  have hBlt : ∀ i j, B i j < p.nBinsY := fun i j => by obtain ⟨lo, hi, -, hc⟩ := h3 i j; exact hc.1
  have hinfo : info A B = info (fun i j => (⟨A i j, hAlt i j⟩ : Fin p.nBinsX)) (fun i j => (⟨B i j, hBlt i j⟩ : Fin p.nBinsY)) := by
    refine info_map (fun i j => (⟨A i j, hAlt i j⟩ : Fin p.nBinsX)) (fun i j => (⟨B i j, hBlt i j⟩ : Fin p.nBinsY))
      (fun a j => (a j : ℕ)) (fun b j => (b j : ℕ)) ?_ ?_
    · intro a a' haa; funext j; exact Fin.ext (congrFun haa j)
    · intro a a' haa; funext j; exact Fin.ext (congrFun haa j)
  rw [hinfo, info_eq_tableInfo]
  refine hclose _ fun a b => ?_
  have e1 := few_change hn hηX2 z1 (A := fun i j => ⟨A i j, hAlt i j⟩) (A' := fun i => f (z i).1) h2 (fun i j => hfc _ j)
  have e2 := few_change hn hηY2 z2 (A := fun i j => ⟨B i j, hBlt i j⟩) (A' := fun i => g (z i).2) h3 (fun i j => hgc _ j)
  have e3 := freq_close (fun i j => (⟨A i j, hAlt i j⟩ : Fin p.nBinsX)) (fun i => f (z i).1)
    (fun i j => (⟨B i j, hBlt i j⟩ : Fin p.nBinsY)) (fun i => g (z i).2) a b
  have e4 := z3 (a, b)
  have e5 : freq (fun i => f (z i).1) (fun i => g (z i).2) a b =
      ((Finset.univ.filter fun i => z i ∈ Prod.map f g ⁻¹' {(a, b)}).card : ℝ) / n := by
    unfold freq
    congr! 4
    simp [Prod.ext_iff]
  have e6 : (P.map (Prod.map f g)).real {(a, b)} = P.real (Prod.map f g ⁻¹' {(a, b)}) := by
    rw [measureReal_def, Measure.map_apply hfg (measurableSet_singleton _), ← measureReal_def]
  have e7 : ((Finset.univ.filter fun i => (fun j => (⟨A i j, hAlt i j⟩ : Fin p.nBinsX)) ≠ f (z i).1 ∨
      (fun j => (⟨B i j, hBlt i j⟩ : Fin p.nBinsY)) ≠ g (z i).2).card : ℝ) / n ≤ δ / 2 := by
    rw [div_le_iff₀ hn', Finset.filter_or]
    refine le_trans (Nat.cast_le.2 (Finset.card_union_le _ _)) ?_
    push_cast
    have : (dx + dy : ℝ) * δ' ≤ δ / 2 := by
      rw [hδ', mul_div_assoc', div_le_iff₀ (by positivity)]
      nlinarith
    calc _ ≤ dx * δ' * n + dy * δ' * n := add_le_add e1 e2
      _ = (dx + dy) * δ' * n := by ring
      _ ≤ δ / 2 * n := by gcongr
  rw [← e5, ← e6] at e4
  calc _ ≤ |freq (fun i j => (⟨A i j, hAlt i j⟩ : Fin p.nBinsX)) (fun i j => (⟨B i j, hBlt i j⟩ : Fin p.nBinsY)) a b -
        freq (fun i => f (z i).1) (fun i => g (z i).2) a b| +
        |freq (fun i => f (z i).1) (fun i => g (z i).2) a b - (P.map (Prod.map f g)).real {(a, b)}| := abs_sub_le _ _ _
    _ < δ / 2 + δ / 2 := add_lt_add_of_le_of_lt (e3.trans (le_of_eq_of_le (by congr!) e7)) e4
    _ = δ := add_halves δ

/-- Cells exist. -/
theorem exists_cells {d b : ℕ} (hb : 0 < b) {L H : Fin d → ℝ} (hLH : ∀ j, L j < H j) :
    ∃ f : (Fin d → ℝ) → Fin d → Fin b, Measurable f ∧ ∀ x j, L j ≤ x j → x j ≤ H j → IsCell (L j) (H j) b (x j) (f x j) := by
  refine ⟨fun x j => ⟨min ⌊(x j - L j) / (H j - L j) * b⌋₊ (b - 1), by omega⟩, ?_, fun x j h1 h2 => ?_⟩
  · refine measurable_pi_lambda _ fun j => ?_
    have m1 : Measurable fun x : Fin d → ℝ => ⌊(x j - L j) / (H j - L j) * b⌋₊ := Nat.measurable_floor.comp (by fun_prop)
    exact (measurable_from_nat (f := fun m => (⟨min m (b - 1), by omega⟩ : Fin b))).comp m1
  · have hlt : 0 < H j - L j := sub_pos.2 (hLH j)
    have hb' : (0 : ℝ) < b := by exact_mod_cast hb
    set t := (x j - L j) / (H j - L j) * b with ht
    have ht0 : 0 ≤ t := mul_nonneg (div_nonneg (by linarith) hlt.le) hb'.le
    have hxt : x j = L j + (H j - L j) * t / b := by rw [ht]; field_simp; ring
    have hfl := Nat.floor_le ht0
    have hfu := Nat.lt_floor_add_one t
    refine ⟨by dsimp only; omega, ?_, ?_⟩
    · have : ((min ⌊t⌋₊ (b - 1) : ℕ) : ℝ) ≤ t := le_trans (by exact_mod_cast min_le_left _ _) hfl
      rw [hxt]
      dsimp only
      gcongr
    · dsimp only
      by_cases hc : ⌊t⌋₊ ≤ b - 1
      · left
        rw [min_eq_left hc]
        nth_rw 1 [hxt]
        gcongr
      · right
        rw [min_eq_right (show b - 1 ≤ ⌊t⌋₊ by omega)]
        refine ⟨by omega, le_antisymm h2 ?_⟩
        have hbt : (b : ℝ) ≤ t := le_trans (by exact_mod_cast (by omega : b ≤ ⌊t⌋₊)) hfl
        rw [hxt]
        have : (H j - L j) * b / b ≤ (H j - L j) * t / b := by gcongr
        rw [mul_div_assoc, div_self hb'.ne', mul_one] at this
        linarith

theorem uniformLaw_ne_zero {lo hi : ℝ} (h : lo < hi) {a b : ℝ} (hab : a < b) (ha : a < hi) (hb : lo < b) : uniformLaw lo hi (Set.Ioo a b) ≠ 0 := by
  unfold uniformLaw
  rw [Measure.smul_apply, Measure.restrict_apply measurableSet_Ioo, smul_eq_mul]
  refine mul_ne_zero ?_ ?_
  · simpa using h
  · have : Set.Ioo (max a lo) (min b hi) ⊆ Set.Ioo a b ∩ Set.Icc lo hi := by
      intro x hx
      simp only [Set.mem_Ioo, max_lt_iff, lt_min_iff] at hx
      exact ⟨⟨hx.1.1, hx.2.1⟩, hx.1.2.le, hx.2.2.le⟩
    refine fun h0 => absurd (measure_mono_null this h0) ?_
    rw [Real.volume_Ioo]
    simp [hab, ha, hb, h]

theorem fills_uniform {lo hi : ℝ} (h : lo < hi) (b : ℕ) : Fills (uniformLaw lo hi) b lo hi where
  lt := h
  inside := by
    unfold uniformLaw
    exact Measure.ae_smul_measure (ae_restrict_mem measurableSet_Icc) _
  low η hη := fun h0 => uniformLaw_ne_zero h (show lo - 1 < lo + η by linarith) (by linarith) (by linarith)
    (measure_mono_null Set.Ioo_subset_Iio_self h0)
  high η hη := fun h0 => uniformLaw_ne_zero h (show hi - η < hi + 1 by linarith) (by linarith) (by linarith)
    (measure_mono_null Set.Ioo_subset_Ioi_self h0)
  edges k _ _ := by
    unfold uniformLaw
    simp

/-- The sum of independent variables which fill intervals. -/
theorem fills_add {μ ν : Measure ℝ} [IsProbabilityMeasure μ] [IsProbabilityMeasure ν] {b b' c : ℕ} {L H L' H' : ℝ} (h : Fills μ b L H)
    (h' : Fills ν b' L' H') (hat : ∀ x, ν {x} = 0) : Fills ((μ.prod ν).map fun z => z.1 + z.2) c (L + L') (H + H') := by
  have hm : Measurable fun z : ℝ × ℝ => z.1 + z.2 := by fun_prop
  have hprod : ∀ S T : Set ℝ, μ S ≠ 0 → ν T ≠ 0 → ∀ U : Set ℝ, MeasurableSet U → (∀ x ∈ S, ∀ y ∈ T, x + y ∈ U) →
      ((μ.prod ν).map fun z => z.1 + z.2) U ≠ 0 := by
    intro S T hS hT U hU hSTU h0
    rw [Measure.map_apply hm hU] at h0
    have : S ×ˢ T ⊆ (fun z : ℝ × ℝ => z.1 + z.2) ⁻¹' U := fun z hz => hSTU _ hz.1 _ hz.2
    have h1 := measure_mono_null this h0
    rw [Measure.prod_prod] at h1
    exact mul_ne_zero hS hT h1
  refine ⟨by linarith [h.lt, h'.lt], ?_, fun η hη => ?_, fun η hη => ?_, fun k _ _ => ?_⟩
  · rw [ae_map_iff hm.aemeasurable (measurableSet_Icc (a := L + L') (b := H + H'))]
    have h1 := Measure.quasiMeasurePreserving_fst (μ := μ) (ν := ν) |>.ae h.inside
    have h2 := Measure.quasiMeasurePreserving_snd (μ := μ) (ν := ν) |>.ae h'.inside
    filter_upwards [h1, h2] with z z1 z2
    exact ⟨by linarith [z1.1, z2.1], by linarith [z1.2, z2.2]⟩
  · refine hprod _ _ (h.low (η / 2) (half_pos hη)) (h'.low (η / 2) (half_pos hη)) _ measurableSet_Iio fun x hx y hy => ?_
    simp only [Set.mem_Iio] at hx hy ⊢
    linarith
  · refine hprod _ _ (h.high (η / 2) (half_pos hη)) (h'.high (η / 2) (half_pos hη)) _ measurableSet_Ioi fun x hx y hy => ?_
    simp only [Set.mem_Ioi] at hx hy ⊢
    linarith
  · rw [Measure.map_apply hm (measurableSet_singleton _), Measure.prod_apply (hm (measurableSet_singleton _))]
    generalize L + L' + (H + H' - (L + L')) * k / c = t
    have : ∀ x, ν (Prod.mk x ⁻¹' ((fun z : ℝ × ℝ => z.1 + z.2) ⁻¹' {t})) = 0 := fun x => by
      refine measure_mono_null (fun y hy => ?_) (hat (t - x))
      simp only [Set.mem_preimage, Set.mem_singleton_iff] at hy ⊢
      linarith
    simp [this]

/-- The first cell. -/
theorem first_cell {L H x : ℝ} {b : ℕ} (hb : 0 < b) (h1 : L ≤ x) (h2 : x < L + (H - L) / b) : IsCell L H b x 0 := by
  refine ⟨hb, by simpa using h1, .inl ?_⟩
  simpa using h2

/-- **C100** On the tasks with uniform variables and additive uniform noise the estimates converge to a number below the mutual
information the sampler reports, for all numbers of cells. -/
theorem histogram_additiveUniform (R : JaxRandom Key) (κ : Measure Key) (hR : IdealRandom R κ) {e : ℝ} (he : 0 < e) {ε : ℝ} (hε : 0 ≤ ε)
    {p : Params} (hx : 0 < p.nBinsX) (hy : 0 < p.nBinsY) :
    ∃ s c, additiveUniform R e = .ok s ∧ ConvergesTo κ s (histogramGives (dx := 1) (dy := 1) ε p) c ∧ 0 ≤ c ∧ c < s.mi := by
  have pu : IsProbabilityMeasure (uniformLaw 0 1) := isProbabilityMeasure_uniformLaw (by norm_num)
  have pn : IsProbabilityMeasure (uniformLaw (-e) e) := isProbabilityMeasure_uniformLaw (by linarith)
  have pU : IsProbabilityMeasure (uniformNoiseLaw e) := by unfold uniformNoiseLaw; infer_instance
  obtain ⟨s, hs, hc⟩ := additiveUniform_correct R κ hR e he
  set P := liftPair (uniformNoiseLaw e) with hP
  have ms : Measurable (Prod.map single single : ℝ × ℝ → _) := measurable_single.prodMap measurable_single
  have hPmap : P = ((uniformLaw 0 1).prod (uniformLaw (-e) e)).map fun z => (single z.1, single (z.1 + z.2)) := by
    rw [hP, liftPair, uniformNoiseLaw, additiveLaw, Measure.map_map ms measurable_shear]
    rfl
  have m0 : Measurable fun z : ℝ × ℝ => (single z.1, single (z.1 + z.2)) := ms.comp measurable_shear
  have m1 : Measurable fun z : (Fin 1 → ℝ) × (Fin 1 → ℝ) => z.1 0 := by fun_prop
  have m2 : Measurable fun z : (Fin 1 → ℝ) × (Fin 1 → ℝ) => z.2 0 := by fun_prop
  have hX0 : P.map (fun z => z.1 0) = uniformLaw 0 1 := by
    rw [hPmap, Measure.map_map m1 m0]
    exact Measure.map_fst_prod.trans (by simp)
  have hY0 : P.map (fun z => z.2 0) = ((uniformLaw 0 1).prod (uniformLaw (-e) e)).map fun z => z.1 + z.2 := by
    rw [hPmap, Measure.map_map m2 m0]
    rfl
  have hX : ∀ j : Fin 1, Fills (P.map fun z => z.1 j) p.nBinsX 0 1 := fun j => by
    rw [Subsingleton.elim j 0, hX0]
    exact fills_uniform one_pos _
  have hY : ∀ j : Fin 1, Fills (P.map fun z => z.2 j) p.nBinsY (0 + -e) (1 + e) := fun j => by
    rw [Subsingleton.elim j 0, hY0]
    exact fills_add (fills_uniform one_pos 1) (fills_uniform (by linarith) 1) fun x => by unfold uniformLaw; simp
  obtain ⟨f, hf, hfc⟩ := exists_cells (d := 1) hx (L := fun _ => 0) (H := fun _ => 1) fun _ => one_pos
  obtain ⟨g, hg, hgc⟩ := exists_cells (d := 1) hy (L := fun _ => 0 + -e) (H := fun _ => 1 + e) fun _ => by linarith
  haveI := hc.prob
  obtain ⟨h1, h2, -⟩ := histogram_bounded (fun n _ => hc.law n) one_pos one_pos hε hx hy hX hY hf hfc hg hgc
  refine ⟨s, _, hs, h1, ENNReal.toReal_nonneg, ?_⟩
  rw [← ENNReal.ofReal_lt_ofReal_iff_of_nonneg ENNReal.toReal_nonneg, ENNReal.ofReal_toReal h2, ← hc.mi]
  have hbx : (0 : ℝ) < p.nBinsX := by exact_mod_cast hx
  have hby : (0 : ℝ) < p.nBinsY := by exact_mod_cast hy
  obtain ⟨t, ht0, ht1, ht2⟩ : ∃ t > 0, t ≤ (1 - 0) / (p.nBinsX : ℝ) ∧ t ≤ (1 + e - (0 + -e)) / (p.nBinsY : ℝ) :=
    ⟨min ((1 - 0) / (p.nBinsX : ℝ)) ((1 + e - (0 + -e)) / (p.nBinsY : ℝ)), lt_min (by simpa using hbx) (div_pos (by linarith) hby),
      min_le_left _ _, min_le_right _ _⟩
  have ht3 : t ≤ 1 := ht1.trans (by
    rw [sub_zero, div_le_one hbx]
    exact_mod_cast hx)
  have ht4 : t ≤ 1 + e - (0 + -e) := ht2.trans (div_le_self (by linarith) (by exact_mod_cast hy))
  have hcell : ∀ z : (Fin 1 → ℝ) × (Fin 1 → ℝ), 0 ≤ z.1 0 → z.1 0 < t → 0 + -e ≤ z.2 0 → z.2 0 < 0 + -e + t →
      Prod.map f g z = (fun _ => ⟨0, hx⟩, fun _ => ⟨0, hy⟩) := by
    intro z z1 z2 z3 z4
    refine Prod.ext ?_ ?_
    · funext j
      rw [Subsingleton.elim j 0]
      exact Fin.ext (isCell_unique 0 1 one_pos _ _ _ _ (hfc z.1 0 z1 (by linarith)) (first_cell hx z1 (by linarith)))
    · funext j
      rw [Subsingleton.elim j 0]
      exact Fin.ext (isCell_unique _ _ (by linarith) _ _ _ _ (hgc z.2 0 z3 (by linarith)) (first_cell hy z3 (by linarith)))
  refine mutualInfo_map_lt_of_hole P hf hg (by rw [hc.mi]; exact ENNReal.ofReal_ne_top) (fun _ => ⟨0, hx⟩, fun _ => ⟨0, hy⟩)
    (Z := {z | z.1 0 ∈ Set.Ioo (t / 2) t ∧ z.2 0 ∈ Set.Ico (0 + -e) (0 + -e + t / 2)}) (fun z hz => ?_) (fun h0 => ?_) ?_ ?_ ?_
    (measurableSet_singleton _)
  · obtain ⟨⟨z1, z2⟩, z3, z4⟩ := hz
    exact hcell z (by linarith) z2 z3 (by linarith)
  · have hsub : Set.Ioo 0 (t / 2) ×ˢ Set.Ioo (-e) (-e + t / 2) ⊆ (fun z : ℝ × ℝ => (single z.1, single (z.1 + z.2))) ⁻¹'
        (Prod.map f g ⁻¹' {(fun _ => ⟨0, hx⟩, fun _ => ⟨0, hy⟩)}) := by
      rintro ⟨x, y⟩ ⟨⟨x1, x2⟩, y1, y2⟩
      dsimp only at x1 x2 y1 y2
      exact hcell _ (by simp only [single]; linarith) (by simp only [single]; linarith) (by simp only [single]; linarith)
        (by simp only [single]; linarith)
    rw [hPmap] at h0
    have h3 := measure_mono_null hsub (le_antisymm ((Measure.le_map_apply m0.aemeasurable _).trans h0.le) bot_le)
    rw [Measure.prod_prod] at h3
    exact mul_ne_zero (uniformLaw_ne_zero one_pos (by linarith) one_pos (by linarith))
      (uniformLaw_ne_zero (by linarith) (by linarith) (by linarith) (by linarith)) h3
  · exact (m1 measurableSet_Ioo).inter (m2 measurableSet_Ico)
  · have hmZ : MeasurableSet {z : (Fin 1 → ℝ) × (Fin 1 → ℝ) | z.1 0 ∈ Set.Ioo (t / 2) t ∧ z.2 0 ∈ Set.Ico (0 + -e) (0 + -e + t / 2)} :=
      (m1 measurableSet_Ioo).inter (m2 measurableSet_Ico)
    rw [hPmap, Measure.map_apply m0 hmZ]
    have h3 := Measure.quasiMeasurePreserving_snd (μ := uniformLaw 0 1) (ν := uniformLaw (-e) e) |>.ae (fills_uniform (show -e < e by linarith) 1).inside
    refine measure_mono_null (fun z hz => ?_) (ae_iff.1 h3)
    obtain ⟨⟨z1, z2⟩, z3, z4⟩ := hz
    simp only [single] at z1 z2 z3 z4
    simp only [Set.mem_setOf_eq, not_and_or, not_le]
    left
    linarith
  · have hset : {z : (Fin 1 → ℝ) × (Fin 1 → ℝ) | z.1 0 ∈ Set.Ioo (t / 2) t ∧ z.2 0 ∈ Set.Ico (0 + -e) (0 + -e + t / 2)} =
        {x : Fin 1 → ℝ | x 0 ∈ Set.Ioo (t / 2) t} ×ˢ {y : Fin 1 → ℝ | y 0 ∈ Set.Ico (0 + -e) (0 + -e + t / 2)} := rfl
    have me : Measurable fun x : Fin 1 → ℝ => x 0 := measurable_pi_apply 0
    have n1 : MeasurableSet {x : Fin 1 → ℝ | x 0 ∈ Set.Ioo (t / 2) t} := me measurableSet_Ioo
    have n2 : MeasurableSet {y : Fin 1 → ℝ | y 0 ∈ Set.Ico (0 + -e) (0 + -e + t / 2)} := me measurableSet_Ico
    rw [hset, Measure.prod_prod, Measure.fst_apply n1, Measure.snd_apply n2]
    refine mul_ne_zero ?_ ?_
    · have h3 := Measure.map_apply (μ := P) m1 (measurableSet_Ioo (a := t / 2) (b := t))
      rw [hX0] at h3
      intro h4
      exact uniformLaw_ne_zero one_pos (by linarith) (by linarith) ht0 (h3.trans h4)
    · intro h4
      have h5 := (hY 0).low (t / 2) (half_pos ht0)
      rw [Measure.map_apply m2 measurableSet_Iio] at h5
      have h6 := ae_of_ae_map m2.aemeasurable (hY 0).inside
      refine h5 (measure_mono_null (t := (Prod.snd ⁻¹' {y : Fin 1 → ℝ | y 0 ∈ Set.Ico (0 + -e) (0 + -e + t / 2)}) ∪
        {z | ¬ (0 + -e ≤ z.2 0 ∧ z.2 0 ≤ 1 + e)}) (fun z hz => ?_) (measure_union_null h4 (ae_iff.1 h6)))
      by_cases hz' : 0 + -e ≤ z.2 0 ∧ z.2 0 ≤ 1 + e
      · exact .inl ⟨hz'.1, hz⟩
      · exact .inr hz'

example : ∃ s c, additiveUniform tree 0.75 = .ok s ∧
    ConvergesTo treeLaw s (histogramGives (dx := 1) (dy := 1) 0 ⟨10, 10, false⟩) c ∧ 0 ≤ c ∧ c < s.mi :=
  histogram_additiveUniform tree treeLaw tree_ideal (by norm_num) le_rfl (by norm_num) (by norm_num)

end BMI.Consistency
