import Verif.Spec.MiFigure
import Verif.Props.CompareFigure
import Verif.Props.Transforms
import Verif.Props.NormalTasks

/-! C82: the figures which show estimates against a parameter of the tasks. -/

namespace BMI.MiFigure

open BMI.Samplers BMI.Student MeasureTheory
open BMI.Training (Fl)
open BMI.Task (Task)
open BMI.Run (Dict)
open BMI.Workflow (Line)
open BMI.ReadResults (PVal lookup)

/-! ## `plot_mi` -/

theorem mean_average (vs : List (Option ℝ)) : IsAverage (vs.filterMap id) (Tables.mean vs) := by
  unfold Tables.mean
  constructor
  · intro h
    exact if_pos h
  · intro h
    refine ⟨_, if_neg h, ?_⟩
    have : ((vs.filterMap id).length : ℝ) ≠ 0 := by
      exact_mod_cast (List.length_pos_of_ne_nil h).ne'
    field_simp

theorem std_none {vs : List (Option ℝ)} (h : (vs.filterMap id).length < 2) : ReadResults.std vs = none := by
  unfold ReadResults.std
  exact if_pos h

theorem band_isBand (vs : List (Option ℝ)) : IsBand (vs.filterMap id) (bandOf vs) := by
  constructor
  · intro h
    unfold bandOf
    rw [std_none h]
    cases Tables.mean vs <;> rfl
  · intro h
    have hne : vs.filterMap id ≠ [] := by
      rintro e
      rw [e, List.length_nil] at h
      omega
    have h2 : (2 : ℝ) ≤ ((vs.filterMap id).length : ℝ) := by exact_mod_cast h
    have hm : Tables.mean vs = some ((vs.filterMap id).sum / (vs.filterMap id).length) := if_neg hne
    have hs : ReadResults.std vs = some (Real.sqrt ((((vs.filterMap id).map
        fun w => (w - (vs.filterMap id).sum / (vs.filterMap id).length) ^ 2).sum / (((vs.filterMap id).length : ℝ) - 1)))) :=
      if_neg (by omega)
    refine ⟨(vs.filterMap id).sum / (vs.filterMap id).length, _, by unfold bandOf; rw [hm, hs], ?_, Real.sqrt_nonneg _, ?_⟩
    · field_simp
    · rw [Real.sq_sqrt, mul_div_cancel₀]
      · linarith
      · refine div_nonneg (List.sum_nonneg ?_) (by linarith)
        intro a ha
        obtain ⟨w, -, rfl⟩ := List.mem_map.1 ha
        exact sq_nonneg _

theorem xKeys_increasing (rows : List Row) : (xKeys rows).Pairwise (· < ·) := by
  have h1 : (xKeys rows).Pairwise fun a b => decide (a ≤ b) = true :=
    List.pairwise_mergeSort (fun a b c h k => by simp only [decide_eq_true_eq] at *; exact h.trans k)
      (fun a b => by simpa using le_total a b) _
  have h2 : (xKeys rows).Nodup := (List.mergeSort_perm _ _).nodup_iff.2 (List.nodup_dedup _)
  exact (h1.and h2).imp fun h => lt_of_le_of_ne (by simpa using h.1) h.2

theorem mem_xKeys (rows : List Row) (x : ℝ) : x ∈ xKeys rows ↔ ∃ r ∈ rows, r.x = some x := by
  unfold xKeys
  rw [List.mem_mergeSort, List.mem_dedup, List.mem_filterMap]

theorem estKeys_increasing (rows : List Row) : (estKeys rows).Pairwise (· < ·) := by
  have h1 : (estKeys rows).Pairwise fun a b => decide (a ≤ b) = true :=
    List.pairwise_mergeSort (fun a b c h k => by simp only [decide_eq_true_eq] at *; exact String.le_trans h k)
      (fun a b => by simpa using String.le_total a b) _
  have h2 : (estKeys rows).Nodup := (List.mergeSort_perm _ _).nodup_iff.2 (List.nodup_dedup _)
  refine (h1.and h2).imp fun h => ?_
  by_contra hl
  exact h.2 (String.le_antisymm (by simpa using h.1) (String.not_lt.1 hl))

theorem mem_estKeys (rows : List Row) (e : String) : e ∈ estKeys rows ↔ ∃ r ∈ rows, r.est = e := by
  unfold estKeys
  rw [List.mem_mergeSort, List.mem_dedup, List.mem_map]

theorem estimates_eq (rows : List Row) (e : String) (x : ℝ) :
    ((xGroup (rows.filter fun r => r.est == e) x).map Row.mi).filterMap id = estimates rows e x := by
  unfold xGroup estimates
  induction rows with
  | nil => rfl
  | cons r rows ih =>
    by_cases h1 : r.est = e
    · by_cases h2 : r.x = some x
      · rw [List.filterMap_cons, if_pos ⟨h1, h2⟩, ← ih]
        cases hm : r.mi <;> simp [h1, h2, hm]
      · rw [List.filterMap_cons, if_neg fun h => h2 h.2, ← ih]
        simp [h1, h2]
    · rw [List.filterMap_cons, if_neg fun h => h1 h.1, ← ih]
      simp [h1]

theorem truths_eq (rows : List Row) (x : ℝ) : ((xGroup rows x).map Row.miTrue).filterMap id = truths rows x := by
  unfold xGroup truths
  induction rows with
  | nil => rfl
  | cons r rows ih =>
    by_cases h2 : r.x = some x
    · rw [List.filterMap_cons, if_pos h2, ← ih]
      cases hm : r.miTrue <;> simp [h2, hm]
    · rw [List.filterMap_cons, if_neg h2, ← ih]
      simp [h2]

theorem lookup_ok {d : Dict String} {k v : String} (h : d.get k = some v) : lookup d k = .ok v := by
  unfold lookup
  rw [h]

theorem lookup_error {d : Dict String} {k : String} (h : d.get k = none) : lookup d k = .error .keyError := by
  unfold lookup
  rw [h]

/-- The curve of one estimator. -/
theorem curve_spec {colors names : Dict String} {rows : List Row} {e col lab : String} (h1 : colors.get e = some col) (h2 : names.get e = some lab) :
    ∃ c, curve colors names true rows e = .ok c ∧ c.color = col ∧ c.label = lab ∧ IsCurve rows e c := by
  refine ⟨⟨col, lab, (xKeys (rows.filter fun r => r.est == e)).map fun x =>
      (x, Tables.mean ((xGroup (rows.filter fun r => r.est == e) x).map Row.mi)), (xKeys (rows.filter fun r => r.est == e)).map fun x =>
      (x, bandOf ((xGroup (rows.filter fun r => r.est == e) x).map Row.mi))⟩, ?_, rfl, rfl, ?_⟩
  · simp only [curve, lookup_ok h1, lookup_ok h2, bind, Except.bind, if_true]
  · have e1 : ∀ {B : Type} (f : ℝ → B) (l : List ℝ), (l.map fun x => (x, f x)).map Prod.fst = l := fun f l => by
      rw [List.map_map]
      exact List.map_id'' (fun _ => rfl) l
    refine ⟨?_, fun x => ?_, ?_, ?_, ?_⟩
    · rw [e1]
      exact xKeys_increasing _
    · rw [e1, mem_xKeys]
      simp only [List.mem_filter, beq_iff_eq, and_assoc]
    · intro p hp
      obtain ⟨x, -, rfl⟩ := List.mem_map.1 hp
      rw [← estimates_eq]
      exact mean_average _
    · rw [e1, e1]
    · intro p hp
      obtain ⟨x, -, rfl⟩ := List.mem_map.1 hp
      rw [← estimates_eq]
      exact band_isBand _

/-- **C82**, `plot_mi`: if every estimator in the results has a colour and a name, then for each of them there is a curve through its average
estimates with a band of one standard deviation, and a dotted curve of the average true values, all from left to right. -/
theorem plotMi_spec (colors names : Dict String) (rows : List Row) (h : ∀ r ∈ rows, (colors.get r.est).isSome ∧ (names.get r.est).isSome) :
    ∃ f, plotMi colors names true rows = .ok f ∧ IsFigure colors names rows f := by
  have hm : ∀ e ∈ estKeys rows, ∃ c, curve colors names true rows e = .ok c ∧
      (colors.get e = some c.color ∧ names.get e = some c.label ∧ IsCurve rows e c) := by
    intro e he
    obtain ⟨r, hr, rfl⟩ := (mem_estKeys rows e).1 he
    obtain ⟨h1, h2⟩ := h r hr
    obtain ⟨col, h1⟩ := Option.isSome_iff_exists.1 h1
    obtain ⟨lab, h2⟩ := Option.isSome_iff_exists.1 h2
    obtain ⟨c, a, b, d, g⟩ := curve_spec (rows := rows) h1 h2
    exact ⟨c, a, by rw [b, h1], by rw [d, h2], g⟩
  obtain ⟨cs, a, b⟩ := Workflow.mapM_forall2 _ _ _ hm
  have e1 : ∀ {B : Type} (f : ℝ → B) (l : List ℝ), (l.map fun x => (x, f x)).map Prod.fst = l := fun f l => by
    rw [List.map_map]
    exact List.map_id'' (fun _ => rfl) l
  refine ⟨⟨cs, (xKeys rows).map fun x => (x, Tables.mean ((xGroup rows x).map Row.miTrue)), 0⟩, ?_,
    ⟨estKeys rows, estKeys_increasing rows, mem_estKeys rows, b⟩, ?_, fun x => ?_, ?_, rfl⟩
  · simp only [plotMi, a, bind, Except.bind]
  · rw [e1]
    exact xKeys_increasing rows
  · rw [e1, mem_xKeys]
  · intro p hp
    obtain ⟨x, -, rfl⟩ := List.mem_map.1 hp
    rw [← truths_eq]
    exact mean_average _

/-- **C82**: otherwise there is no figure. -/
theorem plotMi_rejects (colors names : Dict String) (b : Bool) (rows : List Row)
    (h : ∃ r ∈ rows, colors.get r.est = none ∨ names.get r.est = none) : plotMi colors names b rows = .error .keyError := by
  obtain ⟨r, hr, h⟩ := h
  have hc : ∀ e, (∃ c, curve colors names b rows e = .ok c) ∨ curve colors names b rows e = .error .keyError := by
    intro e
    cases h1 : colors.get e with
    | none => exact .inr (by simp only [curve, lookup_error h1, bind, Except.bind])
    | some c =>
      cases h2 : names.get e with
      | none => exact .inr (by simp only [curve, lookup_ok h1, lookup_error h2, bind, Except.bind])
      | some d => exact .inl ⟨_, by simp only [curve, lookup_ok h1, lookup_ok h2, bind, Except.bind]; rfl⟩
  have he : curve colors names b rows r.est = .error .keyError := by
    rcases h with h | h
    · simp only [curve, lookup_error h, bind, Except.bind]
    · cases h1 : colors.get r.est with
      | none => simp only [curve, lookup_error h1, bind, Except.bind]
      | some c => simp only [curve, lookup_ok h1, lookup_error h, bind, Except.bind]
  have := CompareFigure.mapM_error (curve colors names b rows) .keyError hc (estKeys rows)
    ⟨r.est, (mem_estKeys rows r.est).2 ⟨r, hr, rfl⟩, he⟩
  simp only [plotMi, this, bind, Except.bind]

/-- **C82**: the band is around the curve. -/
theorem band_around {rows : List Row} {e : String} {c : Curve} (h : IsCurve rows e c) {x lo hi m : ℝ} (h1 : (x, some (lo, hi)) ∈ c.band)
    (h2 : (x, some m) ∈ c.points) : lo ≤ m ∧ m ≤ hi ∧ m - lo = hi - m := by
  have a := h.band _ h1
  have b := h.heights _ h2
  dsimp only at a b
  by_cases hl : (estimates rows e x).length < 2
  · exact absurd (a.1 hl) (by simp)
  · obtain ⟨m', s, e1, e2, e3, -⟩ := a.2 (by omega)
    have hne : estimates rows e x ≠ [] := by
      rintro e
      simp [e] at hl
    obtain ⟨m'', e4, e5⟩ := b.2 hne
    have hpos : ((estimates rows e x).length : ℝ) ≠ 0 := by
      exact_mod_cast (List.length_pos_of_ne_nil hne).ne'
    have : m' = m'' := mul_left_cancel₀ hpos (e2.trans e5.symm)
    cases e1
    cases e4
    subst this
    exact ⟨by linarith, by linarith, by ring⟩

/-! ## The spiral tasks -/

/-- The covariance of the spiral task. -/
def spiralCov (ρ : ℝ) : Matrix (Fin (2 + 1)) (Fin (2 + 1)) ℝ := !![1, 0, ρ; 0, 1, 0; ρ, 0, 1]

theorem spiralCov_posDef {ρ : ℝ} (h : |ρ| < 1) : (spiralCov ρ).PosDef := by
  have h1 : ρ ^ 2 < 1 := (sq_lt_one_iff_abs_lt_one ρ).2 h
  refine Matrix.PosDef.of_dotProduct_mulVec_pos ?_ fun x hx => ?_
  · ext i j
    fin_cases i <;> fin_cases j <;> simp [spiralCov]
  · have e : dotProduct (star x) ((spiralCov ρ).mulVec x) = x 1 ^ 2 + (x 0 + ρ * x 2) ^ 2 + (1 - ρ ^ 2) * x 2 ^ 2 := by
      simp [spiralCov, dotProduct, Matrix.mulVec, Fin.sum_univ_three]
      ring
    rw [e]
    by_contra hn
    have a1 := sq_nonneg (x 1)
    have a2 := sq_nonneg (x 0 + ρ * x 2)
    have a3 : 0 ≤ (1 - ρ ^ 2) * x 2 ^ 2 := mul_nonneg (by linarith) (sq_nonneg _)
    have b1 : x 1 = 0 := by
      have : x 1 ^ 2 = 0 := by linarith
      simpa using this
    have b3 : x 2 = 0 := by
      have : (1 - ρ ^ 2) * x 2 ^ 2 = 0 := by linarith
      rcases mul_eq_zero.1 this with g | g
      · linarith
      · simpa using g
    have b2 : x 0 = 0 := by
      have : (x 0 + ρ * x 2) ^ 2 = 0 := by linarith
      rw [b3] at this
      simpa using this
    refine hx (funext fun i => ?_)
    fin_cases i
    · exact b2
    · exact b1
    · exact b3

theorem spiralCov_number (ρ : ℝ) :
    (Real.log (blockX (dx := 2) (dy := 1) (spiralCov ρ)).det + Real.log (blockY (dx := 2) (dy := 1) (spiralCov ρ)).det
      - Real.log (spiralCov ρ).det) / 2 = -(1 / 2) * Real.log (1 - ρ ^ 2) := by
  have e1 : blockX (dx := 2) (dy := 1) (spiralCov ρ) = 1 := by
    ext i j
    fin_cases i <;> fin_cases j <;> simp [blockX, spiralCov]
  have e2 : blockY (dx := 2) (dy := 1) (spiralCov ρ) = 1 := by
    ext i j
    fin_cases i <;> fin_cases j <;> simp [blockY, spiralCov]
  have e3 : (spiralCov ρ).det = 1 - ρ ^ 2 := by
    unfold spiralCov
    rw [Matrix.det_fin_three]
    simp
    ring
  rw [e1, e2, e3]
  simp
  ring

variable {Key State V : Type}

/-- **C82**, spirals: for a correlation inside of (-1, 1) the task of any speed has two-dimensional `X` and one-dimensional `Y`; `X` is a
normal vector whose first coordinate is correlated with `Y`, turned by the speed times its squared length; the advertised number is the
mutual information, which does not depend on the speed. -/
theorem spiralPlane_correct [MeasurableSpace Key] (R : JaxRandom Key) (κ : Measure Key) [IsProbabilityMeasure κ] (hR : IdealRandom R κ)
    (speed ρ : ℝ) (hρ : |ρ| < 1) :
    ∃ s, spiralPlaneTask R speed ρ = .ok s ∧ s.mi = -(1 / 2) * Real.log (1 - ρ ^ 2) ∧
      Correct R κ s 2 1 (((normalLaw 0 (spiralCov ρ)).map fun z => (fun i => z (Fin.castAdd 1 i), fun i => z (Fin.natAdd 2 i))).map
        (Prod.map (fun x => turn 0 1 (speed * sumSq x) x) id)) := by
  have h01 : (0 : Fin 2) < 1 := by simp
  obtain ⟨b, hb, hc⟩ := splitMultinormal_correct R κ hR 2 1 two_pos one_pos 0 (spiralCov ρ) (spiralCov_posDef hρ)
  obtain ⟨b', hb', hn⟩ := splitMultinormal_number R 2 1 two_pos one_pos 0 (spiralCov ρ) (spiralCov_posDef hρ)
  obtain rfl : b' = b := Except.ok.inj (hb'.symm.trans hb)
  obtain ⟨s, h1, h2, h3⟩ := transformed_correct R κ b' _ hc (.row (SpiralObj.row ⟨2, 1, (planeGen 0 1).map (· * speed)⟩)) .none 0 0
    le_rfl le_rfl (by simp) (by simp) _ id (measurable_turn h01 speed) measurable_id (spiral_acts h01 speed) (fun n a => rfl) Set.univ Set.univ
    MeasurableSet.univ MeasurableSet.univ (by simp) (by simp) (turn_injective h01 speed).injOn Function.injective_id.injOn
  refine ⟨s, ?_, ?_, h3⟩
  · have e1 : soGenerator 2 0 1 = .ok (planeGen 0 1) := by simpa using soGenerator_eq_planeGen (0 : Fin 2) 1 h01
    have e2 : splitMultinormal R 2 1 [[1, 0, ρ], [0, 1, 0], [ρ, 0, 1]] none = .ok b' := by
      have := splitMultinormal_default_mean R 2 1 [[1, 0, ρ], [0, 1, 0], [ρ, 0, 1]]
      refine this.trans (Eq.trans ?_ hb)
      congr 1
    simp only [spiralPlaneTask, e1, bind, Except.bind, e2, spiral_none]
    exact h1
  · rw [h2, hn, spiralCov_number]

/-! ## The figures -/

theorem below_iff {P : Type} (b : ℝ) (l : Line ℝ (Fl ℝ) V P) : below b l = true ↔ Kept b l := by
  unfold below Kept
  cases l.result.mi with
  | nan => simp [number]
  | num a => simp [number]

theorem number_iff (a : Fl ℝ) (v : ℝ) : number a = some v ↔ a = .num v := by
  cases a <;> simp [number]

theorem estimators_known : ∀ e ∈ estimators, (estimatorColors.get e).isSome ∧ (estimatorNames.get e).isSome := by decide

open Classical in
/-- A panel made of lines of known estimators. -/
theorem panel_spec {P : Type} (lines : List (Line ℝ (Fl ℝ) V P)) (col : Line ℝ (Fl ℝ) V P → Option ℝ)
    (h : ∀ l ∈ lines, l.result.estimatorId ∈ estimators) :
    ∃ f, plotMi estimatorColors estimatorNames true ((lines.filter (below 3)).map fun l =>
        ⟨l.result.estimatorId, col l, number l.result.mi, number l.miTrue⟩) = .ok f ∧ IsPanel (fun l x => col l = some x) lines f := by
  obtain ⟨f, a, b⟩ := plotMi_spec estimatorColors estimatorNames ((lines.filter (below 3)).map fun l =>
    (⟨l.result.estimatorId, col l, number l.result.mi, number l.miTrue⟩ : Row)) (by
      intro r hr
      obtain ⟨l, hl, rfl⟩ := List.mem_map.1 hr
      exact estimators_known _ (h l (List.mem_filter.1 hl).1))
  refine ⟨f, a, _, ?_, b⟩
  have e : (lines.filter fun l => decide (Kept 3 l)) = lines.filter (below 3) := by
    refine List.filter_congr fun l _ => ?_
    rw [Bool.eq_iff_iff, decide_eq_true_iff, below_iff]
  rw [e, List.forall₂_map_right_iff, List.forall₂_same]
  exact fun l _ => ⟨rfl, fun x => Iff.rfl, fun v => number_iff _ v, fun v => number_iff _ v⟩

open Classical in
/-- The places of the dotted curve are those for which there is a line with an estimate below 3. -/
theorem panel_places {P : Type} {place : Line ℝ (Fl ℝ) V P → ℝ → Prop} {lines : List (Line ℝ (Fl ℝ) V P)} {f : Fig} (h : IsPanel place lines f)
    (x : ℝ) : x ∈ f.truth.map Prod.fst ↔ ∃ l ∈ lines, Kept 3 l ∧ place l x := by
  obtain ⟨rows, a, b⟩ := h
  rw [b.places]
  constructor
  · rintro ⟨r, hr, hx⟩
    obtain ⟨l, hl, hs⟩ := GmmBenchmark.forall2_right a r hr
    rw [List.mem_filter, decide_eq_true_iff] at hl
    exact ⟨l, hl.1, hl.2, (hs.x x).1 hx⟩
  · rintro ⟨l, hl, hk, hp⟩
    obtain ⟨r, hr, hs⟩ := GmmBenchmark.forall2_left a l (by rw [List.mem_filter, decide_eq_true_iff]; exact ⟨hl, hk⟩)
    exact ⟨r, hr, (hs.x x).2 hp⟩

open Classical in
/-- If all lines for a value of the parameter have the same true value, this is what the dotted curve shows. -/
theorem panel_truth {P : Type} {place : Line ℝ (Fl ℝ) V P → ℝ → Prop} {lines : List (Line ℝ (Fl ℝ) V P)} {f : Fig} (h : IsPanel place lines f)
    {p : ℝ × Option ℝ} (hp : p ∈ f.truth) {v : ℝ} (hv : ∀ l ∈ lines, place l p.1 → l.miTrue = .num v) : p.2 = some v := by
  obtain ⟨rows, a, b⟩ := h
  have hc : ∀ r ∈ rows, r.x = some p.1 → r.miTrue = some v := by
    intro r hr hx
    obtain ⟨l, hl, hs⟩ := GmmBenchmark.forall2_right a r hr
    exact (hs.miTrue v).2 (hv l (List.mem_filter.1 hl).1 ((hs.x _).1 hx))
  obtain ⟨r, hr, hx⟩ := (b.places p.1).1 (List.mem_map_of_mem hp)
  have hall : ∀ w ∈ truths rows p.1, w = v := by
    intro w hw
    unfold truths at hw
    obtain ⟨r', hr', e⟩ := List.mem_filterMap.1 hw
    by_cases hx' : r'.x = some p.1
    · rw [if_pos hx', hc r' hr' hx'] at e
      exact (Option.some.inj e).symm
    · rw [if_neg hx'] at e
      cases e
  have hne : truths rows p.1 ≠ [] := by
    refine List.ne_nil_of_mem (a := v) ?_
    unfold truths
    exact List.mem_filterMap.2 ⟨r, hr, by rw [if_pos hx, hc r hr hx]⟩
  obtain ⟨m, e1, e2⟩ := (b.heights p hp).2 hne
  have hs : (truths rows p.1).sum = (truths rows p.1).length * v := by
    conv_lhs => rw [List.eq_replicate_of_mem hall]
    rw [List.sum_replicate, nsmul_eq_mul]
  have : ((truths rows p.1).length : ℝ) ≠ 0 := by exact_mod_cast (List.length_pos_of_ne_nil hne).ne'
  rw [e1, mul_left_cancel₀ this (e2.trans hs)]

/-- The lines of the results: each is about an estimator and a task of the configuration. -/
theorem lines_about {C P : Type} (cfg : Workflow.Config ℝ (Fl ℝ) V C P) (h : Workflow.Ready cfg) :
    ∃ lines, Workflow.results cfg = .ok lines ∧ ∀ l ∈ lines, ∃ e ∈ cfg.estimators, ∃ t ∈ cfg.tasks,
      l.result.estimatorId = e.1 ∧ l.result.taskId = t.taskId ∧ t.sampler.mi = .ok l.miTrue ∧ l.taskParams = t.params.getD [] := by
  obtain ⟨lines, a, b⟩ := Workflow.results_spec cfg h
  refine ⟨lines, a, fun l hl => ?_⟩
  obtain ⟨⟨e, t, n, s⟩, hc, hx⟩ := GmmBenchmark.forall2_right b l hl
  simp only [Workflow.combinations, List.mem_product] at hc
  obtain ⟨he, ht, hn, hs⟩ := hc
  dsimp only at hx
  obtain ⟨m, dx, dy, x, y, _, hsam⟩ := h.sample t ht n hn s hs
  obtain ⟨file, r, _, hrep, _, hr⟩ := hx.run m dx dy x y hsam
  obtain ⟨i1, i2, i3, i4⟩ := hrep.ids
  refine ⟨e, he, t, ht, ?_, ?_, hx.true_mi, hx.params⟩
  · rw [hr]
    exact i1
  · rw [hr]
    exact i2

theorem taskList_nodup : (taskList.map Prod.fst).Nodup := by
  have : taskList.map Prod.fst = ["spiral-0.8-0.0", "spiral-0.8-0.1", "spiral-0.8-0.3", "spiral-0.8-0.5", "spiral-0.8-0.7", "spiral-0.8-1.0",
    "spiral-0.8-1.5"] := rfl
  rw [this]
  decide

theorem findSpeed_ok {p : String × ℝ} (hp : p ∈ taskList) : findSpeed p.1 = .ok p.2 := by
  unfold findSpeed
  cases hf : taskList.find? fun t => t.1 == p.1 with
  | none =>
    rw [List.find?_eq_none] at hf
    exact absurd (beq_self_eq_true p.1) (hf p hp)
  | some q =>
    have h1 : q.1 = p.1 := by simpa using List.find?_some hf
    have h2 : q = p := List.inj_on_of_nodup_map taskList_nodup (List.mem_of_find?_eq_some hf) hp h1
    rw [h2]

/-- **C82**: an identifier which is not in the list has no speed. -/
theorem findSpeed_iff (k : String) (v : ℝ) : findSpeed k = .ok v ↔ (k, v) ∈ taskList := by
  constructor
  · intro h
    unfold findSpeed at h
    cases hf : taskList.find? fun t => t.1 == k with
    | none => simp [hf] at h
    | some q =>
      have h1 : q.1 = k := by simpa using List.find?_some hf
      simp only [hf, Except.ok.injEq] at h
      rw [← h1, ← h]
      exact List.mem_of_find?_eq_some hf
  · intro h
    exact findSpeed_ok h

theorem mapM_ok {A B E : Type} (f : A → Except E B) (g : A → B) (l : List A) (h : ∀ a ∈ l, f a = .ok (g a)) : l.mapM f = .ok (l.map g) := by
  induction l with
  | nil => rfl
  | cons a l ih =>
    rw [List.mapM_cons, h a (by simp), ih fun b hb => h b (by simp [hb])]
    rfl

theorem forall2_split {A B : Type} {Q : A → B → Prop} {l : List A} {m : List B} (h : List.Forall₂ Q l m) : ∀ b ∈ m, ∃ a ∈ l, Q a b :=
  fun b hb => GmmBenchmark.forall2_right h b hb

/-- **C82**, the figure of spirals: for any usable configuration with the seven tasks and estimators from the list, the figure shows, for
each estimator, the average and the band of its estimates below 3 at each speed; the dotted line is at `log (5 / 3)`, which is the mutual
information of each of the tasks, at each speed for which some estimate is below 3. -/
theorem spiral_figure [MeasurableSpace Key] (R : JaxRandom Key) (κ : Measure Key) [IsProbabilityMeasure κ] (hR : IdealRandom R κ) {C P : Type}
    (cfg : Workflow.Config ℝ (Fl ℝ) V C P) (h : Workflow.Ready cfg) (he : ∀ e ∈ cfg.estimators, e.1 ∈ estimators)
    (ht : List.Forall₂ (fun p t => t.taskId = p.1 ∧ ∃ s, spiralPlaneTask R p.2 0.8 = .ok s ∧ t.sampler.mi = .ok (.num s.mi)) taskList cfg.tasks) :
    ∃ lines f, Workflow.results cfg = .ok lines ∧ spiralFigure lines = .ok f ∧
      IsPanel (fun l x => (l.result.taskId, x) ∈ taskList) lines f ∧ (∀ p ∈ f.truth, p.2 = some (Real.log (5 / 3))) ∧
      (∀ x, x ∈ f.truth.map Prod.fst ↔ ∃ l ∈ lines, Kept 3 l ∧ (l.result.taskId, x) ∈ taskList) ∧
      ∀ p ∈ taskList, ∃ s, spiralPlaneTask R p.2 0.8 = .ok s ∧ ∃ Q, Correct R κ s 2 1 Q ∧ mutualInfo Q = ENNReal.ofReal (Real.log (5 / 3)) := by
  obtain ⟨lines, a, b⟩ := lines_about cfg h
  have hnum : -(1 / 2) * Real.log (1 - (0.8 : ℝ) ^ 2) = Real.log (5 / 3) := by
    have : (1 : ℝ) - 0.8 ^ 2 = ((5 / 3) ^ 2)⁻¹ := by norm_num
    rw [this, Real.log_inv, Real.log_pow]
    push_cast
    ring
  have hcorr : ∀ speed : ℝ, ∃ s, spiralPlaneTask R speed 0.8 = .ok s ∧ s.mi = Real.log (5 / 3) ∧ ∃ Q, Correct R κ s 2 1 Q := by
    intro speed
    obtain ⟨s, h1, h2, h3⟩ := spiralPlane_correct R κ hR speed 0.8 (by norm_num [abs_of_pos])
    exact ⟨s, h1, h2.trans hnum, _, h3⟩
  have hl : ∀ l ∈ lines, l.result.estimatorId ∈ estimators ∧ (∃ x, (l.result.taskId, x) ∈ taskList) ∧ l.miTrue = .num (Real.log (5 / 3)) := by
    intro l hl
    obtain ⟨e, he', t, ht', h1, h2, h3, -⟩ := b l hl
    obtain ⟨p, hp, h4, s, h5, h6⟩ := forall2_split ht t ht'
    obtain ⟨s', h7, h8, -⟩ := hcorr p.2
    obtain rfl : s' = s := Except.ok.inj (h7.symm.trans h5)
    refine ⟨h1 ▸ he e he', ⟨p.2, ?_⟩, ?_⟩
    · rw [h2, h4]
      exact hp
    · rw [h3] at h6
      rw [← h8]
      exact Except.ok.inj h6
  obtain ⟨f, c, d⟩ := panel_spec lines (fun l => match findSpeed l.result.taskId with
    | .ok v => some v
    | .error _ => none) fun l hl' => (hl l hl').1
  have hplace : (fun (l : Line ℝ (Fl ℝ) V P) (x : ℝ) => (match findSpeed l.result.taskId with
      | .ok v => some v
      | .error _ => none) = some x) = fun l x => (l.result.taskId, x) ∈ taskList := by
    funext l x
    rw [← findSpeed_iff]
    cases findSpeed l.result.taskId <;> simp
  rw [hplace] at d
  refine ⟨lines, f, a, ?_, d, ?_, panel_places d, fun p _ => ?_⟩
  · unfold spiralFigure
    rw [mapM_ok _ (fun l : Line ℝ (Fl ℝ) V P => (⟨l.result.estimatorId, (match findSpeed l.result.taskId with
      | .ok v => some v
      | .error _ => none), number l.result.mi, number l.miTrue⟩ : Row)) _ fun l hl' => ?_]
    · exact c
    · obtain ⟨x, hx⟩ := (hl l (List.mem_filter.1 hl').1).2.1
      simp only [(findSpeed_iff _ _).2 hx, bind, Except.bind]
  · exact fun p hp => panel_truth d hp fun l hl' _ => (hl l hl').2.2
  · obtain ⟨s, h1, h2, Q, h3⟩ := hcorr p.2
    exact ⟨s, h1, Q, h3, by rw [h3.mi, h2]⟩

/-! ### Long tails -/

/-- The tasks of the figure: powers of a normal vector and Student-t vectors. -/
noncomputable def tailKinds : List (ℝ ⊕ ℕ) := exponents.map .inl ++ degrees.map .inr

/-- A task of the configuration is the task of the figure: its parameters and its mutual information. -/
def IsTail {C : Type} (R : JaxRandom Key) (N : NpRandom State) : ℝ ⊕ ℕ → Task ℝ C (String × PVal ℝ) → Prop
  | .inl a, t => t.params = some (ReadResults.params (1 : ℝ) (.power (.sparse 3 3 2 2.0) a)) ∧
    ∃ s, tailNormal R a = .ok s ∧ t.sampler.mi = .ok (.num s.mi)
  | .inr df, t => t.params = some (ReadResults.params (1 : ℝ) (.studentSparse 3 3 df 2 2.0)) ∧
    ∃ s, tailStudent R N df = .ok s ∧ t.sampler.mi = .ok (.num s.mi)

theorem exponents_spec : exponents.length = 10 ∧ exponents.head? = some 1 ∧ exponents.getLast? = some 5 ∧ exponents.Pairwise (· < ·) ∧
    ∀ a ∈ exponents, 1 ≤ a ∧ a ≤ 5 := by
  refine ⟨by simp [exponents], by norm_num [exponents, List.range_succ], by norm_num [exponents, List.range_succ], ?_, ?_⟩
  · unfold exponents
    rw [List.pairwise_map]
    refine List.pairwise_lt_range.imp fun {i j} hij => ?_
    have : (i : ℝ) < j := by exact_mod_cast hij
    linarith
  · intro a ha
    obtain ⟨i, hi, rfl⟩ := List.mem_map.1 ha
    have : (i : ℝ) ≤ 9 := by exact_mod_cast Nat.lt_succ_iff.1 (List.mem_range.1 hi)
    have : (0 : ℝ) ≤ i := Nat.cast_nonneg i
    constructor <;> linarith

theorem degrees_spec : degrees = [1, 3, 5, 7, 9, 11, 13, 15, 17, 19] := by decide

theorem strength_number : -Real.log (1 - ((2 : ℝ) ^ 2 / (1 + 2 ^ 2)) ^ 2) = 2 * Real.log (5 / 3) := by
  have : (1 : ℝ) - (2 ^ 2 / (1 + 2 ^ 2)) ^ 2 = ((5 / 3) ^ 2)⁻¹ := by norm_num
  rw [this, Real.log_inv, Real.log_pow]
  push_cast
  ring

/-- **C82**, long tails: raising the coordinates to a positive power does not change the mutual information `2 log (5 / 3)`. -/
theorem tailNormal_correct [MeasurableSpace Key] (R : JaxRandom Key) (κ : Measure Key) [IsProbabilityMeasure κ] (hR : IdealRandom R κ)
    (a : ℝ) (ha : 0 < a) :
    ∃ s, tailNormal R a = .ok s ∧ s.mi = 2 * Real.log (5 / 3) ∧ Correct R κ s 3 3
      (((normalLaw 0 (pairs 3 3 2 (4 / 5))).map (halves 3 3)).map
        (Prod.map (fun v i => SignType.sign (v i) * |v i| ^ a) fun v i => SignType.sign (v i) * |v i| ^ a)) := by
  obtain ⟨b, h1, h2, h3⟩ := taskMultinormal2pair_correct R κ hR 3 3 (by norm_num) (by norm_num) 2
  obtain ⟨s, h4, h5, h6⟩ := powerTask_correct R κ b _ h2 a ha
  refine ⟨s, ?_, by rw [h5, h3, strength_number], ?_⟩
  · have h1' : taskMultinormal2pair R 3 3 2 = .ok b := h1
    simp only [tailNormal, h1', bind, Except.bind]
    exact h4
  · have e : (2 : ℝ) ^ 2 / (1 + 2 ^ 2) = 4 / 5 := by norm_num
    rw [e] at h6
    exact h6

/-- **C82**, long tails: the Student-t tasks have more mutual information than the normal one with the same correlations. -/
theorem tailStudent_correct [MeasurableSpace State] (R : JaxRandom Key) (N : NpRandom State) (κ : Measure State) (hN : IdealStudent N κ)
    (df : ℕ) (hdf : 0 < df) :
    ∃ s, tailStudent R N df = .ok s ∧ s.mi = 2 * Real.log (5 / 3) + (2 * studentEntropy 3 df - studentEntropy 6 df) ∧
      2 * Real.log (5 / 3) < s.mi ∧ CorrectStudent κ s 3 3 ((studentLaw 0 (pairs 3 3 2 (4 / 5)) df).map (halves 3 3)) := by
  have hpos : (0 : ℝ) < df := by exact_mod_cast hdf
  obtain ⟨t, h1, h2, h3⟩ := taskStudent2pair_correct R N κ hN 3 3 (by norm_num) (by norm_num) 2 df hpos
  have h4 := studentEntropy_lt (dx := 3) (dy := 3) (by norm_num) (by norm_num) hpos
  have h5 : t.sampler.mi = 2 * Real.log (5 / 3) + (2 * studentEntropy 3 df - studentEntropy 6 df) := by
    rw [h3, strength_number]
    norm_num
    ring
  refine ⟨t.sampler, ?_, h5, ?_, ?_⟩
  · have h1' : taskStudent2pair R N 3 3 df 2 = .ok t := h1
    simp only [tailStudent, h1', bind, Except.bind]
  · rw [h5]
    norm_num at h4
    linarith
  · have e : (2 : ℝ) ^ 2 / (1 + 2 ^ 2) = 4 / 5 := by norm_num
    rw [e] at h2
    exact h2

theorem column_power (a : ℝ) : column (ReadResults.params (1 : ℝ) (.power (.sparse 3 3 2 2.0) a)) "alpha" = some a ∧
    column (ReadResults.params (1 : ℝ) (.power (.sparse 3 3 2 2.0) a)) "dof" = none := ⟨rfl, rfl⟩

theorem column_student (df : ℕ) : column (ReadResults.params (1 : ℝ) (.studentSparse 3 3 df 2 2.0)) "alpha" = none ∧
    column (ReadResults.params (1 : ℝ) (.studentSparse 3 3 df 2 2.0)) "dof" = some df := ⟨rfl, rfl⟩

/-- **C82**, the figure of long tails: for any usable configuration with the twenty tasks and estimators from the list, the left panel shows
the lines of the powers, at their exponents, with the dotted line at `2 log (5 / 3)`; the right panel those of the Student-t tasks, at
their degrees of freedom, with a dotted line above `2 log (5 / 3)`. -/
theorem tail_figure [MeasurableSpace Key] [MeasurableSpace State] (R : JaxRandom Key) (κ : Measure Key) [IsProbabilityMeasure κ]
    (hR : IdealRandom R κ) (N : NpRandom State) (κ' : Measure State) (hN : IdealStudent N κ') {C : Type}
    (cfg : Workflow.Config ℝ (Fl ℝ) V C (String × PVal ℝ)) (h : Workflow.Ready cfg) (he : ∀ e ∈ cfg.estimators, e.1 ∈ estimators)
    (ht : List.Forall₂ (IsTail R N) tailKinds cfg.tasks) :
    ∃ lines f g, Workflow.results cfg = .ok lines ∧ tailFigure lines = .ok (f, g) ∧
      IsPanel (fun l x => ∃ t ∈ cfg.tasks, t.taskId = l.result.taskId ∧ x ∈ exponents ∧ IsTail R N (.inl x) t) lines f ∧
      IsPanel (fun l x => ∃ t ∈ cfg.tasks, t.taskId = l.result.taskId ∧ ∃ df ∈ degrees, (df : ℝ) = x ∧ IsTail R N (.inr df) t) lines g ∧
      (∀ p ∈ f.truth, p.1 ∈ exponents ∧ p.2 = some (2 * Real.log (5 / 3))) ∧
      ∀ p ∈ g.truth, ∃ df ∈ degrees, p.1 = df ∧ 2 * Real.log (5 / 3) < 2 * Real.log (5 / 3) + (2 * studentEntropy 3 df - studentEntropy 6 df) ∧
        p.2 = some (2 * Real.log (5 / 3) + (2 * studentEntropy 3 df - studentEntropy 6 df)) := by
  obtain ⟨lines, a, b⟩ := lines_about cfg h
  have hdeg : ∀ df ∈ degrees, 0 < df := by
    rw [degrees_spec]
    decide
  have hl : ∀ l ∈ lines, l.result.estimatorId ∈ estimators ∧ ∃ t ∈ cfg.tasks, t.taskId = l.result.taskId ∧
      ((∃ x ∈ exponents, IsTail R N (.inl x) t ∧ column l.taskParams "alpha" = some x ∧ column l.taskParams "dof" = none ∧
          l.miTrue = .num (2 * Real.log (5 / 3))) ∨
        ∃ df ∈ degrees, IsTail R N (.inr df) t ∧ column l.taskParams "alpha" = none ∧ column l.taskParams "dof" = some (df : ℝ) ∧
          l.miTrue = .num (2 * Real.log (5 / 3) + (2 * studentEntropy 3 df - studentEntropy 6 df))) := by
    intro l hl
    obtain ⟨e, he', t, ht', h1, h2, h3, h4⟩ := b l hl
    obtain ⟨k, hk, hT⟩ := forall2_split ht t ht'
    refine ⟨h1 ▸ he e he', t, ht', h2.symm, ?_⟩
    unfold tailKinds at hk
    rw [List.mem_append, List.mem_map, List.mem_map] at hk
    rcases hk with ⟨x, hx, rfl⟩ | ⟨df, hx, rfl⟩
    · obtain ⟨g1, s, g2, g3⟩ := hT
      obtain ⟨s', g4, g5, -⟩ := tailNormal_correct R κ hR x (by linarith [(exponents_spec.2.2.2.2 x hx).1])
      obtain rfl : s' = s := Except.ok.inj (g4.symm.trans g2)
      refine .inl ⟨x, hx, ⟨g1, s', g2, g3⟩, ?_, ?_, ?_⟩
      · rw [h4, g1]
        exact (column_power x).1
      · rw [h4, g1]
        exact (column_power x).2
      · rw [h3, g5] at g3
        exact Except.ok.inj g3
    · obtain ⟨g1, s, g2, g3⟩ := hT
      obtain ⟨s', g4, g5, -⟩ := tailStudent_correct R N κ' hN df (hdeg df hx)
      obtain rfl : s' = s := Except.ok.inj (g4.symm.trans g2)
      refine .inr ⟨df, hx, ⟨g1, s', g2, g3⟩, ?_, ?_, ?_⟩
      · rw [h4, g1]
        exact (column_student df).1
      · rw [h4, g1]
        exact (column_student df).2
      · rw [h3, g5] at g3
        exact Except.ok.inj g3
  obtain ⟨f, c1, d1⟩ := panel_spec lines (fun l => column l.taskParams "alpha") fun l hl' => (hl l hl').1
  obtain ⟨g, c2, d2⟩ := panel_spec lines (fun l => column l.taskParams "dof") fun l hl' => (hl l hl').1
  have hone : ∀ t ∈ cfg.tasks, ∀ u ∈ cfg.tasks, t.taskId = u.taskId → t = u := fun t ht u hu => List.inj_on_of_nodup_map h.task_nodup ht hu
  have hcross : ∀ x df (t : Task ℝ C (String × PVal ℝ)), IsTail R N (.inl x) t → IsTail R N (.inr df) t → False := by
    intro x df t h1 h2
    have := congrArg (fun p : Option (Dict (PVal ℝ)) => p.bind fun p => column p "dof") (h1.1.symm.trans h2.1)
    simp only [Option.bind, (column_power x).2, (column_student df).2] at this
    cases this
  have hsame : ∀ x y (t : Task ℝ C (String × PVal ℝ)), IsTail R N (.inl x) t → IsTail R N (.inl y) t → x = y := by
    intro x y t h1 h2
    have := congrArg (fun p : Option (Dict (PVal ℝ)) => p.bind fun p => column p "alpha") (h1.1.symm.trans h2.1)
    simp only [Option.bind, (column_power _).1] at this
    exact Option.some.inj this
  have hsame' : ∀ x y (t : Task ℝ C (String × PVal ℝ)), IsTail R N (.inr x) t → IsTail R N (.inr y) t → x = y := by
    intro x y t h1 h2
    have := congrArg (fun p : Option (Dict (PVal ℝ)) => p.bind fun p => column p "dof") (h1.1.symm.trans h2.1)
    simp only [Option.bind, (column_student _).2] at this
    exact_mod_cast Option.some.inj this
  have d1' : IsPanel (fun l x => ∃ t ∈ cfg.tasks, t.taskId = l.result.taskId ∧ x ∈ exponents ∧ IsTail R N (.inl x) t) lines f := by
    obtain ⟨rows, p1, p2⟩ := d1
    refine ⟨rows, GmmBenchmark.forall2_mem p1 fun l hl' r hr => ⟨hr.est, fun x => (hr.x x).trans ?_, hr.mi, hr.miTrue⟩, p2⟩
    obtain ⟨-, t, ht', e1, hk⟩ := hl l (List.mem_filter.1 hl').1
    rcases hk with ⟨y, hy, hT, k1, k2, -⟩ | ⟨df, hdf, hT, k1, k2, -⟩
    · rw [k1]
      constructor
      · rintro hxy
        cases hxy
        exact ⟨t, ht', e1, hy, hT⟩
      · rintro ⟨u, hu, e2, hx, hU⟩
        rw [hone u hu t ht' (e2.trans e1.symm)] at hU
        rw [hsame _ _ _ hU hT]
    · rw [k1]
      constructor
      · rintro hxy
        cases hxy
      · rintro ⟨u, hu, e2, hx, hU⟩
        rw [hone u hu t ht' (e2.trans e1.symm)] at hU
        exact (hcross _ _ _ hU hT).elim
  have d2' : IsPanel (fun l x => ∃ t ∈ cfg.tasks, t.taskId = l.result.taskId ∧ ∃ df ∈ degrees, (df : ℝ) = x ∧ IsTail R N (.inr df) t) lines g := by
    obtain ⟨rows, p1, p2⟩ := d2
    refine ⟨rows, GmmBenchmark.forall2_mem p1 fun l hl' r hr => ⟨hr.est, fun x => (hr.x x).trans ?_, hr.mi, hr.miTrue⟩, p2⟩
    obtain ⟨-, t, ht', e1, hk⟩ := hl l (List.mem_filter.1 hl').1
    rcases hk with ⟨y, hy, hT, k1, k2, -⟩ | ⟨df, hdf, hT, k1, k2, -⟩
    · rw [k2]
      constructor
      · rintro hxy
        cases hxy
      · rintro ⟨u, hu, e2, df, hdf, -, hU⟩
        rw [hone u hu t ht' (e2.trans e1.symm)] at hU
        exact (hcross _ _ _ hT hU).elim
    · rw [k2]
      constructor
      · rintro hxy
        exact ⟨t, ht', e1, df, hdf, Option.some.inj hxy, hT⟩
      · rintro ⟨u, hu, e2, df', hdf', hx, hU⟩
        rw [hone u hu t ht' (e2.trans e1.symm)] at hU
        rw [← hx, hsame' _ _ _ hU hT]
  refine ⟨lines, f, g, a, ?_, d1', d2', fun p hp => ?_, fun p hp => ?_⟩
  · simp only [tailFigure, c1, c2, bind, Except.bind]
  · obtain ⟨l, hl', -, hx⟩ := (panel_places d1 p.1).1 (List.mem_map_of_mem hp)
    refine ⟨?_, panel_truth d1 hp fun l hl' hx => ?_⟩
    · obtain ⟨-, t, -, -, hk⟩ := hl l hl'
      rcases hk with ⟨y, hy, -, k1, -⟩ | ⟨df, -, -, k1, -⟩
      · rw [k1] at hx
        rw [← Option.some.inj hx]
        exact hy
      · rw [k1] at hx
        cases hx
    · obtain ⟨-, t, -, -, hk⟩ := hl l hl'
      rcases hk with ⟨y, hy, -, -, -, k⟩ | ⟨df, -, -, k1, -⟩
      · exact k
      · rw [k1] at hx
        cases hx
  · obtain ⟨l, hl', -, hx⟩ := (panel_places d2 p.1).1 (List.mem_map_of_mem hp)
    obtain ⟨-, t, -, -, hk⟩ := hl l hl'
    rcases hk with ⟨y, hy, -, -, k2, -⟩ | ⟨df, hdf, -, -, k2, -⟩
    · rw [k2] at hx
      cases hx
    · rw [k2] at hx
      obtain ⟨s, -, g5, g6, -⟩ := tailStudent_correct R N κ' hN df (hdeg df hdf)
      refine ⟨df, hdf, (Option.some.inj hx).symm, by rw [← g5]; exact g6, panel_truth d2 hp fun l' hl'' hx' => ?_⟩
      obtain ⟨-, t', -, -, hk'⟩ := hl l' hl''
      rcases hk' with ⟨y, hy, -, -, k2', -⟩ | ⟨df', hdf', -, -, k2', k⟩
      · rw [k2'] at hx'
        cases hx'
      · rw [k2'] at hx'
        have : df' = df := by exact_mod_cast Option.some.inj (hx'.trans hx.symm)
        rw [← this]
        exact k

/-! ## scripts/plot_spiral.py -/

theorem transformed_eq (ps : List (ℝ × ℝ)) (speed : ℝ) :
    transformedPoints ps speed = .ok (ps.map fun p => turned (speed * (p.1 ^ 2 + p.2 ^ 2)) p) := by
  have h01 : (0 : Fin 2) < 1 := by simp
  have e1 : soGenerator 2 0 1 = .ok (planeGen 0 1) := by simpa using soGenerator_eq_planeGen (0 : Fin 2) 1 h01
  simp only [transformedPoints, e1, bind, Except.bind, spiral_none]
  congr 1
  refine List.map_congr_left fun p _ => ?_
  have h1 : SpiralObj.row ⟨2, 1, (planeGen 0 1).map (· * speed)⟩ [p.1, p.2] =
      List.ofFn (turn 0 1 (speed * sumSq ![p.1, p.2]) ![p.1, p.2]) := by
    have h2 : [p.1, p.2] = List.ofFn ![p.1, p.2] := by simp [List.ofFn_succ]
    rw [h2, SpiralObj.row_ofFn, Matrix.one_mulVec, turn_eq_exp h01]
  rw [h1]
  simp [turned, turn, sumSq, List.ofFn_succ, Fin.sum_univ_two]

/-- A point of the strip, turned by any angle, is inside of the axes. -/
theorem turned_inside (θ : ℝ) (p : ℝ × ℝ) (h1 : |p.1| ≤ 2) (h2 : |p.2| ≤ 1 / 20) : |(turned θ p).1| < 2.1 ∧ |(turned θ p).2| < 2.1 := by
  have s1 : p.1 ^ 2 ≤ 4 := by
    rw [← sq_abs]
    nlinarith [abs_nonneg p.1]
  have s2 : p.2 ^ 2 ≤ 1 / 400 := by
    rw [← sq_abs]
    nlinarith [abs_nonneg p.2]
  have s3 : (turned θ p).1 ^ 2 + (turned θ p).2 ^ 2 = p.1 ^ 2 + p.2 ^ 2 := by
    unfold turned
    dsimp only
    linear_combination (p.1 ^ 2 + p.2 ^ 2) * Real.sin_sq_add_cos_sq θ
  constructor
  · refine abs_lt_of_sq_lt_sq ?_ (by norm_num)
    nlinarith [sq_nonneg (turned θ p).2]
  · refine abs_lt_of_sq_lt_sq ?_ (by norm_num)
    nlinarith [sq_nonneg (turned θ p).1]

/-- The clouds. -/
noncomputable def clouds (ps : List (ℝ × ℝ)) : List Cloud :=
  [⟨"Original", "green", ps⟩, ⟨"Speed 0.5", "goldenrod", ps.map fun p => turned (1 / 2 * (p.1 ^ 2 + p.2 ^ 2)) p⟩,
    ⟨"Speed 1.5", "orangered", ps.map fun p => turned (3 / 2 * (p.1 ^ 2 + p.2 ^ 2)) p⟩]

theorem plotSpiral_eq (G : Generator) : plotSpiral G = .ok (clouds (getPoints G 42 2 5e-2 true 2000), 2.1) := by
  have f1 : (0.5 : ℝ) = 1 / 2 := by norm_num
  have f2 : (1.5 : ℝ) = 3 / 2 := by norm_num
  unfold plotSpiral
  generalize getPoints G 42 2 5e-2 true 2000 = ps
  simp only [List.mapM_cons, List.mapM_nil, transformed_eq, bind, Except.bind, pure, Except.pure, f1, f2]
  rfl

theorem clouds_inside (ps : List (ℝ × ℝ)) (hbox : ∀ p ∈ ps, |p.1| ≤ 2 ∧ |p.2| ≤ 1 / 20) :
    ∀ c ∈ clouds ps, ∀ q ∈ c.points, |q.1| < 2.1 ∧ |q.2| < 2.1 := by
  intro c hc q hq
  simp only [clouds, List.mem_cons, List.not_mem_nil, or_false] at hc
  rcases hc with rfl | rfl | rfl
  · obtain ⟨h1, h2⟩ := hbox q hq
    have := turned_inside 0 q h1 h2
    simpa [turned] using this
  · obtain ⟨p, hp, rfl⟩ := List.mem_map.1 hq
    exact turned_inside _ p (hbox p hp).1 (hbox p hp).2
  · obtain ⟨p, hp, rfl⟩ := List.mem_map.1 hq
    exact turned_inside _ p (hbox p hp).1 (hbox p hp).2

/-- Uniform points. -/
theorem points_spec (G : Generator) (hG : ∀ s k a b n, a < b → (G.uniform s k a b n).length = n ∧ ∀ x ∈ G.uniform s k a b n, a ≤ x ∧ x ≤ b)
    (s : ℤ) (n : ℕ) {a b : ℝ} (ha : 0 < a) (hb : 0 < b) : (getPoints G s a b true n).length = n ∧
      ∀ p ∈ getPoints G s a b true n, |p.1| ≤ a ∧ |p.2| ≤ b := by
  obtain ⟨l1, b1⟩ := hG s 0 (-a) a n (by linarith)
  obtain ⟨l2, b2⟩ := hG s 1 (-b) b n (by linarith)
  unfold getPoints
  rw [if_pos rfl]
  refine ⟨by rw [List.length_zip, l1, l2, min_self], fun p hp => ?_⟩
  obtain ⟨h1, h2⟩ := List.of_mem_zip (a := p.1) (b := p.2) hp
  exact ⟨abs_le.2 (b1 _ h1), abs_le.2 (b2 _ h2)⟩

/-- **C82**, scripts/plot_spiral.py: for any generator which returns as many numbers as asked for, between the given bounds, the figure shows
three clouds of 2000 points with different colours: the points, and the points turned by the speed times the squared distance from the
origin, for both speeds; all points are inside of the axes. -/
theorem plotSpiral_spec (G : Generator) (hG : ∀ s k a b n, a < b → (G.uniform s k a b n).length = n ∧ ∀ x ∈ G.uniform s k a b n, a ≤ x ∧ x ≤ b) :
    ∃ ps cs, ps.length = 2000 ∧ plotSpiral G = .ok (cs, 2.1) ∧
      cs.map Cloud.points = [ps, ps.map fun p => turned (1 / 2 * (p.1 ^ 2 + p.2 ^ 2)) p, ps.map fun p => turned (3 / 2 * (p.1 ^ 2 + p.2 ^ 2)) p] ∧
      cs.map Cloud.label = ["Original", "Speed 0.5", "Speed 1.5"] ∧ (cs.map Cloud.color).Nodup ∧
      (∀ p ∈ ps, |p.1| ≤ 2 ∧ |p.2| ≤ 1 / 20) ∧ ∀ c ∈ cs, ∀ q ∈ c.points, |q.1| < 2.1 ∧ |q.2| < 2.1 := by
  obtain ⟨h1, h2⟩ := points_spec G hG 42 2000 (a := 2) (b := 5e-2) (by norm_num) (by norm_num)
  have h3 := plotSpiral_eq G
  generalize getPoints G 42 2 5e-2 true 2000 = ps at h1 h2 h3
  have h4 : ∀ p ∈ ps, |p.1| ≤ 2 ∧ |p.2| ≤ 1 / 20 := fun p hp => ⟨(h2 p hp).1, by
    have := (h2 p hp).2
    norm_num at this ⊢
    exact this⟩
  have h5 : (clouds ps).map Cloud.color = ["green", "goldenrod", "orangered"] := rfl
  exact ⟨ps, clouds ps, h1, h3, rfl, rfl, by rw [h5]; decide, h4, clouds_inside ps h4⟩

/-! ### Examples -/

/-- Three rows of two estimators. -/
example : ∃ f, plotMi estimatorColors estimatorNames true [⟨"CCA", some 1, some 2, some 3⟩, ⟨"MINE", some 2, none, some 3⟩, ⟨"CCA", none, some 1, none⟩] =
    .ok f ∧ f.curves.length = 2 := by
  obtain ⟨f, a, ⟨ids, b, c, d⟩, -⟩ := plotMi_spec estimatorColors estimatorNames
    [⟨"CCA", some 1, some 2, some 3⟩, ⟨"MINE", some 2, none, some 3⟩, ⟨"CCA", none, some 1, none⟩] (by
      intro r hr
      simp only [List.mem_cons, List.not_mem_nil, or_false] at hr
      rcases hr with rfl | rfl | rfl
      · dsimp only
        decide
      · dsimp only
        decide
      · dsimp only
        decide)
  refine ⟨f, a, ?_⟩
  rw [← d.length_eq]
  have hn : ids.Nodup := b.imp fun h e => by
    subst e
    exact absurd h (String.lt_irrefl _)
  have hp : ids.Perm ["CCA", "MINE"] := (List.perm_ext_iff_of_nodup hn (by decide)).2 fun e => by
    rw [c]
    simp only [List.mem_cons, List.not_mem_nil, or_false, exists_eq_or_imp, exists_eq_left, eq_comm (b := e)]
    tauto
  exact hp.length_eq

example : plotMi estimatorColors estimatorNames true [⟨"KSG-10", some 1, some 2, some 3⟩] = .error .keyError :=
  plotMi_rejects _ _ _ _ ⟨_, List.mem_singleton.2 rfl, .inl (by decide)⟩

/-- A task with given number, identifier and parameters. -/
noncomputable def exampleTask {P : Type} (v : ℝ) (k : String) (ps : Option (List P)) : Task ℝ ℤ P :=
  ⟨⟨.ok 1, .ok 1, .ok (.num v), fun n s => .ok (.mat n 1 fun i _ => (i : ℤ) + s, .mat n 1 fun i _ => (i : ℤ))⟩, k, "T", ps⟩

/-- A configuration with given tasks. -/
noncomputable def exampleConfig {P : Type} (ts : List (Task ℝ ℤ P)) : Workflow.Config ℝ (Fl ℝ) String ℤ P where
  estimators := [("CCA", ⟨false, fun _ => .exc "" none, fun x _ => .ret ⟨.num x.length, none, []⟩⟩),
    ("MINE", ⟨false, fun _ => .exc "" none, fun _ _ => .ret ⟨.num 1, none, []⟩⟩)]
  tasks := ts
  ns := [10000]
  seeds := [0, 7]
  nan := .nan
  str := id
  csv := id
  yaml := .ok
  measured := fun _ => .num 0

theorem exampleConfig_ready {P : Type} (ts : List (Task ℝ ℤ P)) (h1 : ∀ t ∈ ts, ∃ v k ps, t = exampleTask v k ps ∧ 0 ≤ v)
    (h2 : (ts.map Task.taskId).Nodup) (h3 : ∀ t ∈ ts, t.taskId.toList ≠ [] ∧ '\n' ∉ t.taskId.toList ∧ '/' ∉ t.taskId.toList) :
    Workflow.Ready (exampleConfig ts) where
  est_nodup := by simp [exampleConfig]
  est_name := by
    intro e he
    have h1 : e.1 ∈ ["CCA", "MINE"] := List.mem_map_of_mem (f := Prod.fst) he
    generalize e.1 = k at h1
    revert k
    decide
  est_alive := by simp [exampleConfig]
  task_nodup := h2
  task_name := h3
  task_id := by
    intro t ht
    obtain ⟨v, k, ps, rfl, hv⟩ := h1 t ht
    exact (Task.id_ok_iff _).2 ⟨⟨1, rfl⟩, ⟨1, rfl⟩, v, rfl, hv⟩
  seeds := by simp [exampleConfig]
  sample := by
    intro t ht n hn s hs
    obtain ⟨v, k, ps, rfl, hv⟩ := h1 t ht
    exact ⟨n, 1, 1, _, _, by norm_num, rfl⟩
  yaml := fun d => ⟨d, rfl⟩

theorem exampleConfig_known {P : Type} (ts : List (Task ℝ ℤ P)) : ∀ e ∈ (exampleConfig ts).estimators, e.1 ∈ estimators := by
  intro e he
  have h1 : e.1 ∈ ["CCA", "MINE"] := List.mem_map_of_mem (f := Prod.fst) he
  generalize e.1 = k at h1
  revert k
  decide

/-- The spirals with two estimators: one of them gives 10000, which is not shown, the other one 1. -/
example : ∃ lines f, Workflow.results (exampleConfig (taskList.map fun p => exampleTask (P := ℕ) (Real.log (5 / 3)) p.1 none)) = .ok lines ∧
    spiralFigure lines = .ok f ∧ ∀ p ∈ f.truth, p.2 = some (Real.log (5 / 3)) := by
  have hlog : 0 ≤ Real.log (5 / 3) := Real.log_nonneg (by norm_num)
  obtain ⟨lines, f, a, b, -, c, -⟩ := spiral_figure tree treeLaw tree_ideal
    (exampleConfig (taskList.map fun p => exampleTask (P := ℕ) (Real.log (5 / 3)) p.1 none)) (exampleConfig_ready _ (by
      intro t ht
      obtain ⟨p, -, rfl⟩ := List.mem_map.1 ht
      exact ⟨_, _, _, rfl, hlog⟩) (by
      rw [List.map_map]
      exact taskList_nodup) (by
      intro t ht
      obtain ⟨p, hp, rfl⟩ := List.mem_map.1 ht
      have h1 : p.1 ∈ ["spiral-0.8-0.0", "spiral-0.8-0.1", "spiral-0.8-0.3", "spiral-0.8-0.5", "spiral-0.8-0.7", "spiral-0.8-1.0",
        "spiral-0.8-1.5"] := List.mem_map_of_mem (f := Prod.fst) hp
      change p.1.toList ≠ [] ∧ '\n' ∉ p.1.toList ∧ '/' ∉ p.1.toList
      generalize p.1 = k at h1
      clear hp ht
      revert k
      decide +kernel)) (exampleConfig_known _) (by
      show List.Forall₂ _ taskList (taskList.map fun p => exampleTask (P := ℕ) (Real.log (5 / 3)) p.1 none)
      rw [List.forall₂_map_right_iff, List.forall₂_same]
      intro p _
      obtain ⟨s, h1, h2, -⟩ := spiralPlane_correct tree treeLaw tree_ideal p.2 0.8 (by norm_num [abs_of_pos])
      refine ⟨rfl, s, h1, ?_⟩
      show Except.ok (Fl.num (Real.log (5 / 3))) = _
      rw [h2]
      have : (1 : ℝ) - 0.8 ^ 2 = ((5 / 3) ^ 2)⁻¹ := by norm_num
      rw [this, Real.log_inv, Real.log_pow]
      push_cast
      congr 2
      ring)
  exact ⟨lines, f, a, b, c⟩

/-- The tasks of the long tails, with short identifiers. -/
noncomputable def exampleTail (k : (ℝ ⊕ ℕ) × ℕ) : Task ℝ ℤ (String × PVal ℝ) :=
  match k.1 with
  | .inl a => exampleTask (2 * Real.log (5 / 3)) (String.ofList (List.replicate (k.2 + 1) 'a'))
      (some (ReadResults.params (1 : ℝ) (.power (.sparse 3 3 2 2.0) a)))
  | .inr df => exampleTask (2 * Real.log (5 / 3) + (2 * studentEntropy 3 df - studentEntropy 6 df)) (String.ofList (List.replicate (k.2 + 1) 'a'))
      (some (ReadResults.params (1 : ℝ) (.studentSparse 3 3 df 2 2.0)))

theorem exampleTail_id (k : (ℝ ⊕ ℕ) × ℕ) : (exampleTail k).taskId = String.ofList (List.replicate (k.2 + 1) 'a') := by
  obtain ⟨k | k, i⟩ := k <;> rfl

example : ∃ lines f g, Workflow.results (exampleConfig (tailKinds.zipIdx.map exampleTail)) = .ok lines ∧ tailFigure lines = .ok (f, g) ∧
    ∀ p ∈ f.truth, p.2 = some (2 * Real.log (5 / 3)) := by
  have hlog : 0 ≤ Real.log (5 / 3) := Real.log_nonneg (by norm_num)
  have hdeg : ∀ df ∈ degrees, 0 < df := by
    rw [degrees_spec]
    decide
  have hk : ∀ k ∈ tailKinds.zipIdx, IsTail tree table k.1 (exampleTail k) ∧ ∃ v i ps, exampleTail k = exampleTask v i ps ∧ 0 ≤ v := by
    rintro ⟨k, i⟩ hk
    have hk' : k ∈ tailKinds := List.fst_mem_of_mem_zipIdx hk
    unfold tailKinds at hk'
    rw [List.mem_append, List.mem_map, List.mem_map] at hk'
    rcases hk' with ⟨x, hx, rfl⟩ | ⟨df, hx, rfl⟩
    · obtain ⟨s, g4, g5, -⟩ := tailNormal_correct tree treeLaw tree_ideal x (by linarith [(exponents_spec.2.2.2.2 x hx).1])
      exact ⟨⟨rfl, s, g4, by rw [g5]; rfl⟩, _, _, _, rfl, by linarith⟩
    · obtain ⟨s, g4, g5, g6, -⟩ := tailStudent_correct tree table tableLaw table_ideal df (hdeg df hx)
      exact ⟨⟨rfl, s, g4, by rw [g5]; rfl⟩, _, _, _, rfl, by rw [g5] at g6; linarith⟩
  obtain ⟨lines, f, g, a, b, -, -, c, -⟩ := tail_figure tree treeLaw tree_ideal table tableLaw table_ideal
    (exampleConfig (tailKinds.zipIdx.map exampleTail)) (exampleConfig_ready _ (by
      intro t ht
      obtain ⟨k, hk', rfl⟩ := List.mem_map.1 ht
      exact (hk k hk').2) (by
      rw [List.map_map]
      have e : Task.taskId ∘ exampleTail = (fun i : ℕ => String.ofList (List.replicate (i + 1) 'a')) ∘ Prod.snd := funext exampleTail_id
      rw [e, ← List.map_map]
      refine List.Nodup.map (fun i j hij => ?_) (by rw [List.zipIdx_map_snd]; exact List.nodup_range')
      have := congrArg (fun s : String => s.toList.length) hij
      simpa using this) (by
      intro t ht
      obtain ⟨k, -, rfl⟩ := List.mem_map.1 ht
      rw [exampleTail_id]
      simp)) (exampleConfig_known _) (by
      show List.Forall₂ _ tailKinds (tailKinds.zipIdx.map exampleTail)
      have e : tailKinds = tailKinds.zipIdx.map Prod.fst := by simp
      conv =>
        arg 2
        rw [e]
      rw [List.forall₂_map_right_iff, List.forall₂_map_left_iff, List.forall₂_same]
      exact fun k hk' => (hk k hk').1)
  exact ⟨lines, f, g, a, b, fun p hp => (c p hp).2⟩

/-- A generator which returns zeros. -/
example : ∃ cs, plotSpiral ⟨fun _ _ a _ n => List.replicate n a, fun _ _ _ _ => []⟩ = .ok (cs, 2.1) ∧
    cs.map Cloud.label = ["Original", "Speed 0.5", "Speed 1.5"] := by
  obtain ⟨ps, cs, -, h1, -, h2, -⟩ := plotSpiral_spec ⟨fun _ _ a _ n => List.replicate n a, fun _ _ _ _ => []⟩ (by
    intro s k a b n hab
    refine ⟨List.length_replicate, fun x hx => ?_⟩
    rw [List.eq_of_mem_replicate hx]
    exact ⟨le_rfl, hab.le⟩)
  exact ⟨cs, h1, h2⟩

end BMI.MiFigure
