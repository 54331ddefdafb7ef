import Verif.Lemmas.HistogramLimit
import Verif.Props.Histogram
import Verif.Props.Multinormal
import Verif.Lemmas.SampleCov
import Verif.Lemmas.GaussianMI
import Verif.Lemmas.IdealWitness

/-! C100: the histogram estimator (/repo/src/bmi/estimators/_histogram.py) with more and more points. -/

namespace BMI.Consistency

open MeasureTheory ProbabilityTheory Filter BMI.Samplers BMI.PlugIn BMI.Histogram BMI.Extremes Topology

variable {Key : Type} [MeasurableSpace Key] {dx dy : ℕ}

/-- The histogram estimate from the arrays `x` and `y` is `t`. -/
def histogramGives (ε : ℝ) (p : Params) (n : ℕ) (x : Fin n → Fin dx → ℝ) (y : Fin n → Fin dy → ℝ) (t : ℝ) : Prop :=
  Histogram.estimate ε p ⟨n, dx, x⟩ ⟨n, dy, y⟩ = .ok t

/-- The estimate as plug-in information of cells, without standardisation. -/
theorem estimate_raw (ε : ℝ) (hε : 0 ≤ ε) (p : Params) (hx : 0 < p.nBinsX) (hy : 0 < p.nBinsY) {n : ℕ} (v : Fin n → Fin dx → ℝ)
    (w : Fin n → Fin dy → ℝ) (hn : 0 < n) (hd : 0 < dx) (he : 0 < dy) :
    ∃ (A : Fin n → Fin dx → ℕ) (B : Fin n → Fin dy → ℕ),
      Histogram.estimate ε p ⟨n, dx, v⟩ ⟨n, dy, w⟩ = .ok (info A B) ∧
      (∀ i j, ∃ lo hi, IsRange (fun i' => v i' j) lo hi ∧ IsCell lo hi p.nBinsX (v i j) (A i j)) ∧
      (∀ i j, ∃ lo hi, IsRange (fun i' => w i' j) lo hi ∧ IsCell lo hi p.nBinsY (w i j) (B i j)) := by
  obtain ⟨A, B, h1, h2, h3⟩ := estimate_is_plugin ε ⟨p.nBinsX, p.nBinsY, false⟩ hx hy v w hn hd he
  refine ⟨A, B, ?_, h2, h3⟩
  rw [← h1]
  obtain ⟨nx, ny, std⟩ := p
  cases std
  · rfl
  · exact estimate_standardize ε hε ⟨nx, ny, true⟩ hx hy v w hn hd he

/-- A normal variable which is not constant, in units of its standard deviation. -/
theorem standardised {E : Type} [MeasurableSpace E] {P : Measure E} {f : E → ℝ} (hf : Measurable f) {m : ℝ} {v : NNReal} (hv : v ≠ 0)
    (hP : P.map f = gaussianReal m v) : P.map (fun z => (f z - m) / √v) = gaussianReal 0 1 := by
  have h1 : (fun z => (f z - m) / √v) = (fun x => x / √v) ∘ (fun x => x - m) ∘ f := rfl
  have m1 : Measurable fun x : ℝ => x / √v := by fun_prop
  have m2 : Measurable fun x : ℝ => x - m := by fun_prop
  rw [h1, ← Measure.map_map m1 (m2.comp hf), ← Measure.map_map m2 hf, hP, gaussianReal_map_sub_const, gaussianReal_map_div_const]
  congr 1
  · simp
  · have : (v : ℝ) ≠ 0 := by exact_mod_cast hv
    ext
    push_cast
    have h2 : √(v : ℝ) ^ 2 = v := Real.sq_sqrt v.2
    exact (congrArg (fun t : ℝ => (v : ℝ) / t) h2).trans (div_self this)

/-- The samples on which the columns of X are spread as normal numbers are. -/
theorem columns_spread {E : Type} [MeasurableSpace E] {P : Measure E} [IsProbabilityMeasure P] {d : ℕ} {f : Fin d → E → ℝ}
    (hf : ∀ j, Measurable (f j)) (hP : ∀ j, P.map (f j) = gaussianReal 0 1) {ε δ : ℝ} (hε : 0 < ε) (hε1 : ε < 1) (hδ : 0 < δ) :
    Tendsto (fun n => (Measure.pi fun _ : Fin n => P) {w | ¬ ∀ j, Spread (f j) ε δ w}) atTop (𝓝 0) := by
  have h1 := tendsto_finset_sum Finset.univ fun j _ => spread_tendsto (hf j) (hP j) hε hε1 hδ
  rw [Finset.sum_const_zero] at h1
  refine tendsto_of_tendsto_of_tendsto_of_le_of_le tendsto_const_nhds h1 (fun _ => bot_le) fun n => ?_
  have h2 : {w : Fin n → E | ¬ ∀ j, Spread (f j) ε δ w} = ⋃ j, {w | ¬ Spread (f j) ε δ w} := by ext w; simp
  simp only [h2]
  exact (measure_iUnion_le _).trans (tsum_fintype _).le

open Classical in
/-- If the columns are spread as normal numbers are, and the number of cells is odd, nearly all points are in one cell. -/
theorem nearly_all {n d k : ℕ} (hn : 0 < n) {v : Fin n → Fin d → ℝ} {A : Fin n → Fin d → ℕ} {m σ : Fin d → ℝ} (hσ : ∀ j, 0 < σ j)
    (hA : ∀ i j, ∃ lo hi, IsRange (fun i' => v i' j) lo hi ∧ IsCell lo hi (2 * k + 1) (v i j) (A i j)) {δ : ℝ}
    (hs : ∀ j, Spread (fun z : Fin d → ℝ => (z j - m j) / σ j) (1 / (2 * (2 * k + 1))) δ v) :
    1 - d * δ ≤ freq1 A fun _ => k := by
  have h1 : ∀ i, (∀ j, |(v i j - m j) / σ j| < 1 / (2 * (2 * k + 1)) * level n) → A i = fun _ => k := by
    intro i hi
    funext j
    obtain ⟨lo, hi', hr, hc⟩ := hA i j
    obtain ⟨s1, s2, s3, -⟩ := hs j
    exact isCell_unique lo hi' (range_bounds hr).1 _ _ _ _ hc (middle_cell (hσ j) hr s1 s2 s3 (hi j))
  have h2 : (Finset.univ.filter fun i => A i ≠ fun _ => k).card ≤
      ∑ j, (Finset.univ.filter fun i => 1 / (2 * (2 * (k : ℝ) + 1)) * level n ≤ |(v i j - m j) / σ j|).card := by
    refine le_trans (Finset.card_le_card ?_) Finset.card_biUnion_le
    intro i hi
    simp only [Finset.mem_biUnion, Finset.mem_univ, true_and, Finset.mem_filter] at hi ⊢
    by_contra hcon
    push Not at hcon
    exact hi (h1 i hcon)
  have h3 : ((Finset.univ.filter fun i => A i ≠ fun _ => k).card : ℝ) ≤ d * δ * n := by
    calc ((Finset.univ.filter fun i => A i ≠ fun _ => k).card : ℝ)
        ≤ ∑ j, ((Finset.univ.filter fun i => 1 / (2 * (2 * (k : ℝ) + 1)) * level n ≤ |(v i j - m j) / σ j|).card : ℝ) := by exact_mod_cast h2
      _ ≤ ∑ _j : Fin d, δ * n := Finset.sum_le_sum fun j _ => (hs j).2.2.2.le
      _ = d * δ * n := by rw [Finset.sum_const, Finset.card_univ, Fintype.card_fin, nsmul_eq_mul]; ring
  have h4 : ((Finset.univ.filter fun i => A i = fun _ => k).card : ℝ) + (Finset.univ.filter fun i => A i ≠ fun _ => k).card = n := by
    have := Finset.card_filter_add_card_filter_not (s := (Finset.univ : Finset (Fin n))) (fun i => A i = fun _ => k)
    rw [Finset.card_univ, Fintype.card_fin] at this
    exact_mod_cast this
  have hn' : (0 : ℝ) < n := by exact_mod_cast hn
  have h5 : freq1 A (fun _ => k) = ((Finset.univ.filter fun i => A i = fun _ => k).card : ℝ) / n := by
    unfold freq1
    congr!
  rw [h5, le_div_iff₀ hn']
  linarith

/-- Small information from cells which are nearly always the same. -/
theorem small_info {d : ℕ} (b : ℕ) {η : ℝ} (hη : 0 < η) : ∃ δ > 0, ∀ {n e : ℕ} (A : Fin n → Fin d → ℕ) (B : Fin n → Fin e → ℕ) (a₀ : Fin d → ℕ),
    0 < n → (∀ i j, A i j < b) → 1 - d * δ ≤ freq1 A a₀ → |info A B - 0| < η ∧ |info B A - 0| < η := by
  obtain ⟨δ, hδ, H⟩ := entropy_small (b ^ d) hη
  refine ⟨δ / (d + 1), by positivity, fun {n e} A B a₀ hn hb ha => ?_⟩
  have hS : ∀ i, A i ∈ Fintype.piFinset fun _ : Fin d => Finset.range b := fun i => by
    rw [Fintype.mem_piFinset]
    exact fun j => Finset.mem_range.2 (hb i j)
  have h1 := H A (Fintype.piFinset fun _ : Fin d => Finset.range b) a₀ hn (by simp) hS (by
    refine le_trans ?_ ha
    have : (d : ℝ) * (δ / (d + 1)) ≤ δ := by
      rw [mul_div_assoc', div_le_iff₀ (by positivity)]
      nlinarith
    linarith)
  have h2 := (info_le_entropy A B _ hS).trans_lt h1
  have h3 := info_nonneg hn A B
  rw [info_swap A B, sub_zero, abs_of_nonneg h3]
  exact ⟨h2, h2⟩

/-- **C100** If all columns of X have normal laws and the number of cells for X is odd, or the same for Y, the histogram estimates
converge to zero in probability, whatever the mutual information. -/
theorem histogram_normal {κ : Measure Key} {s : Sampler Key} {P : Measure ((Fin dx → ℝ) × (Fin dy → ℝ))} [IsProbabilityMeasure P]
    (hs : Draws κ s P) (hdx : 0 < dx) (hdy : 0 < dy) {ε : ℝ} (hε : 0 ≤ ε) {p : Params} (hx : 0 < p.nBinsX) (hy : 0 < p.nBinsY)
    (h : (Odd p.nBinsX ∧ ∀ j, ∃ m v, v ≠ 0 ∧ P.map (fun z => z.1 j) = gaussianReal m v) ∨
      (Odd p.nBinsY ∧ ∀ j, ∃ m v, v ≠ 0 ∧ P.map (fun z => z.2 j) = gaussianReal m v)) :
    ConvergesTo κ s (histogramGives (dx := dx) (dy := dy) ε p) 0 := by
  refine converges_of_small hs fun η hη => ?_
  rcases h with ⟨⟨k, hk⟩, hcol⟩ | ⟨⟨k, hk⟩, hcol⟩
  · choose m v hv hP using hcol
    obtain ⟨δ, hδ, H⟩ := small_info (d := dx) p.nBinsX hη
    have he1 : (1 : ℝ) / (2 * (2 * k + 1)) < 1 := by
      rw [div_lt_one (by positivity)]
      have : (0 : ℝ) ≤ k := Nat.cast_nonneg k
      linarith
    refine ⟨_, columns_spread (P := P) (f := fun j z => (z.1 j - m j) / √(v j)) (fun j => by fun_prop)
      (fun j => standardised (f := fun z : (Fin dx → ℝ) × (Fin dy → ℝ) => z.1 j) (by fun_prop) (hv j) (hP j)) (ε := 1 / (2 * (2 * k + 1))) (by positivity) he1 hδ, ?_⟩
    filter_upwards [eventually_gt_atTop 0] with n hn z hz
    have hz' := not_not.1 hz
    obtain ⟨A, B, h1, h2, -⟩ := estimate_raw ε hε p hx hy (fun i => (z i).1) (fun i => (z i).2) hn hdx hdy
    refine ⟨_, h1, (H A B (fun _ => k) hn (fun i j => ?_) ?_).1⟩
    · obtain ⟨lo, hi, -, hc⟩ := h2 i j
      exact hc.1
    · rw [hk] at h2
      exact nearly_all hn (fun j => Real.sqrt_pos.2 (by have := hv j; positivity)) h2 hz'
  · choose m v hv hP using hcol
    obtain ⟨δ, hδ, H⟩ := small_info (d := dy) p.nBinsY hη
    have he1 : (1 : ℝ) / (2 * (2 * k + 1)) < 1 := by
      rw [div_lt_one (by positivity)]
      have : (0 : ℝ) ≤ k := Nat.cast_nonneg k
      linarith
    refine ⟨_, columns_spread (P := P) (f := fun j z => (z.2 j - m j) / √(v j)) (fun j => by fun_prop)
      (fun j => standardised (f := fun z : (Fin dx → ℝ) × (Fin dy → ℝ) => z.2 j) (by fun_prop) (hv j) (hP j)) (ε := 1 / (2 * (2 * k + 1))) (by positivity) he1 hδ, ?_⟩
    filter_upwards [eventually_gt_atTop 0] with n hn z hz
    have hz' := not_not.1 hz
    obtain ⟨A, B, h1, -, h2⟩ := estimate_raw ε hε p hx hy (fun i => (z i).1) (fun i => (z i).2) hn hdx hdy
    refine ⟨_, h1, (H B A (fun _ => k) hn (fun i j => ?_) ?_).2⟩
    · obtain ⟨lo, hi, -, hc⟩ := h2 i j
      exact hc.1
    · rw [hk] at h2
      exact nearly_all hn (fun j => Real.sqrt_pos.2 (by have := hv j; positivity)) h2 hz'

/-- The columns of normal vectors are normal. -/
theorem normal_columns (mean : Fin (dx + dy) → ℝ) {S : Matrix (Fin (dx + dy)) (Fin (dx + dy)) ℝ} (hS : S.PosDef) (i : Fin (dx + dy)) :
    ∃ m v, v ≠ 0 ∧ (splitNormal dx dy mean S).map (fun z => Fin.append z.1 z.2 i) = gaussianReal m v := by
  have ho : Measurable (WithLp.ofLp : EuclideanSpace ℝ (Fin (dx + dy)) → Fin (dx + dy) → ℝ) := by fun_prop
  have hp : Measurable (parts : (Fin (dx + dy) → ℝ) → (Fin dx → ℝ) × (Fin dy → ℝ)) := by unfold parts; fun_prop
  refine ⟨mean i, (S i i).toNNReal, ?_, ?_⟩
  · have := hS.diag_pos (i := i)
    rw [ne_eq, Real.toNNReal_eq_zero, not_le]
    exact this
  · have h1 := (measurePreserving_eval_multivariateGaussian (μ := WithLp.toLp 2 mean) hS.posSemidef (i := i)).map_eq
    unfold splitNormal normalLaw
    rw [Measure.map_map (measurable_append i) hp, Measure.map_map ((measurable_append i).comp hp) ho, ← h1]
    congr 1
    funext z
    refine Fin.addCases (fun j => ?_) (fun j => ?_) i
    · simp [parts]
    · simp [parts]

/-- **C100** On every task with normal variables the estimates with the default parameters - five cells for each column - converge
to zero, though the reported mutual information is positive as soon as some X and Y components are correlated. -/
theorem histogram_default (R : JaxRandom Key) (κ : Measure Key) (hR : IdealRandom R κ) (hdx : 0 < dx) (hdy : 0 < dy)
    (mean : Fin (dx + dy) → ℝ) {S : Matrix (Fin (dx + dy)) (Fin (dx + dy)) ℝ} (hS : S.PosDef) {ε : ℝ} (hε : 0 ≤ ε) :
    ∃ p s, mkParams 5 none true = .ok p ∧ splitMultinormal R dx dy (rowsOf S) (some (List.ofFn mean)) = .ok s ∧
      ConvergesTo κ s (histogramGives (dx := dx) (dy := dy) ε p) 0 ∧
      ((∃ i j, S (Fin.castAdd dy i) (Fin.natAdd dx j) ≠ 0) → 0 < s.mi) := by
  obtain ⟨s, hs, hc⟩ := splitMultinormal_correct R κ hR dx dy hdx hdy mean S hS
  haveI := hc.prob
  refine ⟨⟨5, 5, true⟩, s, rfl, hs, histogram_normal (fun n _ => hc.law n) hdx hdy hε (by norm_num) (by norm_num)
    (.inl ⟨⟨2, rfl⟩, fun j => ?_⟩), fun ⟨i, j, hij⟩ => ?_⟩
  swap
  · obtain ⟨s', hs', hz⟩ := multinormal_zero_iff R dx dy hdx hdy mean S hS
    obtain rfl := Except.ok.inj (hs.symm.trans hs')
    exact lt_of_le_of_ne hc.nonneg fun h0 => hij (hz.1 h0.symm i j)
  obtain ⟨m, v, hv, h⟩ := normal_columns mean hS (Fin.castAdd dy j)
  simp only [Fin.append_left] at h
  exact ⟨m, v, hv, h⟩

/-- Correlation 0.9: the estimates converge to zero, the mutual information is positive. -/
example : ∃ p s, mkParams 5 none true = .ok p ∧ splitMultinormal tree 1 1 (rowsOf (bivariateCov 0.9 1 1)) (some (List.ofFn ![0, 0])) = .ok s ∧
    ConvergesTo treeLaw s (histogramGives (dx := 1) (dy := 1) 0 p) 0 ∧ 0 < s.mi := by
  obtain ⟨p, s, h1, h2, h3, h4⟩ := histogram_default tree treeLaw tree_ideal one_pos one_pos ![0, 0]
    (bivariateCov_posDef 0.9 1 1 one_pos one_pos (by norm_num) (by norm_num)) (le_refl (0 : ℝ))
  refine ⟨p, s, h1, h2, h3, h4 ⟨0, 0, ?_⟩⟩
  change (0.9 * 1 * 1 : ℝ) ≠ 0
  norm_num

/-- The hypotheses of `histogram_normal` for seven cells of X and four of Y. -/
example : ∃ s, splitMultinormal tree 2 1 (rowsOf (1 : Matrix (Fin 3) (Fin 3) ℝ)) (some (List.ofFn ![1, 2, 3])) = .ok s ∧
    ConvergesTo treeLaw s (histogramGives (dx := 2) (dy := 1) 0 ⟨7, 4, false⟩) 0 := by
  obtain ⟨s, hs, hc⟩ := splitMultinormal_correct tree treeLaw tree_ideal 2 1 two_pos one_pos ![1, 2, 3] 1 Matrix.PosDef.one
  haveI := hc.prob
  refine ⟨s, hs, histogram_normal (fun n _ => hc.law n) two_pos one_pos le_rfl (by norm_num) (by norm_num) (.inl ⟨⟨3, rfl⟩, fun j => ?_⟩)⟩
  obtain ⟨m, v, hv, h⟩ := normal_columns (dx := 2) (dy := 1) ![1, 2, 3] Matrix.PosDef.one (Fin.castAdd 1 j)
  simp only [Fin.append_left] at h
  exact ⟨m, v, hv, h⟩

end BMI.Consistency
