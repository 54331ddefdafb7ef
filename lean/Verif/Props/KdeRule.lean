import Verif.Lemmas.KdeLaws
import Verif.Props.KdeStandard
import Verif.Props.HistogramFine

/-! C106: the kernel density estimator with Scott's or Silverman's bandwidths. -/

namespace BMI.Kde

open MeasureTheory ProbabilityTheory Filter Topology BMI.Batch BMI.Kde.Spec BMI.Consistency BMI.Samplers

variable {Key : Type} [MeasurableSpace Key] {d dx dy : ℕ}

/-- Bandwidths computed from the number of points. -/
def ByRule (b : Bandwidth) : Prop := b = .scott ∨ b = .silverman

theorem ByRule.usable {b : Bandwidth} (hb : ByRule b) : Usable b := by
  rcases hb with rfl | rfl <;> rintro r ⟨⟩

theorem width_form {b : Bandwidth} (hb : ByRule b) (d : ℕ) : ∃ C : ℝ, 0 < C ∧ ∀ n : ℕ, 0 < n → width n d b = C * (n : ℝ) ^ (-((1 : ℝ) / (d + 4))) := by
  rcases hb with rfl | rfl
  · refine ⟨1, one_pos, fun n hn => ?_⟩
    rw [one_mul, Real.rpow_neg (Nat.cast_nonneg n), width, one_div]
  · refine ⟨(((d : ℝ) + 2) / 4) ^ (-((1 : ℝ) / (d + 4))), by positivity, fun n hn => ?_⟩
    rw [width, ← Real.mul_rpow (by positivity) (Nat.cast_nonneg n), Real.rpow_neg (by positivity), one_div]
    congr 2
    ring

/-- The bandwidths tend to zero, but slowly. -/
theorem width_rule {b : Bandwidth} (hb : ByRule b) (d : ℕ) {r : ℝ} (hr : 0 < r) :
    (∀ᶠ n : ℕ in atTop, 0 < width n d b * r) ∧ Tendsto (fun n : ℕ => width n d b * r) atTop (𝓝 0) ∧
      Tendsto (fun n : ℕ => (1 + Real.log n) * (n : ℝ) ^ (2 / ((d : ℝ) + 4)) / (n * (width n d b * r) ^ d)) atTop (𝓝 0) := by
  obtain ⟨C, hC, hw⟩ := width_form hb d
  have hd : (0 : ℝ) < (d : ℝ) + 4 := by positivity
  have ha : (0 : ℝ) < 1 / ((d : ℝ) + 4) := by positivity
  refine ⟨?_, ?_, ?_⟩
  · filter_upwards [eventually_gt_atTop 0] with n hn
    have : (0 : ℝ) < n := by exact_mod_cast hn
    rw [hw n hn]
    positivity
  · have h1 := ((tendsto_rpow_neg_atTop ha).comp tendsto_natCast_atTop_atTop).const_mul (C * r)
    rw [mul_zero] at h1
    refine h1.congr' ?_
    filter_upwards [eventually_gt_atTop 0] with n hn
    rw [hw n hn, Function.comp_apply]
    ring
  · have hs : (0 : ℝ) < 2 / ((d : ℝ) + 4) := by positivity
    have h1 : Tendsto (fun x : ℝ => Real.log x / x ^ (2 / ((d : ℝ) + 4))) atTop (𝓝 0) := (isLittleO_log_rpow_atTop hs).tendsto_div_nhds_zero
    have h2 : Tendsto (fun x : ℝ => x ^ (-(2 / ((d : ℝ) + 4)))) atTop (𝓝 0) := tendsto_rpow_neg_atTop hs
    have h3 := (((h2.add h1).comp tendsto_natCast_atTop_atTop).const_mul (1 / (C * r) ^ d))
    rw [add_zero, mul_zero] at h3
    refine h3.congr' ?_
    filter_upwards [eventually_gt_atTop 0] with n hn
    have hn' : (0 : ℝ) < n := by exact_mod_cast hn
    have e : (n : ℝ) * (width n d b * r) ^ d = (C * r) ^ d * (n : ℝ) ^ (4 / ((d : ℝ) + 4)) := by
      rw [hw n hn, show C * (n : ℝ) ^ (-(1 / ((d : ℝ) + 4))) * r = C * r * (n : ℝ) ^ (-(1 / ((d : ℝ) + 4))) by ring, mul_pow,
        ← Real.rpow_natCast, ← Real.rpow_natCast ((n : ℝ) ^ (-(1 / ((d : ℝ) + 4)))) d, ← Real.rpow_mul hn'.le, Real.rpow_natCast]
      rw [show (n : ℝ) * ((C * r) ^ d * (n : ℝ) ^ (-(1 / ((d : ℝ) + 4)) * d)) = (C * r) ^ d * ((n : ℝ) ^ (1 : ℝ) * (n : ℝ) ^ (-(1 / ((d : ℝ) + 4)) * d)) by
        rw [Real.rpow_one]; ring, ← Real.rpow_add hn']
      congr 2
      field_simp
      ring
    have e2 : (n : ℝ) ^ (4 / ((d : ℝ) + 4)) = (n : ℝ) ^ (2 / ((d : ℝ) + 4)) * (n : ℝ) ^ (2 / ((d : ℝ) + 4)) := by
      rw [← Real.rpow_add hn']
      congr 1
      ring
    rw [e, e2]
    simp only [Function.comp_apply]
    rw [Real.rpow_neg hn'.le]
    have : 0 < (n : ℝ) ^ (2 / ((d : ℝ) + 4)) := by positivity
    field_simp

/-- The entropy of standardised columns tends to the entropy of the law in units of its standard deviations. -/
theorem entropy_rule_standardised (k : Kernel) {b : Bandwidth} (hb : ByRule b) {E : Type} [MeasurableSpace E] {P : Measure E}
    [IsProbabilityMeasure P] {f : E → Fin d → ℝ} (hf : ∀ c, Measurable fun e => f e c) (hL : ∀ c, MemLp (fun e => f e c) 2 P)
    (hv : ∀ c, 0 < Var[fun e => f e c; P]) {f₀ : (Fin d → ℝ) → ℝ}
    (D : Dense (P.map fun e c => f e c / √Var[fun e => f e c; P]) f₀) {δ : ℝ} (hδ : 0 < δ) :
    Rare P fun n => {s | ¬ |Spec.entropy (shape k) (mass k d) (width n d b) (fun i c => PSpace.scaleCol 0 (fun i' => f (s i') c) i)
      - -∫ u, Real.log (f₀ u) ∂(P.map fun e c => f e c / √Var[fun e => f e c; P])| < δ} := by
  set g : E → Fin d → ℝ := fun e c => f e c / √Var[fun e => f e c; P] with hg
  have mg : Measurable g := measurable_pi_lambda _ fun c => (hf c).div_const _
  haveI : IsProbabilityMeasure (P.map g) := Measure.isProbabilityMeasure_map mg.aemeasurable
  have hZ := mass_pos k d
  have ht : Tendsto (fun r : ℝ => d * Real.log r) (𝓝 1) (𝓝 0) := by
    have := (Real.continuousAt_log (one_ne_zero)).tendsto.const_mul (d : ℝ)
    rwa [Real.log_one, mul_zero] at this
  rw [Metric.tendsto_nhds_nhds] at ht
  obtain ⟨ρ, hρ, hball⟩ := ht (δ / 2) (by positivity)
  set η := min (ρ / 2) (1 / 2) with hη
  have hη0 : 0 < η := by positivity
  have hη1 : η ≤ 1 / 2 := min_le_right _ _
  have hη2 : η ≤ ρ / 2 := min_le_left _ _
  have hlo : 0 < 1 - η := by linarith
  have hhi : 0 < 1 + η := by linarith
  have c1 := @hball (1 - η) (by rw [Real.dist_eq, show 1 - η - 1 = -η by ring, abs_neg, abs_of_pos hη0]; linarith)
  have c2 := @hball (1 + η) (by rw [Real.dist_eq, show 1 + η - 1 = η by ring, abs_of_pos hη0]; linarith)
  have mm : ∀ (h' : ℝ) (n : ℕ), Measurable fun s : Fin n → E => Spec.entropy (shape k) (mass k d) h' (fun i => g (s i)) :=
    fun h' n => (measurable_entropy' k (mass k d) h' n).comp (measurable_pi_lambda _ fun i => mg.comp (measurable_pi_apply i))
  have hr : (0 : ℝ) < 2 / ((d : ℝ) + 4) := by positivity
  obtain ⟨w1, w2, w3⟩ := width_rule hb d hlo
  obtain ⟨w4, w5, w6⟩ := width_rule hb d hhi
  have s1 := (small_of_map mg (fun n => (measurable_entropy' k (mass k d) (width n d b * (1 - η)) n).sub_const _)
    (entropy_shrink k D w1 w2 hr w3)).prob (fun n => (mm _ n).sub_const _) (half_pos hδ)
  have s2 := (small_of_map mg (fun n => (measurable_entropy' k (mass k d) (width n d b * (1 + η)) n).sub_const _)
    (entropy_shrink k D w4 w5 hr w6)).prob (fun n => (mm _ n).sub_const _) (half_pos hδ)
  have s3 := Rare.iUnion fun c => std_rare (P := P) (hf c) (hL c) (hv c) hη0
  refine ((Rare.union (P := P) s1 s2).union s3).mono ?_
  filter_upwards [eventually_gt_atTop 0] with n hn s hs'
  have hh : 0 < width n d b := width_pos hb.usable hn d
  by_contra hcon
  simp only [Set.mem_union, Set.mem_iUnion, Set.mem_setOf_eq, not_or, not_exists, not_not] at hcon
  obtain ⟨⟨a1, a2⟩, a3⟩ := hcon
  refine hs' ?_
  have hsig : ∀ c, 0 < √Var[fun e => f e c; P] := fun c => Real.sqrt_pos.2 (hv c)
  set q : Fin d → ℝ := fun c => √(PSpace.colVar fun i' => f (s i') c) / √Var[fun e => f e c; P] with hq
  set a : Fin d → ℝ := fun c => PSpace.colMean (fun i' => f (s i') c) / √Var[fun e => f e c; P] with ha
  have hw : ∀ i c, PSpace.scaleCol 0 (fun i' => f (s i') c) i = (g (s i) c - a c) / q c := by
    intro i c
    obtain ⟨h1, h2, -⟩ := a3 c
    have : 0 < √(PSpace.colVar fun i' => f (s i') c) := lt_of_lt_of_le (mul_pos (hsig c) hlo) h2
    unfold PSpace.scaleCol
    rw [if_neg h1]
    simp only [hg, ha, hq]
    have := hsig c
    field_simp
  have hql : ∀ c, 1 - η ≤ q c ∧ q c ≤ 1 + η := by
    intro c
    obtain ⟨-, h2, h3⟩ := a3 c
    constructor
    · rw [hq, le_div_iff₀ (hsig c)]; linarith
    · rw [hq, div_le_iff₀ (hsig c)]; linarith
  set h := width n d b with hhd
  have zz : ∀ r : ℝ, 0 < r → mass k d * h ^ d = mass k d / r ^ d * (h * r) ^ d := fun r hr => by
    rw [mul_pow]
    field_simp
  have e1 := entropy_mono k hh (mul_pos hh hlo) (by positivity) (zz (1 - η) hlo)
    (fun i c => PSpace.scaleCol 0 (fun i' => f (s i') c) i) (fun i => g (s i)) (fun i j => by
      rw [mul_comm h, ← div_div]
      exact div_le_div_of_nonneg_right (dist_scaled (hw i) (hw j) hlo hhi hql).2 hh.le)
  have e2 := entropy_mono k (mul_pos hh hhi) hh (by rw [← zz (1 + η) hhi]; positivity) (zz (1 + η) hhi).symm (fun i => g (s i))
    (fun i c => PSpace.scaleCol 0 (fun i' => f (s i') c) i) (fun i j => by
      rw [mul_comm h, ← div_div]
      exact div_le_div_of_nonneg_right (dist_scaled (hw i) (hw j) hlo hhi hql).1 hh.le)
  rw [entropy_mass k hZ (by positivity) (mul_pos hh hlo) hn, Real.log_div hZ.ne' (by positivity), Real.log_pow] at e1
  rw [entropy_mass k hZ (by positivity) (mul_pos hh hhi) hn, Real.log_div hZ.ne' (by positivity), Real.log_pow] at e2
  rw [Real.dist_eq, sub_zero] at c1 c2
  rw [abs_lt] at a1 a2 c1 c2 ⊢
  constructor <;> linarith [a1.1, a1.2, a2.1, a2.2, c1.1, c1.2, c2.1, c2.2]

/-- **C106** With bandwidths by Scott's or Silverman's rule (for X, Y and the pair separately) and any of the six kernels, with or without
standardised columns, the estimates converge to the mutual information, whenever it is finite and X and Y have densities which are not too
peaked and components whose logarithms have means; if the columns are standardised, the components need second moments. Neither the variables
nor their densities need to be bounded. Exact arithmetic: only constant columns are taken to be constant. -/
theorem kde_consistent {κ : Measure Key} {s : Sampler Key} {P : Measure ((Fin dx → ℝ) × (Fin dy → ℝ))} [IsProbabilityMeasure P]
    (hs : Draws κ s P) (hdx : 0 < dx) (hdy : 0 < dy) (hP : Spread P) {Z : Kernel → ℕ → ℝ} (hZ : ∀ k d, Z k d = mass k d) {ε : ℝ}
    (E : Estimator) (hε : E.standardize = true → ε = 0)
    (hx : E.standardize = true → ∀ c, MemLp (fun p : (Fin dx → ℝ) × (Fin dy → ℝ) => p.1 c) 2 P)
    (hy : E.standardize = true → ∀ c, MemLp (fun p : (Fin dx → ℝ) × (Fin dy → ℝ) => p.2 c) 2 P)
    (bx : ByRule E.kdeX.bandwidth) (by' : ByRule E.kdeY.bandwidth) (bxy : ByRule E.kdeXY.bandwidth) :
    ConvergesTo κ s (Gives (dx := dx) (dy := dy) Z ε E) (mutualInfo P).toReal := by
  obtain rfl : Z = mass := by funext k d; exact hZ k d
  have hp := mass_pos
  have ma := measurable_append (dx := dx) (dy := dy)
  cases hE : E.standardize
  · haveI i1 : IsProbabilityMeasure (P.map Prod.fst) := Measure.isProbabilityMeasure_map measurable_fst.aemeasurable
    haveI i2 : IsProbabilityMeasure (P.map Prod.snd) := Measure.isProbabilityMeasure_map measurable_snd.aemeasurable
    haveI i3 : IsProbabilityMeasure (P.map fun p => (Fin.append p.1 p.2 : Fin (dx + dy) → ℝ)) := Measure.isProbabilityMeasure_map ma.aemeasurable
    obtain ⟨fx, Dx⟩ := fst_dense hP
    obtain ⟨fy, Dy⟩ := snd_dense hP
    obtain ⟨fxy, Dxy⟩ := append_dense hP
    obtain ⟨em, en⟩ := spread_mi Dx Dy Dxy
    rw [em, ENNReal.toReal_ofReal en]
    have small : ∀ {e : ℕ} {k : Kernel} {b : Bandwidth} (_ : ByRule b) {Q : Measure (Fin e → ℝ)} [IsProbabilityMeasure Q] {f : (Fin e → ℝ) → ℝ}
        (_ : Dense Q f), Batch.Small Q fun n s => Spec.entropy (shape k) (mass k e) (width n e b) s - -∫ u, Real.log (f u) ∂Q := by
      intro e k b hb Q _ f D
      obtain ⟨w1, w2, w3⟩ := width_rule hb e one_pos
      simp only [mul_one] at w1 w2 w3
      exact entropy_shrink k D w1 w2 (show (0 : ℝ) < 2 / ((e : ℝ) + 4) by positivity) w3
    refine converges_of_small hs fun δ hδ => ?_
    have s1 := (small_of_map measurable_fst (fun n => (measurable_entropy' _ _ _ n).sub_const _) (small (k := E.kdeX.kernel) bx Dx)).prob
      (fun n => ((measurable_entropy' _ _ _ n).comp (measurable_pi_lambda _ fun i => measurable_fst.comp (measurable_pi_apply i))).sub_const _)
      (show 0 < δ / 3 by positivity)
    have s2 := (small_of_map measurable_snd (fun n => (measurable_entropy' _ _ _ n).sub_const _) (small (k := E.kdeY.kernel) by' Dy)).prob
      (fun n => ((measurable_entropy' _ _ _ n).comp (measurable_pi_lambda _ fun i => measurable_snd.comp (measurable_pi_apply i))).sub_const _)
      (show 0 < δ / 3 by positivity)
    have s3 := (small_of_map ma (fun n => (measurable_entropy' _ _ _ n).sub_const _) (small (k := E.kdeXY.kernel) bxy Dxy)).prob
      (fun n => ((measurable_entropy' _ _ _ n).comp (measurable_pi_lambda _ fun i => ma.comp (measurable_pi_apply i))).sub_const _)
      (show 0 < δ / 3 by positivity)
    refine ⟨_, (Rare.union (P := P) s1 s2).union s3, ?_⟩
    filter_upwards [eventually_gt_atTop 0] with n hn b hb
    simp only [Set.mem_union, Set.mem_setOf_eq, not_or, not_not] at hb
    obtain ⟨⟨a1, a2⟩, a3⟩ := hb
    obtain ⟨hX, hY, hXY, mi, -, -, h1, h2, h3, h4, h5, -⟩ := estimate_spec mass hp ε E bx.usable by'.usable bxy.usable (fun i => (b i).1)
      (fun i => (b i).2) hn hdx hdy _ _ rfl rfl
    refine ⟨mi, h1, ?_⟩
    simp only [hE, Bool.false_eq_true, if_false] at h3 h4 h5
    rw [h2, h3, h4, h5]
    rw [show P.map Prod.fst = P.fst from rfl] at a1
    rw [show P.map Prod.snd = P.snd from rfl] at a2
    rw [abs_lt] at a1 a2 a3 ⊢
    constructor <;> linarith [a1.1, a1.2, a2.1, a2.2, a3.1, a3.2]
  · obtain rfl := hε hE
    have f1 : ∀ c, Measurable fun p : (Fin dx → ℝ) × (Fin dy → ℝ) => p.1 c := fun c => (measurable_pi_apply c).comp measurable_fst
    have f2 : ∀ c, Measurable fun p : (Fin dx → ℝ) × (Fin dy → ℝ) => p.2 c := fun c => (measurable_pi_apply c).comp measurable_snd
    have hx := hx hE
    have hy := hy hE
    have vx := fun c => spread_var_fst hP c (hx c)
    have vy := fun c => spread_var_snd hP c (hy c)
    set σ : Fin dx → ℝ := fun c => √Var[fun q : (Fin dx → ℝ) × (Fin dy → ℝ) => q.1 c; P] with hσ
    set τ : Fin dy → ℝ := fun c => √Var[fun q : (Fin dx → ℝ) × (Fin dy → ℝ) => q.2 c; P] with hτ
    have hσ0 : ∀ c, 0 < σ c := fun c => Real.sqrt_pos.2 (vx c)
    have hτ0 : ∀ c, 0 < τ c := fun c => Real.sqrt_pos.2 (vy c)
    have mU : Measurable (Prod.map (units σ) (units τ)) := (measurable_units σ).prodMap (measurable_units τ)
    have hU := units_spread hP hσ0 hτ0
    rw [← units_mi (P := P) hσ0 hτ0]
    set P' := P.map (Prod.map (units σ) (units τ)) with hP'
    haveI : IsProbabilityMeasure P' := Measure.isProbabilityMeasure_map mU.aemeasurable
    have l1 : P'.fst = P.map fun p c => p.1 c / √Var[fun q => q.1 c; P] := by
      rw [hP']
      unfold Measure.fst
      rw [Measure.map_map measurable_fst mU]
      rfl
    have l2 : P'.snd = P.map fun p c => p.2 c / √Var[fun q => q.2 c; P] := by
      rw [hP']
      unfold Measure.snd
      rw [Measure.map_map measurable_snd mU]
      rfl
    have l3 : P'.map (fun p => (Fin.append p.1 p.2 : Fin (dx + dy) → ℝ))
        = P.map fun p c => (Fin.append p.1 p.2 : Fin (dx + dy) → ℝ) c / √Var[fun q => (Fin.append q.1 q.2 : Fin (dx + dy) → ℝ) c; P] := by
      rw [hP', Measure.map_map ma mU]
      congr 1
      funext p c
      refine Fin.addCases (fun i => ?_) (fun i => ?_) c <;> simp [units, hσ, hτ]
    obtain ⟨fx, Dx⟩ := fst_dense hU
    obtain ⟨fy, Dy⟩ := snd_dense hU
    obtain ⟨fxy, Dxy⟩ := append_dense hU
    obtain ⟨em, en⟩ := spread_mi Dx Dy Dxy
    rw [em, ENNReal.toReal_ofReal en]
    rw [l1] at Dx ⊢
    rw [l2] at Dy ⊢
    rw [l3] at Dxy ⊢
    have g3 : ∀ c, Measurable fun p : (Fin dx → ℝ) × (Fin dy → ℝ) => (Fin.append p.1 p.2 : Fin (dx + dy) → ℝ) c := fun c =>
      (measurable_pi_apply c).comp ma
    have h3 : ∀ c, MemLp (fun p : (Fin dx → ℝ) × (Fin dy → ℝ) => (Fin.append p.1 p.2 : Fin (dx + dy) → ℝ) c) 2 P := fun c => by
      refine Fin.addCases (fun i => ?_) (fun i => ?_) c
      · simpa using hx i
      · simpa using hy i
    have v3 : ∀ c, 0 < Var[fun p : (Fin dx → ℝ) × (Fin dy → ℝ) => (Fin.append p.1 p.2 : Fin (dx + dy) → ℝ) c; P] := fun c => by
      refine Fin.addCases (fun i => ?_) (fun i => ?_) c
      · simpa using vx i
      · simpa using vy i
    refine converges_of_small hs fun δ hδ => ?_
    have r1 := entropy_rule_standardised E.kdeX.kernel bx f1 hx vx Dx (show 0 < δ / 3 by positivity)
    have r2 := entropy_rule_standardised E.kdeY.kernel by' f2 hy vy Dy (show 0 < δ / 3 by positivity)
    have r3 := entropy_rule_standardised E.kdeXY.kernel bxy g3 h3 v3 Dxy (show 0 < δ / 3 by positivity)
    refine ⟨_, (r1.union r2).union r3, ?_⟩
    filter_upwards [eventually_gt_atTop 0] with n hn b hb
    simp only [Set.mem_union, Set.mem_setOf_eq, not_or, not_not] at hb
    obtain ⟨⟨a1, a2⟩, a3⟩ := hb
    obtain ⟨hX, hY, hXY, mi, -, -, h1, h2, h3, h4, h5, -⟩ := estimate_spec mass hp 0 E bx.usable by'.usable bxy.usable (fun i => (b i).1)
      (fun i => (b i).2) hn hdx hdy _ _ rfl rfl
    refine ⟨mi, h1, ?_⟩
    simp only [hE, if_true] at h3 h4 h5
    have e5 : (fun i => (Fin.append (fun c => PSpace.scaleCol 0 (fun i' => (b i').1 c) i) (fun c => PSpace.scaleCol 0 (fun i' => (b i').2 c) i) : Fin (dx + dy) → ℝ))
        = fun i c => PSpace.scaleCol 0 (fun i' => (Fin.append (b i').1 (b i').2 : Fin (dx + dy) → ℝ) c) i := by
      funext i c
      refine Fin.addCases (fun i => ?_) (fun i => ?_) c <;> simp
    rw [e5] at h5
    rw [h2, h3, h4, h5]
    rw [abs_lt] at a1 a2 a3 ⊢
    constructor <;> linarith [a1.1, a1.2, a2.1, a2.2, a3.1, a3.2]

/-- **C106** In particular for bounded variables whose pair has a bounded density. -/
theorem kde_bounded {κ : Measure Key} {s : Sampler Key} {P : Measure ((Fin dx → ℝ) × (Fin dy → ℝ))} [IsProbabilityMeasure P]
    (hs : Draws κ s P) (hdx : 0 < dx) (hdy : 0 < dy) (hP : Boxed P) {Z : Kernel → ℕ → ℝ} (hZ : ∀ k d, Z k d = mass k d) {ε : ℝ}
    (E : Estimator) (hε : E.standardize = true → ε = 0)
    (bx : ByRule E.kdeX.bandwidth) (by' : ByRule E.kdeY.bandwidth) (bxy : ByRule E.kdeXY.bandwidth) :
    mutualInfo P ≠ ⊤ ∧ ConvergesTo κ s (Gives (dx := dx) (dy := dy) Z ε E) (mutualInfo P).toReal := by
  obtain ⟨B, hB⟩ := hP.bounded
  refine ⟨(spread_of_bounded hP).finite, kde_consistent hs hdx hdy (spread_of_bounded hP) hZ E hε (fun _ c => ?_) (fun _ c => ?_) bx by' bxy⟩
  · exact MemLp.of_bound ((measurable_pi_apply c).comp measurable_fst).aestronglyMeasurable B (hB.mono fun p hp => hp.1 c)
  · exact MemLp.of_bound ((measurable_pi_apply c).comp measurable_snd).aestronglyMeasurable B (hB.mono fun p hp => hp.2 c)

theorem single_volume : MeasurePreserving single volume volume := by
  have := (volume_preserving_funUnique (Fin 1) ℝ).symm _
  exact this

/-- A uniform variable with uniform noise is bounded and has a bounded density. -/
theorem uniformNoise_density {e : ℝ} (he : 0 < e) : ∃ M : NNReal, ∀ A : Set ((Fin 1 → ℝ) × (Fin 1 → ℝ)), MeasurableSet A →
    liftPair (uniformNoiseLaw e) A ≤ M * (volume.prod volume) A := by
  have pu : IsProbabilityMeasure (uniformLaw 0 1) := isProbabilityMeasure_uniformLaw (by norm_num)
  have pn : IsProbabilityMeasure (uniformLaw (-e) e) := isProbabilityMeasure_uniformLaw (by linarith)
  have mS : MeasurePreserving (Prod.map single single) (volume.prod volume) (volume.prod volume) := single_volume.prod single_volume
  refine ⟨Real.toNNReal (1 / (1 - 0)) * Real.toNNReal (1 / (e - -e)), fun A hA => ?_⟩
  have hA' := mS.measurable hA
  unfold liftPair
  rw [Measure.map_apply mS.measurable hA, ← mS.measure_preimage hA.nullMeasurableSet]
  have hd : uniformNoiseLaw e = (volume.prod volume).withDensity fun z : ℝ × ℝ => (Set.Icc 0 1).indicator (fun _ => ENNReal.ofReal (1 / (1 - 0))) z.1
      * (Set.Icc (-e) e).indicator (fun _ => ENNReal.ofReal (1 / (e - -e))) (z.2 - z.1) := by
    unfold uniformNoiseLaw
    rw [uniformLaw_density] at pu pn ⊢
    rw [uniformLaw_density]
    exact additiveLaw_density volume _ _ (measurable_const.indicator measurableSet_Icc) (measurable_const.indicator measurableSet_Icc)
  rw [hd, withDensity_apply _ hA', ENNReal.coe_mul, ← setLIntegral_const]
  refine lintegral_mono fun z => mul_le_mul' ?_ ?_
  · exact Set.indicator_apply_le' (fun _ => le_rfl) fun _ => bot_le
  · exact Set.indicator_apply_le' (fun _ => le_rfl) fun _ => bot_le

/-- **C106** For the sampler of a uniform variable with additive uniform noise, the estimator with its default arguments converges to
the number the sampler reports. -/
theorem kde_additiveUniform (R : JaxRandom Key) (κ : Measure Key) (hR : IdealRandom R κ) {e : ℝ} (he : 0 < e) {Z : Kernel → ℕ → ℝ}
    (hZ : ∀ k d, Z k d = mass k d) :
    ∃ E s, create "tophat" none none (.text "scott") none none true = .ok E ∧ additiveUniform R e = .ok s ∧ 0 < s.mi ∧
      ConvergesTo κ s (Gives (dx := 1) (dy := 1) Z 0 E) s.mi := by
  obtain ⟨s, hs, hd, hp, hmi, hpos, hX, hY⟩ := additiveUniform_fills R κ hR he
  have hS : Boxed (liftPair (uniformNoiseLaw e)) := by
    refine ⟨⟨1 + e, ?_⟩, uniformNoise_density he⟩
    have h1 := fun j => ae_of_ae_map ((measurable_pi_apply j).comp measurable_fst).aemeasurable (hX 1 j).inside
    have h2 := fun j => ae_of_ae_map ((measurable_pi_apply j).comp measurable_snd).aemeasurable (hY 1 j).inside
    filter_upwards [h1 0, h2 0] with p p1 p2
    simp only [Function.comp_apply] at p1 p2
    refine ⟨fun c => ?_, fun c => ?_⟩ <;> rw [Subsingleton.elim c 0, abs_le]
    · exact ⟨by linarith [p1.1], by linarith [p1.2]⟩
    · exact ⟨by linarith [p2.1], by linarith [p2.2]⟩
  refine ⟨_, s, rfl, hs, hpos, ?_⟩
  have := (kde_bounded hd one_pos one_pos hS hZ (ε := 0) ⟨⟨.scott, .tophat, none⟩, ⟨.scott, .tophat, none⟩, ⟨.scott, .tophat, none⟩,
      ⟨.tophat, .tophat, .tophat, .scott, .scott, .scott, true⟩, true⟩ (fun _ => rfl) (.inl rfl) (.inl rfl) (.inl rfl)).2
  rw [hmi, ENNReal.toReal_ofReal hpos.le] at this
  exact this

/-- Noise 0.75; the normalisations are the integrals of the kernels. -/
example : ∃ E s, create "tophat" none none (.text "scott") none none true = .ok E ∧ additiveUniform tree 0.75 = .ok s ∧ 0 < s.mi ∧
    ConvergesTo treeLaw s (Gives (dx := 1) (dy := 1) mass 0 E) s.mi :=
  kde_additiveUniform tree treeLaw tree_ideal (by norm_num) fun _ _ => rfl

end BMI.Kde
