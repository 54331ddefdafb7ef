import Verif.Lemmas.CcaScalar

/-! Maximal correlations of vectors of independent pairs. -/

namespace BMI.Cca

open MeasureTheory ProbabilityTheory Filter Topology BMI.Gebelein BMI.Consistency BMI.Samplers BMI.Student BMI.Bmm Matrix

variable {Ω Ω' A A' B B' : Type} [MeasurableSpace Ω] [MeasurableSpace Ω'] [MeasurableSpace A] [MeasurableSpace A'] [MeasurableSpace B]
  [MeasurableSpace B'] {μ : Measure Ω} {ν : Measure Ω'} {r : ℝ}

/-- The covariance. -/
noncomputable def cv (μ : Measure Ω) (u v : Ω → ℝ) : ℝ := (∫ ω, u ω * v ω ∂μ) - (∫ ω, u ω ∂μ) * ∫ ω, v ω ∂μ

/-- A bounded measurable function. -/
def Tame (u : Ω → ℝ) : Prop := Measurable u ∧ ∃ M, ∀ ω, |u ω| ≤ M

theorem Tame.memLp [IsProbabilityMeasure μ] {u : Ω → ℝ} (h : Tame u) : MemLp u 2 μ := by
  obtain ⟨M, hM⟩ := h.2
  exact .of_bound h.1.aestronglyMeasurable M (.of_forall hM)

theorem Tame.integrable [IsProbabilityMeasure μ] {u : Ω → ℝ} (h : Tame u) : Integrable u μ := by
  obtain ⟨M, hM⟩ := h.2
  exact .of_bound h.1.aestronglyMeasurable M (.of_forall hM)

theorem Tame.mul {u v : Ω → ℝ} (hu : Tame u) (hv : Tame v) : Tame fun ω => u ω * v ω := by
  obtain ⟨M, hM⟩ := hu.2
  obtain ⟨M', hM'⟩ := hv.2
  refine ⟨hu.1.mul hv.1, M * M', fun ω => ?_⟩
  rw [abs_mul]
  exact mul_le_mul (hM ω) (hM' ω) (abs_nonneg _) ((abs_nonneg _).trans (hM ω))

theorem Tame.section {u : Ω × Ω' → ℝ} (h : Tame u) (ω : Ω) : Tame fun ω' => u (ω, ω') := by
  obtain ⟨M, hM⟩ := h.2
  exact ⟨h.1.comp (by fun_prop), M, fun ω' => hM _⟩

theorem Tame.mean [IsProbabilityMeasure ν] {u : Ω × Ω' → ℝ} (h : Tame u) : Tame fun ω => ∫ ω', u (ω, ω') ∂ν := by
  obtain ⟨M, hM⟩ := h.2
  refine ⟨(h.1.stronglyMeasurable.integral_prod_right').measurable, M, fun ω => ?_⟩
  have := norm_integral_le_of_norm_le_const (μ := ν) (f := fun ω' => u (ω, ω')) (.of_forall fun z => hM _)
  simpa using this

theorem cv_eq [IsProbabilityMeasure μ] {u v : Ω → ℝ} (hu : MemLp u 2 μ) (hv : MemLp v 2 μ) : cov[u, v; μ] = cv μ u v := covariance_eq_sub hu hv

theorem cv_self [IsProbabilityMeasure μ] {u : Ω → ℝ} (hu : MemLp u 2 μ) : cv μ u u = Var[u; μ] := by
  rw [← cv_eq hu hu, covariance_self hu.aemeasurable]

theorem cv_self_nonneg [IsProbabilityMeasure μ] {u : Ω → ℝ} (hu : Tame u) : 0 ≤ cv μ u u := by
  rw [cv_self hu.memLp]
  exact variance_nonneg _ _

/-- The law of total covariance. -/
theorem cv_prod [IsProbabilityMeasure μ] [IsProbabilityMeasure ν] {u v : Ω × Ω' → ℝ} (hu : Tame u) (hv : Tame v) :
    cv (μ.prod ν) u v = (∫ ω, cv ν (fun ω' => u (ω, ω')) (fun ω' => v (ω, ω')) ∂μ) +
      cv μ (fun ω => ∫ ω', u (ω, ω') ∂ν) fun ω => ∫ ω', v (ω, ω') ∂ν := by
  unfold cv
  rw [integral_prod _ (hu.mul hv).integrable, integral_prod _ hu.integrable, integral_prod _ hv.integrable,
    integral_sub (hu.mul hv).mean.integrable (hu.mean.mul hv.mean).integrable]
  ring

theorem Tame.cv_section [IsProbabilityMeasure ν] {u v : Ω × Ω' → ℝ} (hu : Tame u) (hv : Tame v) :
    Tame fun ω => cv ν (fun ω' => u (ω, ω')) fun ω' => v (ω, ω') := by
  obtain ⟨M, hM⟩ := ((hu.mul hv).mean (ν := ν)).2
  obtain ⟨M', hM'⟩ := ((hu.mean (ν := ν)).mul (hv.mean (ν := ν))).2
  refine ⟨((hu.mul hv).mean (ν := ν)).1.sub ((hu.mean (ν := ν)).mul (hv.mean (ν := ν))).1, M + M', fun ω => ?_⟩
  exact (abs_sub _ _).trans (add_le_add (hM ω) (hM' ω))

/-- No bounded function of X has a correlation larger than `r` with a bounded function of Y. -/
def Maxcor (μ : Measure Ω) (X : Ω → A) (Y : Ω → B) (r : ℝ) : Prop := ∀ (f : A → ℝ) (g : B → ℝ), Tame f → Tame g →
  |cv μ (fun ω => f (X ω)) fun ω => g (Y ω)| ≤
    r * (√(cv μ (fun ω => f (X ω)) fun ω => f (X ω)) * √(cv μ (fun ω => g (Y ω)) fun ω => g (Y ω)))

theorem Tame.comp {u : A → ℝ} (h : Tame u) {X : Ω → A} (hX : Measurable X) : Tame fun ω => u (X ω) := by
  obtain ⟨M, hM⟩ := h.2
  exact ⟨h.1.comp hX, M, fun _ => hM _⟩

theorem sqrt_add_le {a b c d : ℝ} (ha : 0 ≤ a) (hb : 0 ≤ b) (hc : 0 ≤ c) (hd : 0 ≤ d) : √a * √b + √c * √d ≤ √(a + c) * √(b + d) := by
  rw [← Real.sqrt_mul (by positivity) (b + d)]
  refine Real.le_sqrt_of_sq_le ?_
  have h1 := Real.sq_sqrt ha
  have h2 := Real.sq_sqrt hb
  have h3 := Real.sq_sqrt hc
  have h4 := Real.sq_sqrt hd
  nlinarith [sq_nonneg (√a * √d - √b * √c)]

theorem Maxcor.prod [IsProbabilityMeasure μ] [IsProbabilityMeasure ν] (hr : 0 ≤ r) {X : Ω → A} {Y : Ω → B} {X' : Ω' → A'} {Y' : Ω' → B'} (hX : Measurable X)
    (hY : Measurable Y) (hX' : Measurable X') (hY' : Measurable Y') (h : Maxcor μ X Y r) (h' : Maxcor ν X' Y' r) :
    Maxcor (μ.prod ν) (fun w => (X w.1, X' w.2)) (fun w => (Y w.1, Y' w.2)) r := by
  intro f g hf hg
  have tu : Tame fun w : Ω × Ω' => f (X w.1, X' w.2) := hf.comp (by fun_prop)
  have tv : Tame fun w : Ω × Ω' => g (Y w.1, Y' w.2) := hg.comp (by fun_prop)
  rw [cv_prod tu tv, cv_prod tu tu, cv_prod tv tv]
  simp only
  have e1 : Tame fun x : A => ∫ ω', f (x, X' ω') ∂ν := (hf.comp (X := fun w : A × Ω' => (w.1, X' w.2)) (by fun_prop)).mean
  have e2 : Tame fun y : B => ∫ ω', g (y, Y' ω') ∂ν := (hg.comp (X := fun w : B × Ω' => (w.1, Y' w.2)) (by fun_prop)).mean
  have b1 := h _ _ e1 e2
  have b2 : ∀ ω, |cv ν (fun ω' => f (X ω, X' ω')) fun ω' => g (Y ω, Y' ω')| ≤
      r * (√(cv ν (fun ω' => f (X ω, X' ω')) fun ω' => f (X ω, X' ω')) * √(cv ν (fun ω' => g (Y ω, Y' ω')) fun ω' => g (Y ω, Y' ω'))) := fun ω =>
    h' (fun x' => f (X ω, x')) (fun y' => g (Y ω, y')) (hf.section _) (hg.section _)
  have tU := Tame.cv_section (ν := ν) tu tu
  have tV := Tame.cv_section (ν := ν) tv tv
  simp only at tU tV
  set U := fun ω => cv ν (fun ω' => f (X ω, X' ω')) fun ω' => f (X ω, X' ω') with hU
  set V := fun ω => cv ν (fun ω' => g (Y ω, Y' ω')) fun ω' => g (Y ω, Y' ω') with hV
  have U0 : ∀ ω, 0 ≤ U ω := fun ω => cv_self_nonneg (tu.section ω)
  have V0 : ∀ ω, 0 ≤ V ω := fun ω => cv_self_nonneg (tv.section ω)
  have root : ∀ {W : Ω → ℝ}, Tame W → Tame fun ω => √(W ω) := fun {W} hW => by
    obtain ⟨M, hM⟩ := hW.2
    refine ⟨hW.1.sqrt, √M, fun ω => ?_⟩
    rw [abs_of_nonneg (Real.sqrt_nonneg _)]
    exact Real.sqrt_le_sqrt ((le_abs_self _).trans (hM ω))
  have c1 := cauchy (μ := μ) (root tU).memLp (root tV).memLp
  have c2 : (∫ ω, √(U ω) ^ 2 ∂μ) = ∫ ω, U ω ∂μ := integral_congr_ae (.of_forall fun ω => Real.sq_sqrt (U0 ω))
  have c3 : (∫ ω, √(V ω) ^ 2 ∂μ) = ∫ ω, V ω ∂μ := integral_congr_ae (.of_forall fun ω => Real.sq_sqrt (V0 ω))
  rw [c2, c3] at c1
  have iU : 0 ≤ ∫ ω, U ω ∂μ := integral_nonneg U0
  have iV : 0 ≤ ∫ ω, V ω ∂μ := integral_nonneg V0
  have c4 : ∫ ω, √(U ω) * √(V ω) ∂μ ≤ √(∫ ω, U ω ∂μ) * √(∫ ω, V ω ∂μ) := by
    rw [← Real.sqrt_mul iU]
    exact Real.le_sqrt_of_sq_le c1
  have c5 : |∫ ω, cv ν (fun ω' => f (X ω, X' ω')) (fun ω' => g (Y ω, Y' ω')) ∂μ| ≤ r * ∫ ω, √(U ω) * √(V ω) ∂μ := by
    rw [← integral_const_mul]
    exact norm_integral_le_of_norm_le (f := fun ω => cv ν (fun ω' => f (X ω, X' ω')) fun ω' => g (Y ω, Y' ω'))
      (((root tU).mul (root tV)).integrable.const_mul r) (.of_forall b2)
  have m1 : 0 ≤ cv μ (fun ω => ∫ ω', f (X ω, X' ω') ∂ν) fun ω => ∫ ω', f (X ω, X' ω') ∂ν := cv_self_nonneg (e1.comp hX)
  have m2 : 0 ≤ cv μ (fun ω => ∫ ω', g (Y ω, Y' ω') ∂ν) fun ω => ∫ ω', g (Y ω, Y' ω') ∂ν := cv_self_nonneg (e2.comp hY)
  refine (abs_add_le _ _).trans ((add_le_add (c5.trans (mul_le_mul_of_nonneg_left c4 hr)) b1).trans ?_)
  rw [← mul_add]
  exact mul_le_mul_of_nonneg_left (sqrt_add_le iU iV m1 m2) hr

theorem cv_map {Z : Ω → Ω'} (hZ : Measurable Z) {u v : Ω' → ℝ} (hu : Measurable u) (hv : Measurable v) :
    cv (μ.map Z) u v = cv μ (fun ω => u (Z ω)) fun ω => v (Z ω) := by
  have m : Measurable fun ω => u ω * v ω := hu.mul hv
  unfold cv
  rw [integral_map hZ.aemeasurable m.aestronglyMeasurable, integral_map hZ.aemeasurable hu.aestronglyMeasurable,
    integral_map hZ.aemeasurable hv.aestronglyMeasurable]

theorem Maxcor.comp {X : Ω → A} {Y : Ω → B} (h : Maxcor μ X Y r) {F : A → A'} {G : B → B'} (hF : Measurable F) (hG : Measurable G) :
    Maxcor μ (fun ω => F (X ω)) (fun ω => G (Y ω)) r := fun _ _ hf hg => h _ _ (hf.comp hF) (hg.comp hG)

theorem maxcor_map {Z : Ω → Ω'} (hZ : Measurable Z) {X : Ω' → A} {Y : Ω' → B} (hX : Measurable X) (hY : Measurable Y) :
    Maxcor (μ.map Z) X Y r ↔ Maxcor μ (fun ω => X (Z ω)) (fun ω => Y (Z ω)) r := by
  unfold Maxcor
  refine forall_congr' fun f => forall_congr' fun g => forall_congr' fun hf => forall_congr' fun hg => ?_
  rw [cv_map hZ (hf.comp hX).1 (hg.comp hY).1, cv_map hZ (hf.comp hX).1 (hf.comp hX).1, cv_map hZ (hg.comp hY).1 (hg.comp hY).1]

/-- Independent pairs. -/
theorem maxcor_pi (hr : 0 ≤ r) : ∀ {d : ℕ} {μ : Fin d → Measure Ω} [∀ i, IsProbabilityMeasure (μ i)] {X : Fin d → Ω → A} {Y : Fin d → Ω → B},
    (∀ i, Measurable (X i)) → (∀ i, Measurable (Y i)) → (∀ i, Maxcor (μ i) (X i) (Y i) r) →
    Maxcor (Measure.pi μ) (fun ω i => X i (ω i)) (fun ω i => Y i (ω i)) r := by
  intro d
  induction d with
  | zero =>
    intro μ _ X Y _ _ _ f g _ _
    have hz : ∀ u v : (Fin 0 → Ω) → ℝ, cv (Measure.pi μ) u v = 0 := fun u v => by
      have hc : ∀ w : (Fin 0 → Ω) → ℝ, w = fun _ => w default := fun w => funext fun ω => congrArg w (Subsingleton.elim _ _)
      unfold cv
      rw [hc u, hc v]
      simp
    rw [hz, hz, hz]
    simp
  | succ d ih =>
    intro μ _ X Y hX hY h
    have h1 := ih (μ := fun j => μ j.succ) (fun j => hX j.succ) (fun j => hY j.succ) fun j => h j.succ
    have mX : Measurable fun (ω : Fin d → Ω) i => X i.succ (ω i) := measurable_pi_lambda _ fun i => (hX _).comp (measurable_pi_apply i)
    have mY : Measurable fun (ω : Fin d → Ω) i => Y i.succ (ω i) := measurable_pi_lambda _ fun i => (hY _).comp (measurable_pi_apply i)
    have h2 := Maxcor.prod hr (hX 0) (hY 0) mX mY (h 0) h1
    have mc : ∀ {C : Type} [MeasurableSpace C], Measurable fun p : C × (Fin d → C) => (Fin.cons p.1 p.2 : Fin (d + 1) → C) := fun {C} _ => by
      refine measurable_pi_lambda _ fun i => ?_
      refine Fin.cases ?_ (fun j => ?_) i
      · simpa using measurable_fst
      · have : Measurable fun c : C × (Fin d → C) => c.2 j := (measurable_pi_apply j).comp measurable_snd
        simpa using this
    have h3 := h2.comp mc mc
    have hp := measurePreserving_piFinSuccAbove μ 0
    have mm : Measurable (MeasurableEquiv.piFinSuccAbove (fun _ : Fin (d + 1) => Ω) 0) := MeasurableEquiv.measurable _
    simp only [Fin.succAbove_zero] at hp
    rw [← hp.map_eq, maxcor_map mm ?_ ?_] at h3
    · convert h3 using 1
      · funext ω i
        refine Fin.cases ?_ (fun j => ?_) i <;> rfl
      · funext ω i
        refine Fin.cases ?_ (fun j => ?_) i <;> rfl
    · exact mc.comp (((hX 0).comp measurable_fst).prodMk (mX.comp measurable_snd))
    · exact mc.comp (((hY 0).comp measurable_fst).prodMk (mY.comp measurable_snd))

/-! ## Square integrable functions -/

/-- Truncation. -/
noncomputable def clip (n : ℕ) (x : ℝ) : ℝ := max (-n) (min n x)

theorem measurable_clip (n : ℕ) : Measurable (clip n) := by unfold clip; fun_prop

theorem abs_clip_le (n : ℕ) (x : ℝ) : |clip n x| ≤ n := by
  have : (0 : ℝ) ≤ n := Nat.cast_nonneg n
  rw [abs_le, clip]
  exact ⟨le_max_left _ _, max_le (by linarith) (min_le_left _ _)⟩

theorem abs_clip_le_abs (n : ℕ) (x : ℝ) : |clip n x| ≤ |x| := by
  have : (0 : ℝ) ≤ n := Nat.cast_nonneg n
  rw [abs_le, clip]
  constructor
  · refine le_max_of_le_right (le_min (by linarith [abs_nonneg x]) (neg_abs_le x))
  · exact max_le (by linarith [abs_nonneg x]) ((min_le_right _ _).trans (le_abs_self x))

theorem tendsto_clip (x : ℝ) : Tendsto (fun n => clip n x) atTop (𝓝 x) := by
  obtain ⟨n, hn⟩ := exists_nat_ge |x|
  refine tendsto_const_nhds.congr' ?_
  filter_upwards [eventually_ge_atTop n] with k hk
  have h1 : |x| ≤ k := hn.trans (by exact_mod_cast hk)
  obtain ⟨h2, h3⟩ := abs_le.1 h1
  rw [clip, min_eq_right h3, max_eq_right h2]

theorem tendsto_cv [IsProbabilityMeasure μ] {u v : Ω → ℝ} (mu : Measurable u) (mv : Measurable v) (hu : MemLp u 2 μ) (hv : MemLp v 2 μ) :
    Tendsto (fun n => cv μ (fun ω => clip n (u ω)) fun ω => clip n (v ω)) atTop (𝓝 (cv μ u v)) := by
  have mean : ∀ {w : Ω → ℝ}, Measurable w → MemLp w 2 μ → Tendsto (fun n => ∫ ω, clip n (w ω) ∂μ) atTop (𝓝 (∫ ω, w ω ∂μ)) := fun {w} mw hw =>
    tendsto_integral_of_dominated_convergence (fun ω => |w ω|) (fun n => ((measurable_clip n).comp mw).aestronglyMeasurable)
      (hw.integrable (by norm_num)).abs (fun n => .of_forall fun ω => abs_clip_le_abs n _) (.of_forall fun ω => tendsto_clip _)
  unfold cv
  refine Tendsto.sub ?_ ((mean mu hu).mul (mean mv hv))
  refine tendsto_integral_of_dominated_convergence (fun ω => |u ω * v ω|)
    (fun n => (((measurable_clip n).comp mu).mul ((measurable_clip n).comp mv)).aestronglyMeasurable)
    (hu.integrable_mul hv).abs (fun n => .of_forall fun ω => ?_) (.of_forall fun ω => (tendsto_clip _).mul (tendsto_clip _))
  rw [Real.norm_eq_abs, abs_mul, abs_mul]
  exact mul_le_mul (abs_clip_le_abs n _) (abs_clip_le_abs n _) (abs_nonneg _) (abs_nonneg _)

theorem Maxcor.cov_le [IsProbabilityMeasure μ] {X : Ω → A} {Y : Ω → B} (hX : Measurable X) (hY : Measurable Y) (h : Maxcor μ X Y r) {f : A → ℝ} {g : B → ℝ}
    (hf : Measurable f) (hg : Measurable g) (hf2 : MemLp (fun ω => f (X ω)) 2 μ) (hg2 : MemLp (fun ω => g (Y ω)) 2 μ) :
    |cov[fun ω => f (X ω), fun ω => g (Y ω); μ]| ≤ r * (√Var[fun ω => f (X ω); μ] * √Var[fun ω => g (Y ω); μ]) := by
  rw [cv_eq hf2 hg2, ← cv_self hf2, ← cv_self hg2]
  have mf := hf.comp hX
  have mg := hg.comp hY
  refine le_of_tendsto_of_tendsto (tendsto_cv mf mg hf2 hg2).abs
    (((tendsto_cv mf mf hf2 hf2).sqrt.mul (tendsto_cv mg mg hg2 hg2).sqrt).const_mul r) (.of_forall fun n => ?_)
  exact h (fun x => clip n (f x)) (fun y => clip n (g y)) ⟨(measurable_clip n).comp hf, n, fun _ => abs_clip_le n _⟩
    ⟨(measurable_clip n).comp hg, n, fun _ => abs_clip_le n _⟩

/-! ## Pairs of normal variables -/

/-- A normal variable with correlation `a` to the first. -/
noncomputable def mate (a : ℝ) (p : ℝ × ℝ) : ℝ := a * p.1 + √(1 - a ^ 2) * p.2

theorem measurable_mate (a : ℝ) : Measurable (mate a) := by unfold mate; fun_prop

theorem maxcor_pair {a : ℝ} (ha : a ^ 2 ≤ 1) (har : |a| ≤ r) : Maxcor (γ.prod γ) Prod.fst (mate a) r := by
  intro f g hf hg
  have hab : a ^ 2 + √(1 - a ^ 2) ^ 2 = 1 := by rw [Real.sq_sqrt (by linarith)]; ring
  have h := gebelein hab hg.1 (hg.memLp (μ := γ)) hf.1 (hf.memLp (μ := γ))
  have hF := (hf.comp measurable_fst).memLp (μ := γ.prod γ)
  have hG := (hg.comp (measurable_mate a)).memLp (μ := γ.prod γ)
  rw [← cv_eq hF hG, cv_self hF, cv_self hG]
  have v1 := var_first hf.1
  have v2 := var_second hab hg.1
  unfold mate
  rw [v1, v2]
  exact h.trans (mul_le_mul_of_nonneg_right har (by positivity))

theorem maxcor_const {X : Ω → A} {c : A} (hX : ∀ ω, X ω = c) {Y : Ω → B} [IsProbabilityMeasure μ] (hr : 0 ≤ r) : Maxcor μ X Y r := by
  intro f g hf hg
  have : cv μ (fun ω => f (X ω)) (fun ω => g (Y ω)) = 0 := by
    unfold cv
    simp only [hX, integral_const_mul, integral_const, probReal_univ, one_smul, sub_self]
  rw [this, abs_zero]
  positivity

end BMI.Cca
