import Verif.Spec.Consistency
import Mathlib.Probability.StrongLaw
import Mathlib.Probability.ProductMeasure
import Mathlib.Probability.Independence.InfinitePi
import Mathlib.MeasureTheory.Integral.Indicator

/-! From almost sure convergence along one infinite sequence of points to convergence in probability. -/

namespace BMI.Consistency

open MeasureTheory ProbabilityTheory Filter BMI.Samplers Topology

variable {E : Type} [MeasurableSpace E] {P : Measure E} [IsProbabilityMeasure P]

/-- The first `n` points of a sequence. -/
def firstPoints (n : ℕ) (ω : ℕ → E) : Fin n → E := fun i => ω i

theorem map_firstPoints (n : ℕ) : (Measure.infinitePi fun _ : ℕ => P).map (firstPoints n) = Measure.pi fun _ => P := by
  have h1 := iIndepFun_infinitePi (P := fun _ : ℕ => P) (X := fun _ x => x) fun _ => measurable_id
  have h2 := h1.precomp (g := fun i : Fin n => (i : ℕ)) Fin.val_injective
  have h3 := (iIndepFun_iff_map_fun_eq_pi_map (fun i => (measurable_pi_apply _).aemeasurable)).1 h2
  have h4 : ∀ i : Fin n, (Measure.infinitePi fun _ : ℕ => P).map (fun ω => ω (i : ℕ)) = P := fun i =>
    Measure.infinitePi_map_eval (fun _ : ℕ => P) (i : ℕ)
  simp only [h4] at h3
  exact h3

/-- The strong law of large numbers for a function of the points. -/
theorem averages (f : E → ℝ) (hf : Measurable f) (hi : Integrable f P) :
    ∀ᵐ ω ∂(Measure.infinitePi fun _ : ℕ => P), Tendsto (fun n : ℕ => (∑ i : Fin n, f (firstPoints n ω i)) / n) atTop (𝓝 (∫ x, f x ∂P)) := by
  have hmap : ∀ i : ℕ, (Measure.infinitePi fun _ : ℕ => P).map (fun ω => ω i) = P := Measure.infinitePi_map_eval (fun _ : ℕ => P)
  have h1 := iIndepFun_infinitePi (P := fun _ : ℕ => P) (X := fun _ x => f x) fun _ => hf
  have hint : Integrable (fun ω : ℕ → E => f (ω 0)) (Measure.infinitePi fun _ : ℕ => P) := by
    have : Integrable f ((Measure.infinitePi fun _ : ℕ => P).map fun ω => ω 0) := by rw [hmap]; exact hi
    exact this.comp_measurable (measurable_pi_apply 0)
  have hid0 : ∀ i : ℕ, IdentDistrib (fun ω : ℕ → E => ω i) (fun ω : ℕ → E => ω 0) (Measure.infinitePi fun _ : ℕ => P)
      (Measure.infinitePi fun _ : ℕ => P) := fun i =>
    ⟨(measurable_pi_apply i).aemeasurable, (measurable_pi_apply 0).aemeasurable, by rw [hmap, hmap]⟩
  have hid : ∀ i, IdentDistrib (fun ω : ℕ → E => f (ω i)) (fun ω => f (ω 0)) (Measure.infinitePi fun _ : ℕ => P)
      (Measure.infinitePi fun _ : ℕ => P) := fun i => (hid0 i).comp hf
  have h2 := strong_law_ae_real (fun i (ω : ℕ → E) => f (ω i)) hint (fun i j hij => h1.indepFun hij) hid
  have h3 : ∫ ω : ℕ → E, f (ω 0) ∂(Measure.infinitePi fun _ : ℕ => P) = ∫ x, f x ∂P := by
    have := integral_map (μ := Measure.infinitePi fun _ : ℕ => P) (φ := fun ω => ω 0) (f := f) (measurable_pi_apply 0).aemeasurable
      hf.aestronglyMeasurable
    rw [hmap] at this
    exact this.symm
  filter_upwards [h2] with ω hω
  rw [h3] at hω
  refine hω.congr fun n => ?_
  rw [Finset.sum_range]
  rfl

/-- If almost surely only finitely many of the samples are bad, the probability of a bad sample tends to zero. -/
theorem bad_tendsto {B : (n : ℕ) → Set (Fin n → E)} (hB : ∀ n, MeasurableSet (B n))
    (h : ∀ᵐ ω ∂(Measure.infinitePi fun _ : ℕ => P), ∀ᶠ n in atTop, firstPoints n ω ∉ B n) :
    Tendsto (fun n => (Measure.pi fun _ : Fin n => P) (B n)) atTop (𝓝 0) := by
  have hm : ∀ n, Measurable (firstPoints n : (ℕ → E) → Fin n → E) := fun n => measurable_pi_lambda _ fun i => measurable_pi_apply _
  have h1 := tendsto_measure_of_ae_tendsto_indicator_of_isFiniteMeasure (μ := Measure.infinitePi fun _ : ℕ => P) (L := atTop)
    (A := ∅) (As := fun n => firstPoints n ⁻¹' B n) MeasurableSet.empty (fun n => hm n (hB n)) (by
      filter_upwards [h] with ω hω
      filter_upwards [hω] with n hn
      simpa using hn)
  rw [measure_empty] at h1
  refine h1.congr fun n => ?_
  rw [← map_firstPoints, Measure.map_apply (hm n) (hB n)]

/-- The way to prove that estimates converge. -/
theorem converges_of_bad {Key : Type} [MeasurableSpace Key] {κ : Measure Key} {s : Sampler Key} {dx dy : ℕ}
    {Q : Measure ((Fin dx → ℝ) × (Fin dy → ℝ))} [IsProbabilityMeasure Q] (hs : Draws κ s Q)
    {gives : (n : ℕ) → (Fin n → Fin dx → ℝ) → (Fin n → Fin dy → ℝ) → ℝ → Prop} {c : ℝ}
    (H : ∀ δ > 0, ∃ B : (n : ℕ) → Set (Fin n → (Fin dx → ℝ) × (Fin dy → ℝ)), (∀ n, MeasurableSet (B n)) ∧
      (∀ᵐ ω ∂(Measure.infinitePi fun _ : ℕ => Q), ∀ᶠ n in atTop, firstPoints n ω ∉ B n) ∧
      ∀ᶠ n in atTop, ∀ z, z ∉ B n → ∃ t, gives n (fun i => (z i).1) (fun i => (z i).2) t ∧ |t - c| < δ) :
    ConvergesTo κ s gives c := by
  intro δ hδ
  obtain ⟨B, hB, hae, hg⟩ := H δ hδ
  refine tendsto_of_tendsto_of_tendsto_of_le_of_le' tendsto_const_nhds (bad_tendsto hB hae) (.of_forall fun _ => bot_le) ?_
  filter_upwards [hg, eventually_ge_atTop 2] with n hn h2
  obtain ⟨draw, hm, hsmp, hlaw⟩ := hs n (by omega)
  rw [← hlaw, Measure.map_apply hm (hB n)]
  refine measure_mono fun k hk => ?_
  by_contra hc
  obtain ⟨t, h3, h4⟩ := hn (draw k) hc
  exact hk ⟨_, _, t, hsmp k, h3, h4⟩

end BMI.Consistency
