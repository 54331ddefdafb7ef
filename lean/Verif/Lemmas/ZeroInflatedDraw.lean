import Verif.Lemmas.ZeroInflated
import Verif.Lemmas.OneDim
import Verif.Lemmas.Additive
import Mathlib.Probability.Independence.Integration

/-! The law of the draws of the zero-inflated Poissonization sampler. -/

namespace BMI.Samplers

open MeasureTheory ProbabilityTheory

variable {Key : Type} [MeasurableSpace Key]

theorem split_three {R : JaxRandom Key} {κ : Measure Key} [IsProbabilityMeasure κ] (h : IdealSplit R κ) :
    Measurable (fun k => ((R.split k 3 0, R.split k 3 1), R.split k 3 2)) ∧
      κ.map (fun k => ((R.split k 3 0, R.split k 3 1), R.split k 3 2)) = (κ.prod κ).prod κ := by
  obtain ⟨h1, h2⟩ := h 3
  have hm : Measurable fun a : Fin 3 → Key => ((a 0, a 1), a 2) := by fun_prop
  refine ⟨hm.comp h1, ?_⟩
  have e : (Measure.pi fun _ : Fin 3 => κ).map (fun a => ((a 0, a 1), a 2)) = (κ.prod κ).prod κ := by
    have h3 := measurePreserving_piFinSuccAbove (fun _ : Fin 3 => κ) 2
    have h4 := (measurePreserving_finTwoArrow κ).prod (MeasurePreserving.id κ)
    have h5 := (h4.comp (Measure.measurePreserving_swap (μ := κ) (ν := Measure.pi fun _ : Fin 2 => κ))).comp h3
    exact h5.map_eq
  rw [← e, ← h2, Measure.map_map hm h1]
  rfl

/-- The Poisson law as a kernel. -/
noncomputable def poissonKernel : Kernel ℝ ℕ := ⟨fun x => poissonMeasure x.toNNReal, measurable_poissonMeasure⟩

theorem poissonKernel_apply (x : ℝ) : poissonKernel x = poissonMeasure x.toNNReal := rfl

instance : IsMarkovKernel poissonKernel := ⟨fun x => by rw [poissonKernel_apply]; infer_instance⟩

/-- Poisson draws with independent random rates. -/
theorem poisson_rows {R : JaxRandom Key} {κ : Measure Key} [IsProbabilityMeasure κ] (hp : IdealPoisson R κ) {A : Type}
    [MeasurableSpace A] (α : Measure A) [IsProbabilityMeasure α] (rate : A → ℝ) (hr : Measurable rate)
    (hr0 : ∀ᵐ a ∂α, 0 ≤ rate a) (n : ℕ) :
    ((Measure.pi fun _ : Fin n => α).prod κ).map
        (fun z i => (z.1 i, R.poisson z.2 n 1 (fun i _ => rate (z.1 i)) i 0))
      = Measure.pi fun _ => α ⊗ₘ (poissonKernel.comap rate hr) := by
  obtain ⟨hm, hl⟩ := hp n 1
  have hmz : Measurable fun z : (Fin n → A) × Key => R.poisson z.2 n 1 (fun i _ => rate (z.1 i)) := by
    refine hm.comp (measurable_snd.prodMk ?_)
    refine measurable_pi_lambda _ fun i => measurable_pi_lambda _ fun _ => hr.comp ?_
    exact (measurable_pi_apply i).comp measurable_fst
  have hT : Measurable fun (z : (Fin n → A) × Key) (i : Fin n) =>
      (z.1 i, R.poisson z.2 n 1 (fun i _ => rate (z.1 i)) i 0) := by
    refine measurable_pi_lambda _ fun i => ((measurable_pi_apply i).comp measurable_fst).prodMk ?_
    exact (measurable_pi_apply 0).comp ((measurable_pi_apply i).comp hmz)
  symm
  refine Measure.pi_eq fun s hs => ?_
  have hbox : MeasurableSet (Set.univ.pi s) := MeasurableSet.univ_pi hs
  rw [Measure.map_apply hT hbox, Measure.prod_apply (hT hbox)]
  have hnn : ∀ᵐ a ∂(Measure.pi fun _ : Fin n => α), ∀ i, 0 ≤ rate (a i) := by
    rw [ae_all_iff]
    intro i
    exact (measurePreserving_eval (fun _ : Fin n => α) i).quasiMeasurePreserving.ae hr0
  have h1 : ∀ᵐ a ∂(Measure.pi fun _ : Fin n => α), κ (Prod.mk a ⁻¹' ((fun (z : (Fin n → A) × Key) (i : Fin n) =>
      (z.1 i, R.poisson z.2 n 1 (fun i _ => rate (z.1 i)) i 0)) ⁻¹' Set.univ.pi s))
      = ∏ i, poissonKernel (rate (a i)) (Prod.mk (a i) ⁻¹' s i) := by
    filter_upwards [hnn] with a ha
    have hl' := hl (fun i _ => rate (a i)) fun i _ => ha i
    have hma : Measurable fun k => R.poisson k n 1 (fun i _ => rate (a i)) := hmz.comp measurable_prodMk_left
    have hsec : ∀ i, MeasurableSet (Prod.mk (a i) ⁻¹' s i) := fun i => measurable_prodMk_left (hs i)
    have e : Prod.mk a ⁻¹' ((fun (z : (Fin n → A) × Key) (i : Fin n) =>
        (z.1 i, R.poisson z.2 n 1 (fun i _ => rate (z.1 i)) i 0)) ⁻¹' Set.univ.pi s)
        = (fun k => R.poisson k n 1 (fun i _ => rate (a i))) ⁻¹'
          Set.univ.pi fun i => Set.univ.pi fun _ : Fin 1 => Prod.mk (a i) ⁻¹' s i := by
      ext k
      simp only [Set.mem_preimage, Set.mem_univ_pi]
      constructor
      · intro h i j
        rw [Subsingleton.elim j 0]
        exact h i
      · intro h i
        exact h i 0
    rw [e, ← Measure.map_apply hma (MeasurableSet.univ_pi fun i => MeasurableSet.univ_pi fun _ => hsec i), hl',
      Measure.pi_pi]
    refine Finset.prod_congr rfl fun i _ => ?_
    rw [Measure.pi_pi]
    simp [poissonKernel_apply]
  rw [lintegral_congr_ae h1]
  have hmi : ∀ i, Measurable fun a : A => poissonKernel (rate a) (Prod.mk a ⁻¹' s i) := fun i =>
    Kernel.measurable_kernel_prodMk_left (κ := poissonKernel.comap rate hr) (hs i)
  have hind : iIndepFun (fun i (a : Fin n → A) => poissonKernel (rate (a i)) (Prod.mk (a i) ⁻¹' s i))
      (Measure.pi fun _ : Fin n => α) :=
    iIndepFun_pi (μ := fun _ : Fin n => α) (X := fun i a => poissonKernel (rate a) (Prod.mk a ⁻¹' s i))
      fun i => (hmi i).aemeasurable
  rw [lintegral_prod_eq_prod_lintegral_of_indepFun Finset.univ _ hind fun i => (hmi i).comp (measurable_pi_apply i)]
  refine Finset.prod_congr rfl fun i _ => ?_
  rw [Measure.compProd_apply (hs i)]
  have := (measurePreserving_eval (fun _ : Fin n => α) i).lintegral_comp (hmi i)
  rw [this]
  rfl

/-- Thinning by an independent coin gives the zero-inflated law. -/
theorem zip_thinning {p : ℝ} (h0 : 0 ≤ p) (h1 : p < 1) :
    (((expMeasure 1).prod (bernoulliLaw (1 - p))) ⊗ₘ (poissonKernel.comap Prod.fst measurable_fst)).map
      (fun z => (z.1.1, if z.1.2 then z.2 else 0)) = zipLaw p := by
  haveI := isMarkov_zipKernel h0 h1
  haveI : IsProbabilityMeasure (expMeasure 1) := isProbabilityMeasure_expMeasure one_pos
  have hF : Measurable fun z : (ℝ × Bool) × ℕ => (z.1.1, if z.1.2 then z.2 else 0) := by
    refine (measurable_fst.comp measurable_fst).prodMk ?_
    exact Measurable.ite ((measurable_snd.comp measurable_fst) (measurableSet_singleton true)) measurable_snd
      measurable_const
  haveI : IsFiniteMeasure (bernoulliLaw (1 - p)) := ⟨by unfold bernoulliLaw; simp⟩
  ext s hs
  rw [Measure.map_apply hF hs, Measure.compProd_apply (hF hs), lintegral_prod _
    (Kernel.measurable_kernel_prodMk_left (κ := poissonKernel.comap Prod.fst measurable_fst) (hF hs)).aemeasurable]
  unfold zipLaw
  rw [Measure.compProd_apply hs]
  refine lintegral_congr fun x => ?_
  unfold bernoulliLaw
  rw [lintegral_add_measure, lintegral_smul_measure, lintegral_smul_measure, lintegral_dirac, lintegral_dirac,
    Kernel.comap_apply, Kernel.comap_apply, poissonKernel_apply, zipKernel_apply, Measure.add_apply, Measure.smul_apply,
    Measure.smul_apply, add_comm, sub_sub_cancel]
  congr 1
  congr 1
  have e : Prod.mk (x, false) ⁻¹' ((fun z : (ℝ × Bool) × ℕ => (z.1.1, if z.1.2 then z.2 else 0)) ⁻¹' s)
      = {_k : ℕ | (x, 0) ∈ s} := by
    ext k
    simp
  rw [e, Measure.dirac_apply' _ (measurable_prodMk_left hs)]
  by_cases h : (x, 0) ∈ s
  · simp [h]
  · simp [h]

end BMI.Samplers
