import Verif.Lemmas.BinormalLevels
import Verif.Props.Bimodal

/-! Property C54, the negative part: the numerical inverse functions of `task_bimodal_gaussians`
(/repo/src/bmi/benchmark/tasks/bimodal_gaussians.py) make the task discrete, so that the reported mutual information is
strictly larger than the true one. -/

namespace BMI.Search

open BMI.Samplers MeasureTheory ProbabilityTheory Filter

variable {Key : Type}

/-- A sampler draws from one law only. -/
theorem hasLaw_unique [MeasurableSpace Key] {κ : Measure Key} {s : Sampler Key} {dx dy : ℕ}
    {P Q : Measure ((Fin dx → ℝ) × (Fin dy → ℝ))} [IsProbabilityMeasure P] [IsProbabilityMeasure Q] (hP : HasLaw κ s P)
    (hQ : HasLaw κ s Q) : P = Q := by
  obtain ⟨d1, -, e1, l1⟩ := hP 1
  obtain ⟨d2, -, e2, l2⟩ := hQ 1
  have hd : d1 = d2 := by
    funext k i
    have h := Except.ok.inj ((e1 k).symm.trans (e2 k))
    rw [Prod.mk.injEq] at h
    have inj : ∀ {d : ℕ} (a b : Fin 1 → Fin d → ℝ), rowsOf a = rowsOf b → a = b := by
      intro d a b hab
      funext j
      exact List.ofFn_injective (congrFun (List.ofFn_injective hab) j)
    exact Prod.ext (congrFun (inj _ _ h.1) i) (congrFun (inj _ _ h.2) i)
  have hpi : (Measure.pi fun _ : Fin 1 => P) = Measure.pi fun _ : Fin 1 => Q := by rw [← l1, ← l2, hd]
  rw [← (measurePreserving_eval (fun _ : Fin 1 => P) 0).map_eq, hpi, (measurePreserving_eval (fun _ : Fin 1 => Q) 0).map_eq]

/-- The inverse functions of the task, applied to one variable. -/
theorem range_invert (F : ℝ → ℝ) (h : ℝ → ℝ) :
    (Set.range fun (v : Fin 1 → ℝ) (i : Fin 1) => (invertCdf F (h (v i))).getD 0).Finite := by
  have hf := invertMono_finite F (-10) 10 1e-12 (by norm_num)
  refine (hf.image fun (x : ℝ) (_ : Fin 1) => x).subset ?_
  rintro _ ⟨v, rfl⟩
  obtain ⟨x, hx⟩ := invertMono_terminates_real F (-10) 10 1e-12 (h (v 0)) (by norm_num)
  refine ⟨x, ⟨_, hx⟩, funext fun i => ?_⟩
  rw [Subsingleton.elim i 0]
  show x = (invertMono realOps F (-10) 10 1e-12 (h (v 0))).getD 0
  rw [hx]
  rfl

/-- **C54**, negation: for every correlation other than zero the points of the task follow a law `Q` whose mutual
information is strictly smaller than the reported number; the variables take finitely many values; and the task is not
correct whatever law one proposes. -/
theorem bimodalTask_overstates [MeasurableSpace Key] (R : JaxRandom Key) (κ : Measure Key) [IsProbabilityMeasure κ]
    (hR : IdealRandom R κ) (c : ℝ) (h1 : -1 < c) (h2 : c < 1) (h0 : c ≠ 0) :
    ∃ s, ∃ Q : Measure ((Fin 1 → ℝ) × (Fin 1 → ℝ)), bimodalTask R c = .ok s ∧ s.mi = -(1 / 2) * Real.log (1 - c ^ 2) ∧
      IsProbabilityMeasure Q ∧ HasLaw κ s Q ∧ mutualInfo Q < ENNReal.ofReal s.mi ∧
      (∃ S : Set ((Fin 1 → ℝ) × (Fin 1 → ℝ)), S.Finite ∧ ∀ᵐ z ∂Q, z ∈ S) ∧
      ∀ P : Measure ((Fin 1 → ℝ) × (Fin 1 → ℝ)), ¬ Correct R κ s 1 1 P := by
  obtain ⟨base, e1, hb⟩ := bivariateNormal_correct R κ hR c 1 1 0 0 one_pos one_pos h1 h2
  obtain ⟨u, e2, e3, hu⟩ := normalCdfTask_correct R κ base _ hb
  have hmib : base.mi = -(1 / 2) * Real.log (1 - c ^ 2) := by
    obtain ⟨s', -, e⟩ := bivariateNormal_eq R c 1 1 0 0 one_pos one_pos h1 h2
    rw [e1] at e
    rw [Except.ok.inj e]
    norm_num
  have hprob := hb.prob
  have hprobu := hu.prob
  have hcdf : Measurable (cdf (gaussianReal 0 1)) := (cdf (gaussianReal 0 1)).mono.measurable
  have hcdf1 : Measurable fun (v : Fin 1 → ℝ) i => cdf (gaussianReal 0 1) (v i) :=
    measurable_pi_lambda _ fun i => hcdf.comp (measurable_pi_apply i)
  have hm : ∀ F : ℝ → ℝ, Measurable fun (v : Fin 1 → ℝ) i => (invertCdf F (v i)).getD 0 := fun F =>
    measurable_pi_lambda _ fun i => (measurable_invertCdf _).comp (measurable_pi_apply i)
  have htx := acts_map 1 fun u => (invertCdf bimodalCdfX u).getD 0
  have hty := acts_map 1 fun u => (invertCdf bimodalCdfY u).getD 0
  obtain ⟨s, hs, hw⟩ := transformed_wellShaped u _ _ 0 0 1 1 1 1 hu.shape le_rfl le_rfl (by simp) (by simp) htx.reshapes
    hty.reshapes
  obtain ⟨h3, h4⟩ := transformed_law R κ u s _ hu _ _ 0 0 _ _ (hm _) (hm _) htx hty hs
  have hmi : s.mi = base.mi := by
    obtain ⟨_, _, _, _, _, _, _, _, rfl⟩ := transformed_inv hs
    exact e3
  rw [Measure.map_map ((hm _).prodMap (hm _)) (hcdf1.prodMap hcdf1)] at h3
  set P0 : Measure ((Fin 1 → ℝ) × (Fin 1 → ℝ)) := (normalLaw ![0, 0] !![1 ^ 2, c * 1 * 1; c * 1 * 1, 1 ^ 2]).map fun z =>
    (fun _ => z 0, fun _ => z 1) with hP0
  have hsplit : P0 = splitNormal 1 1 ![0, 0] (bivariateCov c 1 1) := by
    rw [hP0]
    unfold splitNormal
    congr 1
    funext z
    refine Prod.ext (funext fun i => ?_) (funext fun i => ?_) <;> (rw [Subsingleton.elim i 0]; rfl)
  rw [Prod.map_comp_map] at h3
  have hlt := binormal_map_lt c h1 h2 h0 ((hm bimodalCdfX).comp hcdf1) ((hm bimodalCdfY).comp hcdf1)
    (range_invert bimodalCdfX (cdf (gaussianReal 0 1))).countable (range_invert bimodalCdfY (cdf (gaussianReal 0 1))).countable
  rw [← hsplit, hb.mi, ← hmi] at hlt
  have hQp : IsProbabilityMeasure (P0.map (Prod.map ((fun (v : Fin 1 → ℝ) i => (invertCdf bimodalCdfX (v i)).getD 0) ∘
      fun v i => cdf (gaussianReal 0 1) (v i)) ((fun (v : Fin 1 → ℝ) i => (invertCdf bimodalCdfY (v i)).getD 0) ∘
      fun v i => cdf (gaussianReal 0 1) (v i)))) :=
    Measure.isProbabilityMeasure_map (((hm _).comp hcdf1).prodMap ((hm _).comp hcdf1)).aemeasurable
  refine ⟨s, _, ?_, hmi.trans hmib, hQp, h3, hlt, ?_, fun P hP => ?_⟩
  · unfold bimodalTask bimodalWith
    rw [e1]
    show (normalCdfTask base >>= fun u => _) = _
    rw [e2]
    exact hs
  · refine ⟨_, (range_invert bimodalCdfX (cdf (gaussianReal 0 1))).prod (range_invert bimodalCdfY (cdf (gaussianReal 0 1))),
      ?_⟩
    refine (ae_map_iff (((hm _).comp hcdf1).prodMap ((hm _).comp hcdf1)).aemeasurable ?_).2 (ae_of_all _ fun z => ?_)
    · exact ((range_invert bimodalCdfX (cdf (gaussianReal 0 1))).prod
        (range_invert bimodalCdfY (cdf (gaussianReal 0 1)))).measurableSet
    · exact ⟨⟨z.1, rfl⟩, ⟨z.2, rfl⟩⟩
  · have := hP.prob
    have e := hP.mi
    rw [hasLaw_unique hP.law h3] at e
    exact hlt.ne e

example : ∃ s, bimodalTask tree 0.75 = .ok s ∧ ∀ P : Measure ((Fin 1 → ℝ) × (Fin 1 → ℝ)), ¬ Correct tree treeLaw s 1 1 P := by
  obtain ⟨s, _, h1, -, -, -, -, -, h2⟩ := bimodalTask_overstates tree treeLaw tree_ideal 0.75 (by norm_num) (by norm_num)
    (by norm_num)
  exact ⟨s, h1, h2⟩

/-- **C54**: the reported number is the mutual information of the points of the task exactly when the correlation is
zero. -/
theorem bimodalTask_correct_iff [MeasurableSpace Key] (R : JaxRandom Key) (κ : Measure Key) [IsProbabilityMeasure κ]
    (hR : IdealRandom R κ) (c : ℝ) (h1 : -1 < c) (h2 : c < 1) :
    ∃ s, bimodalTask R c = .ok s ∧
      ((∃ P : Measure ((Fin 1 → ℝ) × (Fin 1 → ℝ)), Correct R κ s 1 1 P) ↔ c = 0) := by
  obtain ⟨s, Q, e1, e2, e3, e4, hQ, e5, e6⟩ := bimodalTask_correct_partial R κ hR c h1 h2
  refine ⟨s, e1, fun ⟨P, hP⟩ => ?_, fun hc => ⟨Q, hQ, e3, e4, e5, ?_, ?_⟩⟩
  · by_contra h0
    obtain ⟨s', _, e7, -, -, -, -, -, h⟩ := bimodalTask_overstates R κ hR c h1 h2 h0
    rw [Except.ok.inj (e7.symm.trans e1)] at h
    exact h P hP
  · rw [e2, hc]
    norm_num
  · rw [e2, hc] at e6 ⊢
    norm_num at e6 ⊢
    exact e6

example : ∃ s, bimodalTask tree 0 = .ok s ∧ ∃ P : Measure ((Fin 1 → ℝ) × (Fin 1 → ℝ)), Correct tree treeLaw s 1 1 P := by
  obtain ⟨s, h1, h2⟩ := bimodalTask_correct_iff tree treeLaw tree_ideal 0 (by norm_num) (by norm_num)
  exact ⟨s, h1, h2.2 rfl⟩

end BMI.Search
