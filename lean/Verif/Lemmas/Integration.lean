import Verif.Props.Losses
import Verif.Lemmas.BmmPmi

/-! The bounds with a critic built from the exact pointwise mutual information. -/

namespace BMI.Integration

open MeasureTheory ProbabilityTheory BMI.Neural

variable {X Y : Type} [MeasurableSpace X] [MeasurableSpace Y]

/-- The function `t` is the pointwise mutual information of `P`, finite and integrable under the joint law and under the
product of the marginals. -/
structure IsPmi (P : Measure (X × Y)) (t : X → Y → ℝ) : Prop where
  density : P = (P.fst.prod P.snd).withDensity fun z => ENNReal.ofReal (Real.exp (t z.1 z.2))
  joint : Integrable (fun z : X × Y => t z.1 z.2) P
  product : Integrable (fun z : X × Y => t z.1 z.2) (P.fst.prod P.snd)

variable {P : Measure (X × Y)} [IsProbabilityMeasure P] {t g : X → Y → ℝ}

/-- The mean of the pointwise mutual information. -/
theorem IsPmi.info (h : IsPmi P t) : mutualInfo P ≠ ⊤ ∧ ∫ z, t z.1 z.2 ∂P = (mutualInfo P).toReal := by
  have hw : AEMeasurable (fun z : X × Y => (((t z.1 z.2 : ℝ) : EReal)).exp) (P.fst.prod P.snd) := by
    simp only [EReal.exp_coe]
    exact (Real.measurable_exp.comp_aemeasurable h.product.1.aemeasurable).ennreal_ofReal
  obtain ⟨-, h2, h3⟩ := Bmm.mutualInfo_of_log P (fun z => ((t z.1 z.2 : ℝ) : EReal)) hw (by
    simp only [EReal.exp_coe]
    exact h.density)
  simp only [EReal.toReal_coe] at h2 h3
  have hne := h2.2 h.joint
  obtain ⟨h4, h5⟩ := h3 hne
  exact ⟨hne, by rw [h4, ENNReal.toReal_ofReal h5]⟩

/-- Weighting the product of the marginals by `exp t` gives the joint law. -/
theorem IsPmi.weight (h : IsPmi P t) {u : X × Y → ℝ} (hu : Integrable u P) :
    Integrable (fun z : X × Y => Real.exp (t z.1 z.2) * u z) (P.fst.prod P.snd) ∧
    ∫ z, Real.exp (t z.1 z.2) * u z ∂(P.fst.prod P.snd) = ∫ z, u z ∂P := by
  have hm : AEMeasurable (fun z : X × Y => ENNReal.ofReal (Real.exp (t z.1 z.2))) (P.fst.prod P.snd) :=
    (Real.measurable_exp.comp_aemeasurable h.product.1.aemeasurable).ennreal_ofReal
  have e : ∀ z : X × Y, (ENNReal.ofReal (Real.exp (t z.1 z.2))).toReal • u z = Real.exp (t z.1 z.2) * u z := fun z => by
    rw [ENNReal.toReal_ofReal (Real.exp_pos _).le, smul_eq_mul]
  have hfin : ∀ᵐ z ∂(P.fst.prod P.snd), ENNReal.ofReal (Real.exp (t z.1 z.2)) < ⊤ :=
    Filter.Eventually.of_forall fun z => ENNReal.ofReal_lt_top
  refine ⟨?_, ?_⟩
  · have := (integrable_withDensity_iff_integrable_smul₀' hm hfin (g := u)).1 (by rw [← h.density]; exact hu)
    simpa only [e] using this
  · have := integral_withDensity_eq_integral_toReal_smul₀ hm hfin u
    rw [← h.density] at this
    rw [this]
    simp only [e]

/-- The critic with an added term. -/
theorem IsPmi.exp_add (h : IsPmi P t) (hg : Integrable (fun z : X × Y => Real.exp (g z.1 z.2)) P) :
    Integrable (fun z : X × Y => Real.exp (t z.1 z.2 + g z.1 z.2)) (P.fst.prod P.snd) ∧
    ∫ z, Real.exp (t z.1 z.2 + g z.1 z.2) ∂(P.fst.prod P.snd) = ∫ z, Real.exp (g z.1 z.2) ∂P := by
  simp only [Real.exp_add]
  exact h.weight hg

/-! ## Donsker-Varadhan on a batch -/

theorem log_average_bound {ι : Type} (s : Finset ι) (hs : s.Nonempty) (a : ι → ℝ) :
    |Real.log ((∑ k ∈ s, Real.exp (a k)) / s.card)| ≤ ∑ k ∈ s, |a k| := by
  set C := ∑ k ∈ s, |a k| with hC
  have hle : ∀ k ∈ s, |a k| ≤ C := fun k hk => Finset.single_le_sum (f := fun k => |a k|) (fun k _ => abs_nonneg _) hk
  have hn : (0 : ℝ) < s.card := by exact_mod_cast hs.card_pos
  have h1 : ∑ _k ∈ s, Real.exp (-C) ≤ ∑ k ∈ s, Real.exp (a k) :=
    Finset.sum_le_sum fun k hk => Real.exp_le_exp.2 (abs_le.1 (hle k hk)).1
  have h2 : ∑ k ∈ s, Real.exp (a k) ≤ ∑ _k ∈ s, Real.exp C :=
    Finset.sum_le_sum fun k hk => Real.exp_le_exp.2 (abs_le.1 (hle k hk)).2
  rw [Finset.sum_const, nsmul_eq_mul, mul_comm, ← le_div_iff₀ hn] at h1
  rw [Finset.sum_const, nsmul_eq_mul, mul_comm, ← div_le_iff₀ hn] at h2
  have hp := (Real.exp_pos (-C)).trans_le h1
  have l1 := Real.log_le_log (Real.exp_pos _) h1
  have l2 := Real.log_le_log hp h2
  rw [Real.log_exp] at l1 l2
  rw [abs_le]
  exact ⟨l1, l2⟩

theorem negative_offDiag {n : ℕ} (f : X → Y → ℝ) (x : Fin n → X) (y : Fin n → Y) :
    Spec.negative f x y = (∑ k ∈ (Finset.univ : Finset (Fin n)).offDiag, Real.exp (f (x k.1) (y k.2)))
      / ((Finset.univ : Finset (Fin n)).offDiag.card : ℝ) := by
  unfold Spec.negative
  congr 1
  · rw [← Finset.sum_product' Finset.univ Finset.univ fun i j => if i = j then 0 else Real.exp (f (x i) (y j))]
    have e : (Finset.univ : Finset (Fin n)).offDiag = (Finset.univ ×ˢ Finset.univ).filter fun k => ¬ k.1 = k.2 := by
      ext k
      simp
    rw [e, Finset.sum_filter]
    refine Finset.sum_congr rfl fun k _ => ?_
    by_cases hk : k.1 = k.2 <;> simp [hk]
  · rw [Finset.offDiag_card, Finset.card_univ, Fintype.card_fin, Nat.cast_sub (Nat.le_mul_self n), Nat.cast_mul]
    ring

/-- Donsker-Varadhan has an expectation. -/
theorem integrable_donskerVaradhan (f : X → Y → ℝ) (hP : Integrable (fun p : X × Y => f p.1 p.2) P)
    (hQ : Integrable (fun p : X × Y => f p.1 p.2) (P.fst.prod P.snd)) (n : ℕ) (hn : 2 ≤ n) :
    Integrable (fun b => (Linear.donskerVaradhan f (List.ofFn fun i => (b i).1) (List.ofFn fun i => (b i).2)).toReal)
        (Measure.pi fun _ : Fin n => P) := by
  simp only [Linear.donskerVaradhan_eq hn, EReal.toReal_coe]
  unfold Spec.donskerVaradhan Spec.positive
  refine ((integrable_finsetSum _ fun i _ => integrable_pair P i hP).div_const _).sub ?_
  simp only [negative_offDiag]
  have hI : ∀ k ∈ (Finset.univ : Finset (Fin n)).offDiag, Integrable (fun b : Fin n → X × Y => f (b k.1).1 (b k.2).2)
      (Measure.pi fun _ => P) := fun k hk => integrable_cross P (Finset.mem_offDiag.1 hk).2.2 hQ
  have hne : (Finset.univ : Finset (Fin n)).offDiag.Nonempty :=
    ⟨(⟨0, by omega⟩, ⟨1, by omega⟩), by simp⟩
  refine (integrable_finsetSum _ fun k hk => (hI k hk).abs).mono' ?_
    (Filter.Eventually.of_forall fun b => log_average_bound _ hne fun k => f (b k.1).1 (b k.2).2)
  exact (Real.measurable_log.comp_aemeasurable ((Finset.aemeasurable_fun_sum _ fun k hk =>
    Real.measurable_exp.comp_aemeasurable (hI k hk).1.aemeasurable).div_const _)).aestronglyMeasurable

end BMI.Integration
