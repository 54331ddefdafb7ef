import Verif.Lemmas.Variational

/-! The multi-sample (InfoNCE) lower bound of mutual information. -/

namespace BMI.Neural

open MeasureTheory InformationTheory ProbabilityTheory

variable {X Y : Type} [MeasurableSpace X] [MeasurableSpace Y]

/-- Share of the weight of `y` among all candidates, times their number. -/
noncomputable def share {m : ℕ} (f : X → Y → ℝ) (x : X) (y : Y) (s : Fin m → Y) : ℝ :=
  Real.exp (f x y) / ((Real.exp (f x y) + ∑ j, Real.exp (f x (s j))) / (m + 1 : ℕ))

section
variable {m : ℕ} (f : X → Y → ℝ)

theorem share_pos (x : X) (y : Y) (s : Fin m → Y) : 0 < share f x y s := by
  have hn : (0 : ℝ) < (m + 1 : ℕ) := by positivity
  exact div_pos (Real.exp_pos _) (div_pos (add_pos_of_pos_of_nonneg (Real.exp_pos _)
    (Finset.sum_nonneg fun j _ => (Real.exp_pos _).le)) hn)

theorem share_le (x : X) (y : Y) (s : Fin m → Y) : share f x y s ≤ (m + 1 : ℕ) := by
  have hn : (0 : ℝ) < (m + 1 : ℕ) := by positivity
  have hs : 0 ≤ ∑ j, Real.exp (f x (s j)) := Finset.sum_nonneg fun j _ => (Real.exp_pos _).le
  unfold share
  rw [div_le_iff₀ (div_pos (add_pos_of_pos_of_nonneg (Real.exp_pos _) hs) hn), mul_div_cancel₀ _ hn.ne']
  linarith

theorem measurable_share (hf : Measurable fun p : X × Y => f p.1 p.2) :
    Measurable fun p : (X × Y) × (Fin m → Y) => share f p.1.1 p.1.2 p.2 := by
  have h1 : Measurable fun p : (X × Y) × (Fin m → Y) => Real.exp (f p.1.1 p.1.2) := (hf.comp measurable_fst).exp
  have h2 : ∀ j, Measurable fun p : (X × Y) × (Fin m → Y) => Real.exp (f p.1.1 (p.2 j)) := fun j => by
    have : Measurable fun p : (X × Y) × (Fin m → Y) => (p.1.1, p.2 j) :=
      (measurable_fst.comp measurable_fst).prodMk ((measurable_pi_apply j).comp measurable_snd)
    exact (hf.comp this).exp
  exact h1.div ((h1.add (Finset.measurable_sum _ fun j _ => h2 j)).div_const _)

/-- With all candidates independent of `x`, the expected share is one. -/
theorem integral_share_indep (hf : Measurable fun p : X × Y => f p.1 p.2) (μ : Measure X) (ν : Measure Y)
    [IsProbabilityMeasure μ] [IsProbabilityMeasure ν] :
    ∫ s, ∫ p, share f p.1 p.2 s ∂(μ.prod ν) ∂(Measure.pi fun _ : Fin m => ν) = 1 := by
  have hm := measurable_share (m := m) f hf
  have hb : ∀ p : (X × Y) × (Fin m → Y), |share f p.1.1 p.1.2 p.2| ≤ (m + 1 : ℕ) := fun p => by
    rw [abs_of_pos (share_pos f _ _ _)]
    exact share_le f _ _ _
  have hI := integrable_of_bdd ((μ.prod ν).prod (Measure.pi fun _ : Fin m => ν)) hm _ hb
  rw [← integral_prod_symm (fun p : (X × Y) × (Fin m → Y) => share f p.1.1 p.1.2 p.2) hI, integral_prod _ hI]
  have hI2 : Integrable (fun p : X × Y => ∫ s, share f p.1 p.2 s ∂(Measure.pi fun _ : Fin m => ν)) (μ.prod ν) :=
    hI.integral_prod_left
  rw [integral_prod _ hI2]
  have key : ∀ x, ∫ y, ∫ s, share f x y s ∂(Measure.pi fun _ : Fin m => ν) ∂ν = 1 := by
    intro x
    have hx : Measurable fun p : Y × (Fin m → Y) => share f x p.1 p.2 := by
      have : Measurable fun p : Y × (Fin m → Y) => (((x, p.1), p.2) : (X × Y) × (Fin m → Y)) :=
        (measurable_const.prodMk measurable_fst).prodMk measurable_snd
      exact hm.comp this
    have hxi := integrable_of_bdd (ν.prod (Measure.pi fun _ : Fin m => ν)) hx _ fun p => hb ((x, p.1), p.2)
    rw [← integral_prod (fun p : Y × (Fin m → Y) => share f x p.1 p.2) hxi]
    have hmp := measurePreserving_piFinSuccAbove (fun _ : Fin (m + 1) => ν) 0
    rw [← hmp.integral_comp' (f := MeasurableEquiv.piFinSuccAbove (fun _ => Y) 0)]
    have hfx : Measurable fun y => Real.exp (f x y) := (hf.comp (measurable_const.prodMk measurable_id)).exp
    rw [← integral_share ν m (fun y => Real.exp (f x y)) hfx (fun y => Real.exp_pos _) 0]
    refine integral_congr_ae (Filter.Eventually.of_forall fun b => ?_)
    simp only [share]
    rw [Fin.sum_univ_succ]
    rfl
  simp only [key]
  simp

end

theorem log_ratio_bound {m : ℕ} (a : Fin (m + 1) → ℝ) (i : Fin (m + 1)) :
    |Real.log (Real.exp (a i) / ((∑ j, Real.exp (a j)) / (m + 1 : ℕ)))| ≤ 2 * ∑ j, |a j| := by
  set C := ∑ j, |a j| with hC
  have hle : ∀ j, |a j| ≤ C := fun j => Finset.single_le_sum (f := fun j => |a j|) (fun k _ => abs_nonneg _) (Finset.mem_univ j)
  have hn : (0 : ℝ) < (m + 1 : ℕ) := by positivity
  have h1 : ∑ _j : Fin (m + 1), Real.exp (-C) ≤ ∑ j, Real.exp (a j) :=
    Finset.sum_le_sum fun j _ => Real.exp_le_exp.2 (abs_le.1 (hle j)).1
  have h2 : ∑ j, Real.exp (a j) ≤ ∑ _j : Fin (m + 1), Real.exp C :=
    Finset.sum_le_sum fun j _ => Real.exp_le_exp.2 (abs_le.1 (hle j)).2
  rw [Finset.sum_const, Finset.card_univ, Fintype.card_fin, nsmul_eq_mul, mul_comm, ← le_div_iff₀ hn] at h1
  rw [Finset.sum_const, Finset.card_univ, Fintype.card_fin, nsmul_eq_mul, mul_comm, ← div_le_iff₀ hn] at h2
  have hp := (Real.exp_pos (-C)).trans_le h1
  rw [Real.log_div (Real.exp_ne_zero _) hp.ne', Real.log_exp]
  have l1 := Real.log_le_log (Real.exp_pos _) h1
  have l2 := Real.log_le_log hp h2
  rw [Real.log_exp] at l1 l2
  have := abs_le.1 (hle i)
  rw [abs_le]
  constructor <;> linarith

/-- The score of any pair of points of the batch. -/
theorem integrable_cross (P : Measure (X × Y)) [IsProbabilityMeasure P] {g : X × Y → ℝ} {n : ℕ} {i j : Fin n} (hij : i ≠ j)
    (h : Integrable g (P.fst.prod P.snd)) :
    Integrable (fun b : Fin n → X × Y => g ((b i).1, (b j).2)) (Measure.pi fun _ => P) := by
  have mp : Measurable fun b : Fin n → X × Y => ((b i).1, (b j).2) :=
    (measurable_fst.comp (measurable_pi_apply i)).prodMk (measurable_snd.comp (measurable_pi_apply j))
  rw [← map_cross P hij] at h
  exact (integrable_map_measure h.1 mp.aemeasurable).1 h

theorem integrable_pair (P : Measure (X × Y)) [IsProbabilityMeasure P] {g : X × Y → ℝ} {n : ℕ} (i : Fin n)
    (h : Integrable g P) : Integrable (fun b : Fin n → X × Y => g ((b i).1, (b i).2)) (Measure.pi fun _ => P) :=
  (measurePreserving_eval (fun _ : Fin n => P) i).integrable_comp_of_integrable h

/-- The score of one pair of the batch is integrable. -/
theorem integrable_log_share {m : ℕ} (P : Measure (X × Y)) [IsProbabilityMeasure P] (f : X → Y → ℝ)
    (hP : Integrable (fun p : X × Y => f p.1 p.2) P) (hQ : Integrable (fun p : X × Y => f p.1 p.2) (P.fst.prod P.snd))
    (i : Fin (m + 1)) :
    Integrable (fun b : Fin (m + 1) → X × Y =>
      Real.log (Real.exp (f (b i).1 (b i).2) / ((∑ j, Real.exp (f (b i).1 (b j).2)) / (m + 1 : ℕ))))
      (Measure.pi fun _ => P) := by
  have hI : ∀ j, Integrable (fun b : Fin (m + 1) → X × Y => f (b i).1 (b j).2) (Measure.pi fun _ => P) := fun j => by
    by_cases hij : i = j
    · subst hij
      exact integrable_pair P i hP
    · exact integrable_cross P hij hQ
  have hm : ∀ j, AEMeasurable (fun b : Fin (m + 1) → X × Y => f (b i).1 (b j).2) (Measure.pi fun _ => P) := fun j =>
    (hI j).1.aemeasurable
  refine ((integrable_finsetSum Finset.univ fun j _ => (hI j).abs).const_mul 2).mono' ?_
    (Filter.Eventually.of_forall fun b => log_ratio_bound (fun j => f (b i).1 (b j).2) i)
  exact (Real.measurable_log.comp_aemeasurable ((Real.measurable_exp.comp_aemeasurable (hm i)).div
    ((Finset.aemeasurable_fun_sum _ fun j _ => Real.measurable_exp.comp_aemeasurable (hm j)).div_const _))).aestronglyMeasurable

/-- The expected score of one pair of the batch is at most the mutual information. -/
theorem integral_log_share_le {m : ℕ} (P : Measure (X × Y)) [IsProbabilityMeasure P] (f : X → Y → ℝ)
    (hf : Measurable fun p : X × Y => f p.1 p.2) (hP : Integrable (fun p : X × Y => f p.1 p.2) P)
    (hQ : Integrable (fun p : X × Y => f p.1 p.2) (P.fst.prod P.snd)) (hfin : mutualInfo P ≠ ⊤)
    (i : Fin (m + 1)) :
    ∫ b, Real.log (Real.exp (f (b i).1 (b i).2) / ((∑ j, Real.exp (f (b i).1 (b j).2)) / (m + 1 : ℕ)))
      ∂(Measure.pi fun _ : Fin (m + 1) => P) ≤ (mutualInfo P).toReal := by
  have hm := measurable_share (m := m) f hf
  -- split off the pair
  have hsnd : Measurable fun r : Fin m → X × Y => fun j => (r j).2 :=
    measurable_pi_lambda _ fun j => measurable_snd.comp (measurable_pi_apply j)
  let H : (X × Y) × (Fin m → X × Y) → ℝ := fun p => Real.log (share f p.1.1 p.1.2 fun j => (p.2 j).2)
  have hHm : Measurable H := (hm.comp (measurable_fst.prodMk (hsnd.comp measurable_snd))).log
  have hmp := measurePreserving_piFinSuccAbove (fun _ : Fin (m + 1) => P) i
  have e0 : (fun b : Fin (m + 1) → X × Y =>
      Real.log (Real.exp (f (b i).1 (b i).2) / ((∑ j, Real.exp (f (b i).1 (b j).2)) / (m + 1 : ℕ))))
      = H ∘ MeasurableEquiv.piFinSuccAbove (fun _ => X × Y) i := by
    funext b
    simp only [H, share, Function.comp_apply]
    rw [Fin.sum_univ_succAbove _ i]
    rfl
  have hHi : Integrable H (P.prod (Measure.pi fun _ : Fin m => P)) := by
    have := integrable_log_share P f hP hQ i
    rw [e0] at this
    exact (hmp.integrable_comp_emb (MeasurableEquiv.measurableEmbedding _)).1 this
  have e1 : ∫ b, Real.log (Real.exp (f (b i).1 (b i).2) / ((∑ j, Real.exp (f (b i).1 (b j).2)) / (m + 1 : ℕ)))
      ∂(Measure.pi fun _ : Fin (m + 1) => P) = ∫ p, H p ∂(P.prod (Measure.pi fun _ : Fin m => P)) := by
    rw [← hmp.integral_comp' (f := MeasurableEquiv.piFinSuccAbove (fun _ => X × Y) i), e0]
    rfl
  rw [e1, integral_prod_symm _ hHi]
  -- the bound for fixed other candidates
  let Q := P.fst.prod P.snd
  have hpt : ∀ᵐ r : Fin m → X × Y ∂(Measure.pi fun _ : Fin m => P), ∫ p, H (p, r) ∂P
      ≤ (mutualInfo P).toReal + ∫ p, share f p.1 p.2 (fun j => (r j).2) ∂Q - 1 := by
    filter_upwards [hHi.prod_left_ae] with r hr
    have e2 : ∀ p : X × Y, Real.exp (H (p, r)) = share f p.1 p.2 fun j => (r j).2 := fun p =>
      Real.exp_log (share_pos f _ _ _)
    have hs : Measurable fun p : X × Y => share f p.1 p.2 fun j => (r j).2 :=
      hm.comp (measurable_id.prodMk measurable_const)
    have h := gibbs P Q hr (by
      simp only [e2]
      exact integrable_of_bdd Q hs (m + 1 : ℕ) fun p => by
        rw [abs_of_pos (share_pos f _ _ _)]
        exact share_le f _ _ _)
    have hk : klDiv P Q = mutualInfo P := rfl
    rw [hk, ENNReal.ofReal_le_iff_le_toReal hfin] at h
    simp only [e2] at h
    linarith
  -- integrate over them
  have hA : Integrable (fun r : Fin m → X × Y => ∫ p, share f p.1 p.2 (fun j => (r j).2) ∂Q)
      (Measure.pi fun _ : Fin m => P) := by
    have hI := integrable_of_bdd (Q.prod (Measure.pi fun _ : Fin m => P))
      (hm.comp (measurable_fst.prodMk (hsnd.comp measurable_snd))) (m + 1 : ℕ) fun p => by
        simp only [Function.comp_apply]
        rw [abs_of_pos (share_pos f _ _ _)]
        exact share_le f _ _ _
    exact hI.integral_prod_right
  have hmono := integral_mono_ae hHi.integral_prod_right (((integrable_const (mutualInfo P).toReal).add hA).sub
    (integrable_const (1 : ℝ))) hpt
  refine hmono.trans (le_of_eq ?_)
  have e3 : ∫ r : Fin m → X × Y, ((mutualInfo P).toReal + ∫ p, share f p.1 p.2 (fun j => (r j).2) ∂Q - 1)
      ∂(Measure.pi fun _ : Fin m => P)
      = (mutualInfo P).toReal + ∫ r : Fin m → X × Y, ∫ p, share f p.1 p.2 (fun j => (r j).2) ∂Q
          ∂(Measure.pi fun _ : Fin m => P) - 1 := by
    have i1 : Integrable (fun r : Fin m → X × Y =>
        (mutualInfo P).toReal + ∫ p, share f p.1 p.2 (fun j => (r j).2) ∂Q) (Measure.pi fun _ : Fin m => P) :=
      (integrable_const (mutualInfo P).toReal).add hA
    rw [integral_sub i1 (integrable_const _), integral_add (integrable_const _) hA]
    simp
  refine e3.trans ?_
  have e4 : ∫ r : Fin m → X × Y, ∫ p, share f p.1 p.2 (fun j => (r j).2) ∂Q ∂(Measure.pi fun _ : Fin m => P)
      = ∫ s, ∫ p, share f p.1 p.2 s ∂Q ∂(Measure.pi fun _ : Fin m => P.snd) := by
    have hpi := Measure.pi_map_pi (μ := fun _ : Fin m => P) (f := fun _ => Prod.snd)
      (hμ := fun _ => inferInstanceAs (SigmaFinite P.snd)) fun _ => measurable_snd.aemeasurable
    have hpi' : (Measure.pi fun _ : Fin m => P).map (fun r j => (r j).2) = Measure.pi fun _ : Fin m => P.snd := hpi
    rw [← hpi', integral_map hsnd.aemeasurable]
    have hI := integrable_of_bdd (Q.prod ((Measure.pi fun _ : Fin m => P).map fun r j => (r j).2)) hm (m + 1 : ℕ)
      fun p => by
        rw [abs_of_pos (share_pos f _ _ _)]
        exact share_le f _ _ _
    exact hI.integral_prod_right.aestronglyMeasurable
  rw [e4, integral_share_indep f hf P.fst P.snd]
  ring

end BMI.Neural
