import Verif.Lemmas.MixtureMI
import Verif.Lemmas.GaussianMI

/-! Further bounds on the mutual information of mixtures: components with common marginals, and components of which one
part depends on fewer labels. -/

namespace BMI.Bmm

open MeasureTheory InformationTheory BMI.Samplers

variable {X Y : Type} [MeasurableSpace X] [MeasurableSpace Y] {m : ℕ}

theorem mixtureLaw_const {Ω : Type} [MeasurableSpace Ω] (p : Fin m → ℝ) (h0 : ∀ j, 0 ≤ p j) (h1 : ∑ j, p j = 1)
    (μ : Measure Ω) : mixtureLaw p (fun _ => μ) = μ := by
  unfold mixtureLaw
  rw [← Finset.sum_smul, sum_ofFn_ofReal h0 (by rw [List.sum_ofFn, h1]), one_smul]

/-- A mixture of components with common marginals has these marginals, and encodes at most the mean of what its components
encode. -/
theorem mutualInfo_mixture_convex (p : Fin m → ℝ) (h0 : ∀ j, 0 ≤ p j) (h1 : ∑ j, p j = 1) (P : Fin m → Measure (X × Y))
    [∀ j, IsProbabilityMeasure (P j)] (μ : Measure X) (ν : Measure Y) [IsProbabilityMeasure μ] [IsProbabilityMeasure ν]
    (hμ : ∀ j, (P j).fst = μ) (hν : ∀ j, (P j).snd = ν) :
    (mixtureLaw p P).fst = μ ∧ (mixtureLaw p P).snd = ν ∧
      mutualInfo (mixtureLaw p P) ≤ ∑ j, ENNReal.ofReal (p j) * mutualInfo (P j) := by
  have hf : (mixtureLaw p P).fst = μ := by
    rw [Measure.fst, mixtureLaw_map _ _ measurable_fst]
    have : (fun j => (P j).map Prod.fst) = fun _ => μ := funext hμ
    rw [this, mixtureLaw_const p h0 h1]
  have hs : (mixtureLaw p P).snd = ν := by
    rw [Measure.snd, mixtureLaw_map _ _ measurable_snd]
    have : (fun j => (P j).map Prod.snd) = fun _ => ν := funext hν
    rw [this, mixtureLaw_const p h0 h1]
  refine ⟨hf, hs, ?_⟩
  by_cases hfin : ∃ j, 0 < p j ∧ mutualInfo (P j) = ⊤
  · obtain ⟨j, hj, htop⟩ := hfin
    refine le_top.trans (top_le_iff.2 ?_).ge
    rw [ENNReal.sum_eq_top]
    exact ⟨j, Finset.mem_univ j, by rw [htop, ENNReal.mul_top (by simpa using hj)]⟩
  · push Not at hfin
    set Q := μ.prod ν with hQ
    have hmi : ∀ j, mutualInfo (P j) = klDiv (P j) Q := fun j => by rw [mutualInfo, hμ, hν]
    have hac : ∀ j, 0 < p j → P j ≪ Q := fun j hj => (klDiv_ne_top_iff.1 (hmi j ▸ hfin j hj)).1
    set d : Fin m → X × Y → ENNReal := fun j => (P j).rnDeriv Q with hd
    have hdm : ∀ j, Measurable (d j) := fun j => Measure.measurable_rnDeriv _ _
    set g : X × Y → ENNReal := fun z => ∑ j, ENNReal.ofReal (p j) * d j z with hg
    have hgm : Measurable g := Finset.measurable_sum _ fun j _ => (hdm j).const_mul _
    have hdens : mixtureLaw p P = Q.withDensity g := by
      refine Measure.ext_of_lintegral _ fun f hf => ?_
      rw [lintegral_mixture, lintegral_withDensity_eq_lintegral_mul _ hgm hf]
      simp only [Pi.mul_apply, hg, Finset.sum_mul]
      have hmj : ∀ j ∈ (Finset.univ : Finset (Fin m)), Measurable fun z => ENNReal.ofReal (p j) * d j z * f z :=
        fun j _ => ((hdm j).const_mul _).mul hf
      rw [lintegral_finset_sum _ hmj]
      refine Finset.sum_congr rfl fun j _ => ?_
      simp only [mul_assoc]
      have hdf : Measurable fun z => d j z * f z := (hdm j).mul hf
      rw [lintegral_const_mul _ hdf]
      rcases (h0 j).eq_or_lt with hj | hj
      · rw [← hj]
        simp
      · congr 1
        conv_lhs => rw [← Measure.withDensity_rnDeriv_eq _ _ (hac j hj)]
        rw [lintegral_withDensity_eq_lintegral_mul _ (hdm j) hf]
        rfl
    haveI : IsProbabilityMeasure (mixtureLaw p P) := mixtureLaw_prob h0 (by rw [List.sum_ofFn, h1]) P
    have hacM : mixtureLaw p P ≪ Q := hdens ▸ withDensity_absolutelyContinuous _ _
    have hrn : (mixtureLaw p P).rnDeriv Q =ᵐ[Q] g := hdens ▸ Measure.rnDeriv_withDensity Q hgm
    have hterm : ∀ j, ENNReal.ofReal (p j) * mutualInfo (P j)
        = ENNReal.ofReal (p j) * ∫⁻ z, ENNReal.ofReal (klFun (d j z).toReal) ∂Q := by
      intro j
      rcases (h0 j).eq_or_lt with hj | hj
      · rw [← hj]
        simp
      · rw [hmi, klDiv_eq_lintegral_klFun_of_ac (hac j hj)]
    simp only [hterm]
    have hkm : ∀ j, Measurable fun z => ENNReal.ofReal (klFun (d j z).toReal) := fun j =>
      (measurable_klFun.comp (hdm j).ennreal_toReal).ennreal_ofReal
    have hsum : ∑ j, ENNReal.ofReal (p j) * ∫⁻ z, ENNReal.ofReal (klFun (d j z).toReal) ∂Q
        = ∫⁻ z, ∑ j, ENNReal.ofReal (p j) * ENNReal.ofReal (klFun (d j z).toReal) ∂Q := by
      rw [lintegral_finset_sum _ fun j _ => (hkm j).const_mul _]
      exact Finset.sum_congr rfl fun j _ => (lintegral_const_mul _ (hkm j)).symm
    rw [hsum]
    unfold mutualInfo
    rw [hf, hs, ← hQ, klDiv_eq_lintegral_klFun_of_ac hacM]
    refine lintegral_mono_ae ?_
    have hlt : ∀ᵐ z ∂Q, ∀ j, d j z < ⊤ := ae_all_iff.2 fun j => Measure.rnDeriv_lt_top _ _
    filter_upwards [hrn, hlt] with z hz hfz
    have e : (g z).toReal = ∑ j, p j • (d j z).toReal := by
      rw [hg, ENNReal.toReal_sum fun j _ => ENNReal.mul_ne_top ENNReal.ofReal_ne_top (hfz j).ne]
      refine Finset.sum_congr rfl fun j _ => ?_
      rw [ENNReal.toReal_mul, ENNReal.toReal_ofReal (h0 j), smul_eq_mul]
    rw [hz, e]
    have hJ := convexOn_klFun.map_sum_le (t := Finset.univ) (w := p) (p := fun j => (d j z).toReal) (fun j _ => h0 j) h1
      fun j _ => Set.mem_Ici.2 ENNReal.toReal_nonneg
    calc ENNReal.ofReal (klFun (∑ j, p j • (d j z).toReal)) ≤ ENNReal.ofReal (∑ j, p j • klFun (d j z).toReal) :=
          ENNReal.ofReal_le_ofReal hJ
      _ = ∑ j, ENNReal.ofReal (p j) * ENNReal.ofReal (klFun (d j z).toReal) := by
          simp only [smul_eq_mul]
          rw [ENNReal.ofReal_sum_of_nonneg fun j _ => mul_nonneg (h0 j) (klFun_nonneg ENNReal.toReal_nonneg)]
          exact Finset.sum_congr rfl fun j _ => ENNReal.ofReal_mul (h0 j)

/-- If the components are products, and the second part depends on the component only through one of `r` labels, at most
`log r` is encoded. -/
theorem mutualInfo_grouped_le {r : ℕ} (p : Fin m → ℝ) (h0 : ∀ j, 0 ≤ p j) (h1 : ∑ j, p j = 1) (A : Fin m → Measure X)
    (B : Fin r → Measure Y) [∀ j, IsProbabilityMeasure (A j)] [∀ j, IsProbabilityMeasure (B j)] (g : Fin m → Fin r) :
    mutualInfo (mixtureLaw p fun j => (A j).prod (B (g j))) ≤ ENNReal.ofReal (Real.log r) := by
  classical
  have hm : 0 < m := by
    rcases Nat.eq_zero_or_pos m with rfl | h
    · simp at h1
    · exact h
  set q : Fin r → ℝ := fun s => ∑ j, if g j = s then p j else 0 with hq
  have hq0 : ∀ s, 0 ≤ q s := fun s => Finset.sum_nonneg fun j _ => by split_ifs <;> simp [h0]
  have hq1 : ∑ s, q s = 1 := by
    rw [hq, Finset.sum_comm, ← h1]
    refine Finset.sum_congr rfl fun j _ => ?_
    rw [Finset.sum_ite_eq]
    simp
  set w : Fin r → Fin m → ℝ := fun s j => if g j = s then p j / q s else 0 with hw
  set A' : Fin r → Measure X := fun s => if q s = 0 then A ⟨0, hm⟩ else mixtureLaw (w s) A with hA'
  have hw0 : ∀ s j, 0 ≤ w s j := fun s j => by
    rw [hw]
    simp only
    split_ifs
    · exact div_nonneg (h0 j) (hq0 s)
    · exact le_rfl
  haveI : ∀ s, IsProbabilityMeasure (A' s) := by
    intro s
    rw [hA']
    simp only
    split_ifs with hs
    · infer_instance
    · refine mixtureLaw_prob (hw0 s) ?_ A
      rw [List.sum_ofFn]
      have : ∀ j, w s j = (if g j = s then p j else 0) / q s := fun j => by
        rw [hw]
        simp only
        split_ifs <;> simp
      simp only [this, ← Finset.sum_div]
      exact div_self hs
  have hlaw : (mixtureLaw p fun j => (A j).prod (B (g j))) = mixtureLaw q fun s => (A' s).prod (B s) := by
    refine Measure.ext_of_lintegral _ fun f hf => ?_
    rw [lintegral_mixture, lintegral_mixture]
    have key : ∀ s, ENNReal.ofReal (q s) * ∫⁻ z, f z ∂((A' s).prod (B s))
        = ∑ j, if g j = s then ENNReal.ofReal (p j) * ∫⁻ z, f z ∂((A j).prod (B s)) else 0 := by
      intro s
      by_cases hs : q s = 0
      · rw [hs, ENNReal.ofReal_zero, zero_mul]
        refine (Finset.sum_eq_zero fun j _ => ?_).symm
        have h2 := (Finset.sum_eq_zero_iff_of_nonneg fun j _ => by split_ifs <;> simp [h0]).1 hs j (Finset.mem_univ j)
        split_ifs with hj
        · rw [if_pos hj] at h2
          simp [h2]
        · rfl
      · have hA : A' s = mixtureLaw (w s) A := by simp [hA', hs]
        rw [hA] at *
        rw [lintegral_prod _ hf.aemeasurable, lintegral_mixture, Finset.mul_sum]
        refine Finset.sum_congr rfl fun j _ => ?_
        split_ifs with hj
        · rw [← mul_assoc, ← ENNReal.ofReal_mul (hq0 s), lintegral_prod _ hf.aemeasurable]
          congr 2
          simp only [hw, if_pos hj]
          field_simp
        · simp [hw, hj]
    simp only [key]
    rw [Finset.sum_comm]
    refine Finset.sum_congr rfl fun j _ => ?_
    rw [Finset.sum_ite_eq]
    simp
  rw [hlaw]
  refine (mutualInfo_mixture_le q hq0 hq1 _ fun s _ => ?_).trans (ENNReal.ofReal_le_ofReal ?_)
  · rw [mutualInfo_prod]
    exact ENNReal.zero_ne_top
  · simp only [mutualInfo_prod, ENNReal.toReal_zero, mul_zero, Finset.sum_const_zero, zero_add]
    exact entropy_le q hq0 hq1

/-- A normal vector with uncorrelated coordinates has independent parts. -/
theorem splitNormal_diagonal {dx dy : ℕ} (mean : Fin (dx + dy) → ℝ) (v : Fin (dx + dy) → ℝ) (hv : ∀ i, 0 < v i) :
    mutualInfo (splitNormal dx dy mean (Matrix.diagonal v)) = 0 ∧
    splitNormal dx dy mean (Matrix.diagonal v) =
      (normalLaw (parts mean).1 (Matrix.diagonal (parts v).1)).prod (normalLaw (parts mean).2 (Matrix.diagonal (parts v).2)) := by
  have hpos : (Matrix.diagonal v).PosDef := Matrix.PosDef.diagonal hv
  have hx : blockX (Matrix.diagonal v) = Matrix.diagonal (parts v).1 := by
    ext i j
    simp [blockX, Matrix.diagonal_apply, parts]
  have hy : blockY (Matrix.diagonal v) = Matrix.diagonal (parts v).2 := by
    ext i j
    simp [blockY, Matrix.diagonal_apply, parts]
  have h0 : mutualInfo (splitNormal dx dy mean (Matrix.diagonal v)) = 0 := by
    rw [(splitNormal_mi mean hpos).1, hx, hy, Matrix.det_diagonal, Matrix.det_diagonal, Matrix.det_diagonal, Fin.prod_univ_add,
      Real.log_mul]
    · simp [parts]
    · exact Finset.prod_ne_zero_iff.2 fun i _ => (hv _).ne'
    · exact Finset.prod_ne_zero_iff.2 fun i _ => (hv _).ne'
  refine ⟨h0, ?_⟩
  rw [mutualInfo_eq_zero_iff] at h0
  rw [h0, splitNormal_fst mean hpos.posSemidef, splitNormal_snd mean hpos.posSemidef, hx, hy]

end BMI.Bmm
