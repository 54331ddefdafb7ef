import Verif.Lemmas.MutualInfo
import Mathlib.MeasureTheory.Measure.Decomposition.RadonNikodym

/-! When data processing is strict: a map keeps the Kullback–Leibler divergence only if the density factors through it. -/

namespace BMI

open MeasureTheory ProbabilityTheory InformationTheory

/-- If a map keeps a finite divergence, the density is a function of the value of the map. -/
theorem rnDeriv_of_klDiv_map_eq {α β : Type*} [MeasurableSpace α] [MeasurableSpace β] (P Q : Measure α)
    [IsProbabilityMeasure P] [IsProbabilityMeasure Q] {F : α → β} (hF : Measurable F) (hne : klDiv P Q ≠ ⊤)
    (heq : klDiv (P.map F) (Q.map F) = klDiv P Q) :
    P.rnDeriv Q =ᵐ[Q] fun x => (P.map F).rnDeriv (Q.map F) (F x) := by
  have hP' : IsProbabilityMeasure (P.map F) := Measure.isProbabilityMeasure_map hF.aemeasurable
  have hQ' : IsProbabilityMeasure (Q.map F) := Measure.isProbabilityMeasure_map hF.aemeasurable
  obtain ⟨hac, hint⟩ := klDiv_ne_top_iff.1 hne
  obtain ⟨hac', hint'⟩ := klDiv_ne_top_iff.1 (heq ▸ hne)
  set s : β → ENNReal := (P.map F).rnDeriv (Q.map F) with hs
  have hsm : Measurable s := Measure.measurable_rnDeriv _ _
  have hsF : Measurable fun x => s (F x) := hsm.comp hF
  set Qt : Measure α := Q.withDensity fun x => s (F x) with hQt
  have hQtu : Qt Set.univ = 1 := by
    rw [hQt, withDensity_apply _ MeasurableSet.univ, Measure.restrict_univ, ← lintegral_map hsm hF,
      Measure.lintegral_rnDeriv hac', measure_univ]
  have hQtp : IsProbabilityMeasure Qt := ⟨hQtu⟩
  have hpos : ∀ᵐ x ∂P, 0 < s (F x) := ae_of_ae_map hF.aemeasurable (Measure.rnDeriv_pos hac')
  have hfin : ∀ᵐ x ∂P, s (F x) < ⊤ := by
    have : ∀ᵐ y ∂(P.map F), s y < ⊤ := hac' ((P.map F).rnDeriv_lt_top (Q.map F))
    exact ae_of_ae_map hF.aemeasurable this
  have hacQt : P ≪ Qt := by
    intro A hA
    rw [hQt, withDensity_apply_eq_zero hsF] at hA
    have h1 := hac hA
    have h2 : P {x | s (F x) ≠ 0}ᶜ = 0 := by
      have h3 : ∀ᵐ x ∂P, x ∈ {x | s (F x) ≠ 0} := by
        filter_upwards [hpos] with x hx using hx.ne'
      exact h3
    refine measure_mono_null (t := ({x | s (F x) ≠ 0} ∩ A) ∪ {x | s (F x) ≠ 0}ᶜ) (fun x hx => ?_)
      (measure_union_null h1 h2)
    by_cases h : s (F x) = 0
    · exact Or.inr fun h' => h' h
    · exact Or.inl ⟨h, hx⟩
  have hQtQ : Qt.rnDeriv Q =ᵐ[Q] fun x => s (F x) := Measure.rnDeriv_withDensity Q hsF
  have hmul := Measure.rnDeriv_mul_rnDeriv (κ := Q) hacQt
  have hllr : llr P Qt =ᵐ[P] fun x => llr P Q x - llr (P.map F) (Q.map F) (F x) := by
    filter_upwards [hac hmul, hac hQtQ, hpos, hfin, Measure.rnDeriv_pos hacQt, hacQt (P.rnDeriv_lt_top Qt)]
      with x h1 h2 h3 h4 h5 h6
    have e1 : 0 < (s (F x)).toReal := ENNReal.toReal_pos h3.ne' h4.ne
    have e2 : 0 < (P.rnDeriv Qt x).toReal := ENNReal.toReal_pos h5.ne' h6.ne
    simp only [llr]
    rw [← hs, ← h1, Pi.mul_apply, h2, ENNReal.toReal_mul, Real.log_mul e2.ne' e1.ne']
    ring
  have hintF : Integrable (fun x => llr (P.map F) (Q.map F) (F x)) P :=
    (integrable_map_measure (measurable_llr _ _).aestronglyMeasurable hF.aemeasurable).1 hint'
  have hintQt : Integrable (llr P Qt) P := (integrable_congr hllr).2 (hint.sub hintF)
  have hzero : (klDiv P Qt).toReal = 0 := by
    rw [toReal_klDiv_of_measure_eq hacQt (by simp), integral_congr_ae hllr, integral_sub hint hintF,
      ← integral_map hF.aemeasurable (measurable_llr _ _).aestronglyMeasurable,
      ← toReal_klDiv_of_measure_eq hac (by simp), ← toReal_klDiv_of_measure_eq hac' (by simp), heq, sub_self]
  have hz : klDiv P Qt = 0 := by
    rcases (ENNReal.toReal_eq_zero_iff _).1 hzero with h | h
    · exact h
    · exact absurd h (klDiv_ne_top hacQt hintQt)
  have hPQ : P = Qt := klDiv_eq_zero_iff.1 hz
  rw [← hPQ] at hQtQ
  exact hQtQ

/-- If every value of the density is taken with probability zero, maps with countably many values lose some mutual
information. -/
theorem mutualInfo_map_lt {X Y X' Y' : Type*} [MeasurableSpace X] [MeasurableSpace Y] [MeasurableSpace X']
    [MeasurableSpace Y'] (P : Measure (X × Y)) [IsProbabilityMeasure P] {f : X → X'} {g : Y → Y'} (hf : Measurable f)
    (hg : Measurable g) (hfr : (Set.range f).Countable) (hgr : (Set.range g).Countable) (hne : mutualInfo P ≠ ⊤)
    (r : X × Y → ENNReal) (hr : Measurable r) (hP : P = (P.fst.prod P.snd).withDensity r)
    (hlev : ∀ v, (P.fst.prod P.snd) {z | r z = v} = 0) :
    mutualInfo (P.map (Prod.map f g)) < mutualInfo P := by
  refine lt_of_le_of_ne (mutualInfo_map_le P hf hg) fun heq => ?_
  set Q := P.fst.prod P.snd with hQ
  have hmap : mutualInfo (P.map (Prod.map f g)) = klDiv (P.map (Prod.map f g)) (Q.map (Prod.map f g)) := by
    unfold mutualInfo
    rw [map_fst_prodMap P hf hg, map_snd_prodMap P hf hg, Measure.map_prod_map _ _ hf hg]
  have hfac := rnDeriv_of_klDiv_map_eq P Q (hf.prodMap hg) hne (hmap ▸ heq)
  have hrn : P.rnDeriv Q =ᵐ[Q] r := by
    have := Measure.rnDeriv_withDensity Q hr
    rwa [← hP] at this
  set s := (P.map (Prod.map f g)).rnDeriv (Q.map (Prod.map f g))
  have hcount : (Set.range (Prod.map f g)).Countable := by
    rw [Set.range_prodMap]
    exact hfr.prod hgr
  have hsc : (s '' Set.range (Prod.map f g)).Countable := hcount.image s
  have hnull : Q (⋃ v ∈ s '' Set.range (Prod.map f g), {z | r z = v}) = 0 :=
    (measure_biUnion_null_iff hsc).2 fun v _ => hlev v
  have hall : ∀ᵐ z ∂Q, z ∈ ⋃ v ∈ s '' Set.range (Prod.map f g), {z | r z = v} := by
    filter_upwards [hfac, hrn] with z h1 h2
    simp only [Set.mem_iUnion]
    exact ⟨_, ⟨_, ⟨z, rfl⟩, rfl⟩, by rw [Set.mem_setOf_eq, ← h2, h1]⟩
  have h1 : Q (⋃ v ∈ s '' Set.range (Prod.map f g), {z | r z = v}) = 1 := by
    rw [measure_eq_measure_of_null_diff (Set.subset_univ _), measure_univ]
    rw [← Set.compl_eq_univ_diff]
    exact hall
  rw [hnull] at h1
  exact zero_ne_one h1

/-- Data processing is strict if some value of the maps has positive probability and its preimage contains pairs which are impossible
for the joint law but possible for independent variables. -/
theorem mutualInfo_map_lt_of_hole {X Y X' Y' : Type*} [MeasurableSpace X] [MeasurableSpace Y] [MeasurableSpace X']
    [MeasurableSpace Y'] (P : Measure (X × Y)) [IsProbabilityMeasure P] {f : X → X'} {g : Y → Y'} (hf : Measurable f)
    (hg : Measurable g) (hne : mutualInfo P ≠ ⊤) (v : X' × Y') {Z : Set (X × Y)} (hZ : ∀ z ∈ Z, Prod.map f g z = v)
    (hP : P (Prod.map f g ⁻¹' {v}) ≠ 0) (hm : MeasurableSet Z) (hPZ : P Z = 0) (hQZ : (P.fst.prod P.snd) Z ≠ 0) (hv : MeasurableSet {v}) :
    mutualInfo (P.map (Prod.map f g)) < mutualInfo P := by
  refine lt_of_le_of_ne (mutualInfo_map_le P hf hg) fun heq => ?_
  set Q := P.fst.prod P.snd with hQ
  have hmap : mutualInfo (P.map (Prod.map f g)) = klDiv (P.map (Prod.map f g)) (Q.map (Prod.map f g)) := by
    unfold mutualInfo
    rw [map_fst_prodMap P hf hg, map_snd_prodMap P hf hg, Measure.map_prod_map _ _ hf hg]
  have hfac := rnDeriv_of_klDiv_map_eq P Q (hf.prodMap hg) hne (hmap ▸ heq)
  obtain ⟨hac, -⟩ := klDiv_ne_top_iff.1 hne
  set s := (P.map (Prod.map f g)).rnDeriv (Q.map (Prod.map f g))
  have key : ∀ S : Set (X × Y), MeasurableSet S → (∀ z ∈ S, Prod.map f g z = v) → P S = s v * Q S := by
    intro S hS hSv
    rw [← Measure.withDensity_rnDeriv_eq P Q hac, withDensity_apply _ hS, ← setLIntegral_const]
    refine setLIntegral_congr_fun_ae hS ?_
    filter_upwards [hfac] with z hz hzS
    rw [hz, hSv z hzS]
  have h1 := key Z hm hZ
  rw [hPZ] at h1
  have h2 : s v = 0 := by
    rcases mul_eq_zero.1 h1.symm with h | h
    · exact h
    · exact absurd h hQZ
  have h3 := key _ ((hf.prodMap hg) hv) fun z hz => hz
  rw [h2, zero_mul] at h3
  exact hP h3

end BMI
