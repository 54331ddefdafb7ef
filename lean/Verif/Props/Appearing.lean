import Verif.Spec.Appearing
import Verif.Lemmas.Density

/-!
Property C81: the illustration of appearing and vanishing mutual information
(/repo/scripts/Mixtures/plot_appearing_and_vanishing_mi.py).
-/

namespace BMI.Appearing

open MeasureTheory ProbabilityTheory Set

/-! ### Uniform laws -/

theorem restrict_inter_null {A B : Set ℝ} (hA : MeasurableSet A) (h : Disjoint A B) :
    (volume.restrict B).restrict A = 0 := by
  rw [Measure.restrict_restrict hA, h.inter_eq, Measure.restrict_empty]

theorem volume_rect (A B : Set ℝ) : (volume : Measure (ℝ × ℝ)) (A ×ˢ B) = volume A * volume B := by
  rw [Measure.volume_eq_prod, Measure.prod_prod]

theorem cond_rect {A B : Set ℝ} (a : volume A ≠ 0) (a' : volume A ≠ ⊤) : (volume : Measure (ℝ × ℝ))[|A ×ˢ B] = (volume[|A]).prod (volume[|B]) := by
  unfold ProbabilityTheory.cond
  rw [volume_rect, Measure.volume_eq_prod, ← Measure.prod_restrict, Measure.prod_smul_left, Measure.prod_smul_right, smul_smul,
    ENNReal.mul_inv (Or.inl a) (Or.inl a')]

theorem cond_density {S : Set (ℝ × ℝ)} (hS : MeasurableSet S) (h : volume S ≠ 0) (h' : volume S ≠ ⊤) :
    volume[|S] = volume.withDensity fun z => ENNReal.ofReal (uniformDensity S z) := by
  have e : (fun z => ENNReal.ofReal (uniformDensity S z)) = S.indicator fun _ => (volume S)⁻¹ := by
    funext z
    unfold uniformDensity
    by_cases hz : z ∈ S
    · rw [if_pos hz, indicator_of_mem hz, one_div, ENNReal.ofReal_inv_of_pos (ENNReal.toReal_pos h h'), ENNReal.ofReal_toReal h']
    · rw [if_neg hz, indicator_of_notMem hz, ENNReal.ofReal_zero]
  rw [e, withDensity_indicator hS, withDensity_const]
  rfl

/-- A uniform law on a rectangle has no mutual information. -/
theorem rect_mi {A B : Set ℝ} (a : volume A ≠ 0) (a' : volume A ≠ ⊤) (b : volume B ≠ 0)
    (b' : volume B ≠ ⊤) : mutualInfo (volume[|A ×ˢ B]) = 0 := by
  haveI := cond_isProbabilityMeasure_of_finite a a'
  haveI := cond_isProbabilityMeasure_of_finite b b'
  rw [cond_rect a a', mutualInfo_prod]

theorem restrict_half {A B : Set ℝ} (hA : MeasurableSet A) (hAB : Disjoint A B) :
    ((volume.restrict A + volume.restrict B) : Measure ℝ).restrict A = volume.restrict A := by
  rw [Measure.restrict_add, restrict_inter_null hA hAB, Measure.restrict_restrict hA, inter_self, add_zero]

theorem diagonal_volume {A B C D : Set ℝ} (hB : MeasurableSet B) (hD : MeasurableSet D)
    (hAB : Disjoint A B) (a : volume A = 1) (b : volume B = 1) (c : volume C = 1) (d : volume D = 1) :
    (volume : Measure (ℝ × ℝ)) (A ×ˢ C ∪ B ×ˢ D) = 2 := by
  rw [measure_union (Set.disjoint_prod.2 (Or.inl hAB)) (hB.prod hD), volume_rect, volume_rect, a, b, c, d]
  norm_num

theorem diagonal_law {A B C D : Set ℝ} (hB : MeasurableSet B) (hD : MeasurableSet D)
    (hAB : Disjoint A B) (a : volume A = 1) (b : volume B = 1) (c : volume C = 1) (d : volume D = 1) :
    (volume : Measure (ℝ × ℝ))[|A ×ˢ C ∪ B ×ˢ D] = (2 : ENNReal)⁻¹ • ((volume.restrict A).prod (volume.restrict C) +
      (volume.restrict B).prod (volume.restrict D)) := by
  unfold ProbabilityTheory.cond
  rw [diagonal_volume hB hD hAB a b c d, Measure.restrict_union (Set.disjoint_prod.2 (Or.inl hAB)) (hB.prod hD),
    Measure.volume_eq_prod, ← Measure.prod_restrict, ← Measure.prod_restrict]

theorem diagonal_marginals {α β γ δ : Measure ℝ} [IsProbabilityMeasure α] [IsProbabilityMeasure β] [IsProbabilityMeasure γ]
    [IsProbabilityMeasure δ] : ((2 : ENNReal)⁻¹ • (α.prod γ + β.prod δ)).fst = (2 : ENNReal)⁻¹ • (α + β) ∧
      ((2 : ENNReal)⁻¹ • (α.prod γ + β.prod δ)).snd = (2 : ENNReal)⁻¹ • (γ + δ) := by
  unfold Measure.fst Measure.snd
  rw [Measure.map_smul, Measure.map_add _ _ measurable_fst, Measure.map_smul, Measure.map_add _ _ measurable_snd]
  rw [← Measure.fst, ← Measure.fst, Measure.fst_prod, Measure.fst_prod, ← Measure.snd, ← Measure.snd, Measure.snd_prod, Measure.snd_prod]
  exact ⟨rfl, rfl⟩

theorem diagonal_ratio {A B C D : Set ℝ} (hA : MeasurableSet A) (hB : MeasurableSet B) (hC : MeasurableSet C) (hD : MeasurableSet D)
    (hAB : Disjoint A B) (hCD : Disjoint C D) :
    (((2 : ENNReal)⁻¹ • (volume.restrict A + volume.restrict B)).prod
      ((2 : ENNReal)⁻¹ • (volume.restrict C + volume.restrict D))).withDensity ((A ×ˢ C ∪ B ×ˢ D).indicator fun _ => 2) =
      (2 : ENNReal)⁻¹ • ((volume.restrict A).prod (volume.restrict C) + (volume.restrict B).prod (volume.restrict D)) := by
  have hB' := restrict_half hB hAB.symm
  have hD' := restrict_half hD hCD.symm
  rw [add_comm] at hB' hD'
  rw [withDensity_indicator ((hA.prod hC).union (hB.prod hD)), withDensity_const, Measure.restrict_union
    (Set.disjoint_prod.2 (Or.inl hAB)) (hB.prod hD), ← Measure.prod_restrict, ← Measure.prod_restrict, Measure.restrict_smul,
    Measure.restrict_smul, Measure.restrict_smul, Measure.restrict_smul, restrict_half hA hAB, restrict_half hC hCD, hB', hD',
    Measure.prod_smul_left, Measure.prod_smul_right, Measure.prod_smul_left, Measure.prod_smul_right, ← smul_add, ← smul_add, smul_smul,
    ENNReal.mul_inv_cancel (by norm_num) (by norm_num), one_smul]

/-- A law with the constant density `2` with respect to the product of its marginals, on a set. -/
theorem constant_ratio {P : Measure (ℝ × ℝ)} [IsProbabilityMeasure P] {S : Set (ℝ × ℝ)} (hS : MeasurableSet S) (hae : ∀ᵐ z ∂P, z ∈ S)
    (h : P = (P.fst.prod P.snd).withDensity (S.indicator fun _ => 2)) : mutualInfo P = ENNReal.ofReal (Real.log 2) := by
  have hre : (fun z => ENNReal.ofReal (S.indicator (fun _ => (2 : ℝ)) z)) = S.indicator fun _ => 2 := by
    funext z
    by_cases hz : z ∈ S
    · simp [hz]
    · simp [hz]
  have hlog : (fun z => Real.log (S.indicator (fun _ => (2 : ℝ)) z)) =ᵐ[P] fun _ => Real.log 2 := by
    filter_upwards [hae] with z hz
    simp [hz]
  have h0 : ∀ z, 0 ≤ S.indicator (fun _ => (2 : ℝ)) z := fun z => indicator_nonneg (fun _ _ => by norm_num) z
  have hm : Measurable (S.indicator fun _ => (2 : ℝ)) := measurable_const.indicator hS
  rw [← hre] at h
  obtain ⟨h1, -⟩ := mutualInfo_of_ratio P _ hm h0 h ((integrable_congr hlog).2 (integrable_const _))
  rw [h1, integral_congr_ae hlog, integral_const, probReal_univ, one_smul]

/-- C81: the uniform law on two squares with disjoint sides has mutual information `log 2`. -/
theorem diagonal_mi {A B C D : Set ℝ} (hA : MeasurableSet A) (hB : MeasurableSet B) (hC : MeasurableSet C) (hD : MeasurableSet D)
    (hAB : Disjoint A B) (hCD : Disjoint C D) (a : volume A = 1) (b : volume B = 1) (c : volume C = 1) (d : volume D = 1) :
    mutualInfo (volume[|A ×ˢ C ∪ B ×ˢ D]) = ENNReal.ofReal (Real.log 2) := by
  have hS : MeasurableSet (A ×ˢ C ∪ B ×ˢ D) := (hA.prod hC).union (hB.prod hD)
  have hvol := diagonal_volume hB hD hAB a b c d
  have hlaw := diagonal_law hB hD hAB a b c d
  have hrat := diagonal_ratio hA hB hC hD hAB hCD
  haveI : IsProbabilityMeasure (volume[|A ×ˢ C ∪ B ×ˢ D]) :=
    cond_isProbabilityMeasure_of_finite (by rw [hvol]; norm_num) (by rw [hvol]; norm_num)
  haveI : IsProbabilityMeasure (volume.restrict A) := ⟨by rw [Measure.restrict_apply_univ, a]⟩
  haveI : IsProbabilityMeasure (volume.restrict B) := ⟨by rw [Measure.restrict_apply_univ, b]⟩
  haveI : IsProbabilityMeasure (volume.restrict C) := ⟨by rw [Measure.restrict_apply_univ, c]⟩
  haveI : IsProbabilityMeasure (volume.restrict D) := ⟨by rw [Measure.restrict_apply_univ, d]⟩
  obtain ⟨m1, m2⟩ := diagonal_marginals (α := volume.restrict A) (β := volume.restrict B) (γ := volume.restrict C)
    (δ := volume.restrict D)
  rw [← hlaw] at m1 m2 hrat
  rw [← m1, ← m2] at hrat
  have hae : ∀ᵐ z ∂(volume : Measure (ℝ × ℝ))[|A ×ˢ C ∪ B ×ˢ D], z ∈ A ×ˢ C ∪ B ×ˢ D := by
    unfold ProbabilityTheory.cond
    exact Measure.ae_smul_measure (ae_restrict_mem hS) _
  exact constant_ratio hS hae hrat.symm

/-! ### The script -/

theorem lt_iff (a b : ℝ) : lt a b = true ↔ a < b := by
  unfold lt
  exact decide_eq_true_iff

theorem mask1_iff (a b : ℝ) : mask1 a b = true ↔ (a, b) ∈ square 0 0 := by
  simp only [mask1, Bool.and_eq_true, lt_iff, square, mem_prod, mem_Ioo]
  norm_num
  tauto

theorem mask2_iff (a b : ℝ) : mask2 a b = true ↔ (a, b) ∈ square 1 1 := by
  simp only [mask2, Bool.and_eq_true, lt_iff, square, mem_prod, mem_Ioo]
  norm_num
  tauto

theorem mask3_iff (a b : ℝ) : mask3 a b = true ↔ (a, b) ∈ square 0 0 ∪ square 1 1 := by
  rw [mask3, Bool.or_eq_true, mask1_iff, mask2_iff, mem_union]

theorem mask4_iff (a b : ℝ) : mask4 a b = true ↔ (a, b) ∈ square 0 1 ∪ square 1 0 := by
  simp only [mask4, Bool.or_eq_true, Bool.and_eq_true, lt_iff, mem_union, square, mem_prod, mem_Ioo]
  norm_num
  tauto

theorem square_open (a b : ℝ) : IsOpen (square a b) := isOpen_Ioo.prod isOpen_Ioo

theorem square_volume (a b : ℝ) : volume (square a b) = 1 := by
  unfold square
  rw [volume_rect, Real.volume_Ioo, Real.volume_Ioo]
  norm_num

theorem sides_disjoint : Disjoint (Ioo (0 : ℝ) (0 + 1)) (Ioo 1 (1 + 1)) := by
  rw [Set.disjoint_left]
  rintro x ⟨-, h⟩ ⟨h', -⟩
  linarith

theorem squares_disjoint {a b c d : ℝ} (h : Disjoint (Ioo a (a + 1)) (Ioo c (c + 1)) ∨ Disjoint (Ioo b (b + 1)) (Ioo d (d + 1))) :
    Disjoint (square a b) (square c d) := Set.disjoint_prod.2 h

theorem two_volume {a b c d : ℝ} (h : Disjoint (square a b) (square c d)) : volume (square a b ∪ square c d) = 2 := by
  rw [measure_union h (square_open c d).measurableSet, square_volume, square_volume]
  norm_num

/-- The four squares are, up to their sides, the large one. -/
theorem four_rect : (square 0 0 ∪ square 1 1) ∪ (square 0 1 ∪ square 1 0) =
    (Ioo (0 : ℝ) (0 + 1) ∪ Ioo 1 (1 + 1)) ×ˢ (Ioo (0 : ℝ) (0 + 1) ∪ Ioo 1 (1 + 1)) := by
  ext z
  simp only [square, mem_union, mem_prod]
  tauto

/-- The array of a panel. -/
theorem rows_spec {S : Set (ℝ × ℝ)} {f : ℝ → ℝ → ℝ} (h : ∀ a b, f a b = uniformDensity S (a, b)) :
    (onMesh (linspace 0 2) (linspace 0 2) f).length = 50 ∧
    ∀ i : Fin 50, ∃ row, (onMesh (linspace 0 2) (linspace 0 2) f)[(i : ℕ)]? = some row ∧ row.length = 50 ∧
      ∀ j : Fin 50, row[(j : ℕ)]? = some (uniformDensity S (2 * (j : ℝ) / 49, 2 * (i : ℝ) / 49)) := by
  have hl : ∀ i : Fin 50, (linspace 0 2)[(i : ℕ)]? = some (2 * (i : ℝ) / 49) := fun i => by
    unfold linspace
    rw [List.getElem?_map, List.getElem?_range i.2, Option.map_some]
    congr 1
    ring
  refine ⟨by simp [onMesh, linspace], fun i =>
    ⟨(linspace 0 2).map fun a => f a (2 * (i : ℝ) / 49), ?_, ?_, fun j => ?_⟩⟩
  · unfold onMesh
    rw [List.getElem?_map, hl]
    rfl
  · simp [linspace]
  · rw [List.getElem?_map, hl, Option.map_some, h]

theorem range_spec {x y : List ℝ} {f : ℝ → ℝ → ℝ} (h : ∀ a b, 0 ≤ f a b ∧ f a b ≤ 1) :
    ∀ row ∈ onMesh x y f, ∀ v ∈ row, 0 ≤ v ∧ v ≤ 1 := by
  intro row hrow v hv
  obtain ⟨b, -, rfl⟩ := List.mem_map.1 hrow
  obtain ⟨a, -, rfl⟩ := List.mem_map.1 hv
  exact h a b

theorem num_range (b : Bool) : 0 ≤ num b ∧ num b ≤ 1 := by
  cases b <;> norm_num [num]

theorem shows_of {S : Set (ℝ × ℝ)} {f : ℝ → ℝ → ℝ} {title : String} {mi c : ℝ} {mask : ℝ → ℝ → Bool} (ho : IsOpen S) (h0 : volume S ≠ 0)
    (h1 : volume S ≠ ⊤) (hc : c = 1 / (volume S).toReal) (hc0 : 0 ≤ c) (hc1 : c ≤ 1) (hf : ∀ a b, f a b = c * num (mask a b))
    (hm : ∀ a b, mask a b = true ↔ (a, b) ∈ S) (ht : ofTitle title = some mi) (hmi : mutualInfo (volume[|S]) = ENNReal.ofReal mi)
    (hmi0 : 0 ≤ mi) : Shows (plotDensity (onMesh (linspace 0 2) (linspace 0 2) f) title) S := by
  refine ⟨ho, ⟨cond_isProbabilityMeasure_of_finite h0 h1, cond_density ho.measurableSet h0 h1⟩, rows_spec fun a b => ?_,
    range_spec fun a b => ?_, rfl, mi, ht, hmi, hmi0⟩
  · rw [hf]
    unfold uniformDensity num
    by_cases h : (a, b) ∈ S
    · rw [if_pos h, if_pos ((hm a b).2 h), hc, mul_one]
    · rw [if_neg h, if_neg fun h' => h ((hm a b).1 h'), mul_zero]
  · rw [hf]
    obtain ⟨n0, n1⟩ := num_range (mask a b)
    exact ⟨by positivity, by nlinarith⟩

/-- C81: each of the five panels shows the density of a uniform law, and its title is the mutual information of that law: two squares
on the diagonal have none each, together `log 2`; so have the other two squares; all four together have none. -/
theorem main_spec : ∃ p₁ p₂ p₃ p₄ p₅, main = [p₁, p₂, p₃, p₄, p₅] ∧ Shows p₁ (square 0 0) ∧ Shows p₂ (square 1 1) ∧
    Shows p₃ (square 0 0 ∪ square 1 1) ∧ Shows p₄ (square 0 1 ∪ square 1 0) ∧
    Shows p₅ ((square 0 0 ∪ square 1 1) ∪ (square 0 1 ∪ square 1 0)) ∧
    [p₁, p₂, p₃, p₄, p₅].map (fun p => ofTitle p.title) = [some 0, some 0, some (Real.log 2), some (Real.log 2), some 0] := by
  have t0 : ofTitle "$I=0$" = some 0 := rfl
  have t2 : ofTitle "$I=\\log 2$" = some (Real.log 2) := rfl
  have v : ∀ a : ℝ, volume (Ioo a (a + 1)) = 1 := fun a => by rw [Real.volume_Ioo]; norm_num
  have l2 : 0 ≤ Real.log 2 := Real.log_nonneg (by norm_num)
  have s1 : ∀ a b, mutualInfo (volume[|square a b]) = ENNReal.ofReal 0 := fun a b => by
    rw [ENNReal.ofReal_zero]
    exact rect_mi (by simp) (by simp) (by simp) (by simp)
  have d3 : Disjoint (square 0 0) (square 1 1) := squares_disjoint (Or.inl sides_disjoint)
  have d4 : Disjoint (square 0 1) (square 1 0) := squares_disjoint (Or.inl sides_disjoint)
  have d5 : Disjoint (square 0 0 ∪ square 1 1) (square 0 1 ∪ square 1 0) := by
    rw [disjoint_union_left, disjoint_union_right, disjoint_union_right]
    exact ⟨⟨squares_disjoint (Or.inr sides_disjoint), squares_disjoint (Or.inl sides_disjoint)⟩,
      squares_disjoint (Or.inl sides_disjoint.symm), squares_disjoint (Or.inr sides_disjoint.symm)⟩
  have v5 : volume ((square 0 0 ∪ square 1 1) ∪ (square 0 1 ∪ square 1 0)) = 4 := by
    rw [measure_union d5 ((square_open _ _).union (square_open _ _)).measurableSet, two_volume d3, two_volume d4]
    norm_num
  refine ⟨_, _, _, _, _, rfl, ?_, ?_, ?_, ?_, ?_, rfl⟩
  · exact shows_of (c := 1) (square_open 0 0) (by simp [square_volume]) (by simp [square_volume]) (by simp [square_volume]) (by norm_num)
      le_rfl (fun a b => (one_mul _).symm) mask1_iff t0 (s1 0 0) le_rfl
  · exact shows_of (c := 1) (square_open 1 1) (by simp [square_volume]) (by simp [square_volume]) (by simp [square_volume]) (by norm_num)
      le_rfl (fun a b => (one_mul _).symm) mask2_iff t0 (s1 1 1) le_rfl
  · exact shows_of (c := 0.5) ((square_open 0 0).union (square_open 1 1)) (by simp [two_volume d3]) (by simp [two_volume d3])
      (by rw [two_volume d3]; norm_num) (by norm_num) (by norm_num) (fun a b => rfl) mask3_iff t2
      (diagonal_mi measurableSet_Ioo measurableSet_Ioo measurableSet_Ioo measurableSet_Ioo sides_disjoint sides_disjoint (v 0) (v 1) (v 0)
        (v 1)) l2
  · exact shows_of (c := 0.5) ((square_open 0 1).union (square_open 1 0)) (by simp [two_volume d4]) (by simp [two_volume d4])
      (by rw [two_volume d4]; norm_num) (by norm_num) (by norm_num) (fun a b => rfl) mask4_iff t2
      (diagonal_mi measurableSet_Ioo measurableSet_Ioo measurableSet_Ioo measurableSet_Ioo sides_disjoint sides_disjoint.symm (v 0) (v 1)
        (v 1) (v 0)) l2
  · refine shows_of (c := 0.25) (mask := fun a b => mask3 a b || mask4 a b)
      (((square_open 0 0).union (square_open 1 1)).union ((square_open 0 1).union (square_open 1 0))) (by simp [v5]) (by simp [v5])
      (by rw [v5]; norm_num) (by norm_num) (by norm_num) (fun a b => rfl) (fun a b => ?_) t0 ?_ le_rfl
    · rw [Bool.or_eq_true, mask3_iff, mask4_iff]
      exact (mem_union _ _ _).symm
    · have ve : volume (Ioo (0 : ℝ) (0 + 1) ∪ Ioo 1 (1 + 1)) = 2 := by
        rw [measure_union sides_disjoint measurableSet_Ioo, v, v]
        norm_num
      rw [four_rect, ENNReal.ofReal_zero]
      exact rect_mi (by simp [ve]) (by simp [ve])
        (by simp [ve]) (by simp [ve])

/-- C81: the laws are mixtures of each other, as the comments of the script say. -/
theorem mixtures : volume[|square 0 0 ∪ square 1 1] = (2 : ENNReal)⁻¹ • volume[|square 0 0] + (2 : ENNReal)⁻¹ • volume[|square 1 1] ∧
    volume[|(square 0 0 ∪ square 1 1) ∪ (square 0 1 ∪ square 1 0)] =
      (2 : ENNReal)⁻¹ • volume[|square 0 0 ∪ square 1 1] + (2 : ENNReal)⁻¹ • volume[|square 0 1 ∪ square 1 0] := by
  have d3 : Disjoint (square 0 0) (square 1 1) := squares_disjoint (Or.inl sides_disjoint)
  have d4 : Disjoint (square 0 1) (square 1 0) := squares_disjoint (Or.inl sides_disjoint)
  have d5 : Disjoint (square 0 0 ∪ square 1 1) (square 0 1 ∪ square 1 0) := by
    rw [disjoint_union_left, disjoint_union_right, disjoint_union_right]
    exact ⟨⟨squares_disjoint (Or.inr sides_disjoint), squares_disjoint (Or.inl sides_disjoint)⟩,
      squares_disjoint (Or.inl sides_disjoint.symm), squares_disjoint (Or.inr sides_disjoint.symm)⟩
  have m4 := ((square_open 0 1).union (square_open 1 0)).measurableSet
  have v5 : volume ((square 0 0 ∪ square 1 1) ∪ (square 0 1 ∪ square 1 0)) = 4 := by
    rw [measure_union d5 m4, two_volume d3, two_volume d4]
    norm_num
  unfold ProbabilityTheory.cond
  constructor
  · rw [two_volume d3, Measure.restrict_union d3 (square_open 1 1).measurableSet, square_volume, square_volume, smul_add]
    simp
  · rw [v5, two_volume d3, two_volume d4, Measure.restrict_union d5 m4, smul_add, smul_smul, smul_smul,
      ← ENNReal.mul_inv (by norm_num) (by norm_num)]
    norm_num

/-- C81: the image is drawn on `[0, 2]²`, so that its pixels are centred at `(j + 1/2) / 25` and not at the points of the grid.  Inside of
the border the number of a pixel is nevertheless the density at its centre … -/
theorem pixel_inside {S : Set (ℝ × ℝ)} (hS : S ∈ [square 0 0, square 1 1, square 0 0 ∪ square 1 1, square 0 1 ∪ square 1 0,
    (square 0 0 ∪ square 1 1) ∪ (square 0 1 ∪ square 1 0)]) (i j : ℕ) (hi : 0 < i ∧ i < 49) (hj : 0 < j ∧ j < 49) :
    uniformDensity S (2 * (j : ℝ) / 49, 2 * (i : ℝ) / 49) = uniformDensity S (((j : ℝ) + 1 / 2) / 25, ((i : ℝ) + 1 / 2) / 25) := by
  have side : ∀ n : ℕ, 0 < n ∧ n < 49 → (2 * (n : ℝ) / 49 ∈ Ioo (0 : ℝ) (0 + 1) ↔ ((n : ℝ) + 1 / 2) / 25 ∈ Ioo (0 : ℝ) (0 + 1)) ∧
      (2 * (n : ℝ) / 49 ∈ Ioo (1 : ℝ) (1 + 1) ↔ ((n : ℝ) + 1 / 2) / 25 ∈ Ioo (1 : ℝ) (1 + 1)) := by
    rintro n ⟨h1, h2⟩
    have h1' : (1 : ℝ) ≤ n := by exact_mod_cast h1
    have h2' : (n : ℝ) ≤ 48 := by exact_mod_cast Nat.lt_succ_iff.1 h2
    rcases Nat.lt_or_ge n 25 with h | h
    · have h' : (n : ℝ) ≤ 24 := by exact_mod_cast Nat.lt_succ_iff.1 h
      refine ⟨⟨fun _ => ⟨by linarith, by linarith⟩, fun _ => ⟨by linarith, by linarith⟩⟩, ⟨fun g => ?_, fun g => ?_⟩⟩ <;>
        have := g.1 <;> exfalso <;> linarith
    · have h' : (25 : ℝ) ≤ n := by exact_mod_cast h
      refine ⟨⟨fun g => ?_, fun g => ?_⟩, ⟨fun _ => ⟨by linarith, by linarith⟩, fun _ => ⟨by linarith, by linarith⟩⟩⟩ <;>
        have := g.2 <;> exfalso <;> linarith
  obtain ⟨a1, a2⟩ := side i hi
  obtain ⟨b1, b2⟩ := side j hj
  have key : (2 * (j : ℝ) / 49, 2 * (i : ℝ) / 49) ∈ S ↔ (((j : ℝ) + 1 / 2) / 25, ((i : ℝ) + 1 / 2) / 25) ∈ S := by
    simp only [List.mem_cons, List.not_mem_nil, or_false] at hS
    rcases hS with rfl | rfl | rfl | rfl | rfl <;> simp only [square, mem_union, mem_prod, a1, a2, b1, b2]
  unfold uniformDensity
  by_cases h : (((j : ℝ) + 1 / 2) / 25, ((i : ℝ) + 1 / 2) / 25) ∈ S
  · rw [if_pos h, if_pos (key.2 h)]
  · rw [if_neg h, if_neg fun h' => h (key.1 h')]

/-- … but the pixels of the border are blank, also where the density is not zero. -/
theorem pixel_border : uniformDensity (square 0 0) (2 * ((0 : ℕ) : ℝ) / 49, 2 * ((0 : ℕ) : ℝ) / 49) = 0 ∧
    uniformDensity (square 0 0) ((((0 : ℕ) : ℝ) + 1 / 2) / 25, (((0 : ℕ) : ℝ) + 1 / 2) / 25) = 1 := by
  unfold uniformDensity
  rw [if_neg, if_pos, square_volume]
  · norm_num
  · simp only [square, mem_prod, mem_Ioo]
    norm_num
  · simp only [square, mem_prod, mem_Ioo]
    norm_num

/-- The sets in `diagonal_mi` may lie anywhere on the axes. -/
example : mutualInfo (volume[|Ioo (3 : ℝ) 4 ×ˢ Ioo (-1 : ℝ) 0 ∪ Ioo (7 : ℝ) 8 ×ˢ Ioo (5 : ℝ) 6]) = ENNReal.ofReal (Real.log 2) := by
  refine diagonal_mi measurableSet_Ioo measurableSet_Ioo measurableSet_Ioo measurableSet_Ioo ?_ ?_ ?_ ?_ ?_ ?_ <;>
    first
    | (rw [Real.volume_Ioo]; norm_num)
    | (rw [Set.disjoint_left]; rintro x ⟨h1, h2⟩ ⟨h3, h4⟩; linarith)

end BMI.Appearing
