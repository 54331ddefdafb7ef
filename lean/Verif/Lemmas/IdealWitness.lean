import Verif.Spec.IdealRandom
import Mathlib.Probability.ProductMeasure
import Mathlib.Probability.CDF

/-! A generator that satisfies every assumption in `IdealRandom`: the assumptions are consistent. -/

namespace BMI.Samplers

open MeasureTheory ProbabilityTheory
open scoped MatrixOrder Matrix.Norms.L2Operator

/-! ### Laws are probability measures -/

theorem isProbabilityMeasure_uniformLaw {lo hi : ℝ} (h : lo < hi) : IsProbabilityMeasure (uniformLaw lo hi) := by
  constructor
  unfold uniformLaw
  rw [Measure.smul_apply, Measure.restrict_apply MeasurableSet.univ, Set.univ_inter, Real.volume_Icc, smul_eq_mul,
    ← ENNReal.ofReal_mul (by have := sub_pos.2 h; positivity), one_div, inv_mul_cancel₀ (sub_pos.2 h).ne',
    ENNReal.ofReal_one]

theorem isProbabilityMeasure_randintLaw {lo hi : ℤ} (h : lo < hi) : IsProbabilityMeasure (randintLaw lo hi) := by
  constructor
  unfold randintLaw
  have h0 : (0 : ℝ) < hi - lo := by exact_mod_cast sub_pos.2 h
  simp only [Measure.coe_finset_sum, Finset.sum_apply, Measure.smul_apply, measure_univ, smul_eq_mul, mul_one,
    Finset.sum_const, Int.card_Ico, nsmul_eq_mul]
  have : ((hi - lo).toNat : ENNReal) = ENNReal.ofReal (hi - lo) := by
    rw [← ENNReal.ofReal_natCast]
    congr 1
    have : (((hi - lo).toNat : ℤ) : ℝ) = ((hi - lo : ℤ) : ℝ) := by rw [Int.toNat_of_nonneg (by omega)]
    rw [Int.cast_natCast, Int.cast_sub] at this
    exact this
  rw [this, ← ENNReal.ofReal_mul h0.le, mul_one_div, div_self h0.ne', ENNReal.ofReal_one]

theorem isProbabilityMeasure_bernoulliLaw {p : ℝ} (h0 : 0 ≤ p) (h1 : p ≤ 1) :
    IsProbabilityMeasure (bernoulliLaw p) := by
  constructor
  unfold bernoulliLaw
  simp only [Measure.add_apply, Measure.smul_apply, measure_univ, smul_eq_mul, mul_one]
  rw [← ENNReal.ofReal_add h0 (by linarith)]
  simp

instance {d : ℕ} (mean : Fin d → ℝ) (cov : Matrix (Fin d) (Fin d) ℝ) : IsProbabilityMeasure (normalLaw mean cov) :=
  Measure.isProbabilityMeasure_map (by fun_prop)

/-! ### Quantiles of laws on the naturals -/

/-- The smallest `k` with `u ≤ F k`. -/
noncomputable def natQuantile (F : ℕ → ℝ) (u : ℝ) : ℕ := sInf {k | u ≤ F k}

theorem natQuantile_le_iff {F : ℕ → ℝ} (hF : Monotone F) (u : ℝ) (k : ℕ) :
    natQuantile F u ≤ k ↔ u ≤ F k ∨ ∀ j, F j < u := by
  unfold natQuantile
  by_cases h : {k | u ≤ F k}.Nonempty
  · constructor
    · intro hk
      exact Or.inl (le_trans (Nat.sInf_mem h) (hF hk))
    · rintro (hk | hk)
      · exact Nat.sInf_le hk
      · obtain ⟨j, hj⟩ := h
        exact absurd (hk j) (not_lt.2 hj)
  · rw [Set.not_nonempty_iff_eq_empty.1 h, Nat.sInf_empty]
    simp only [zero_le, true_iff]
    right
    intro j
    by_contra hj
    exact h ⟨j, not_lt.1 hj⟩

/-- The distribution function of the Poisson law. -/
noncomputable def poissonCdf (lam : ℝ) (k : ℕ) : ℝ := (poissonMeasure lam.toNNReal).real (Set.Iic k)

theorem poissonCdf_mono (lam : ℝ) : Monotone (poissonCdf lam) := fun _ _ h =>
  measureReal_mono (Set.Iic_subset_Iic.2 h)

theorem poissonCdf_eq (lam : ℝ) (k : ℕ) : poissonCdf lam k = ∑ i ∈ Finset.Iic k,
    Real.exp (-(lam.toNNReal : ℝ)) * (lam.toNNReal : ℝ) ^ i / (i.factorial : ℝ) := by
  unfold poissonCdf
  rw [← Finset.coe_Iic, ← sum_measureReal_singleton]
  refine Finset.sum_congr rfl fun i _ => ?_
  rw [poissonMeasure_real_singleton]

theorem measurable_poissonCdf (k : ℕ) : Measurable fun lam : ℝ => poissonCdf lam k := by
  simp only [poissonCdf_eq]
  fun_prop

theorem measurable_poissonQuantile : Measurable fun z : ℝ × ℝ => natQuantile (poissonCdf z.1) z.2 := by
  refine measurable_of_Iic fun k => ?_
  have : (fun z : ℝ × ℝ => natQuantile (poissonCdf z.1) z.2) ⁻¹' Set.Iic k
      = {z | z.2 ≤ poissonCdf z.1 k} ∪ ⋂ j, {z | poissonCdf z.1 j < z.2} := by
    ext z
    simp only [Set.mem_preimage, Set.mem_Iic, Set.mem_union, Set.mem_setOf_eq, Set.mem_iInter]
    exact natQuantile_le_iff (poissonCdf_mono z.1) z.2 k
  rw [this]
  refine MeasurableSet.union ?_ (MeasurableSet.iInter fun j => ?_)
  · exact measurableSet_le measurable_snd ((measurable_poissonCdf k).comp measurable_fst)
  · exact measurableSet_lt ((measurable_poissonCdf j).comp measurable_fst) measurable_snd

theorem map_poissonQuantile (lam : ℝ) :
    (uniformLaw 0 1).map (natQuantile (poissonCdf lam)) = poissonMeasure lam.toNNReal := by
  have hU := isProbabilityMeasure_uniformLaw (zero_lt_one' ℝ)
  have hm : Measurable (natQuantile (poissonCdf lam)) :=
    measurable_poissonQuantile.comp (measurable_const.prodMk measurable_id)
  have : IsProbabilityMeasure ((uniformLaw 0 1).map (natQuantile (poissonCdf lam))) :=
    Measure.isProbabilityMeasure_map hm.aemeasurable
  refine Measure.ext_of_Iic _ _ fun k => ?_
  rw [Measure.map_apply hm measurableSet_Iic]
  have hF0 : 0 ≤ poissonCdf lam k := measureReal_nonneg
  have hF1 : poissonCdf lam k ≤ 1 := measureReal_le_one
  have htend : Filter.Tendsto (poissonCdf lam) Filter.atTop (nhds 1) := by
    have h := tendsto_measure_iUnion_atTop (μ := poissonMeasure lam.toNNReal) (s := fun k : ℕ => Set.Iic k)
      (fun a b h => Set.Iic_subset_Iic.2 h)
    have hu : (⋃ k : ℕ, Set.Iic k) = Set.univ := by
      ext x; simp only [Set.mem_iUnion, Set.mem_Iic, Set.mem_univ, iff_true]; exact ⟨x, le_rfl⟩
    rw [hu, measure_univ] at h
    have h' := (ENNReal.tendsto_toReal ENNReal.one_ne_top).comp h
    exact h'
  have hset : (natQuantile (poissonCdf lam)) ⁻¹' Set.Iic k ∩ Set.Ico 0 1 = Set.Icc 0 (poissonCdf lam k) ∩ Set.Ico 0 1 := by
    ext u
    simp only [Set.mem_inter_iff, Set.mem_preimage, Set.mem_Iic, Set.mem_Ico, Set.mem_Icc]
    constructor
    · rintro ⟨h, h0, h1⟩
      rcases (natQuantile_le_iff (poissonCdf_mono lam) u k).1 h with h | h
      · exact ⟨⟨h0, h⟩, h0, h1⟩
      · exfalso
        obtain ⟨j, hj⟩ := (htend.eventually (lt_mem_nhds h1)).exists
        exact absurd (h j) (not_lt.2 hj.le)
    · rintro ⟨⟨h0, h⟩, _, h1⟩
      exact ⟨(natQuantile_le_iff (poissonCdf_mono lam) u k).2 (Or.inl h), h0, h1⟩
  have hr : volume.restrict (Set.Icc (0:ℝ) 1) = volume.restrict (Set.Ico (0:ℝ) 1) :=
    Measure.restrict_congr_set Ico_ae_eq_Icc.symm
  unfold uniformLaw
  rw [sub_zero, one_div, inv_one, ENNReal.ofReal_one, one_smul, hr, Measure.restrict_apply (hm measurableSet_Iic),
    hset, ← Measure.restrict_apply measurableSet_Icc, ← hr, Measure.restrict_apply measurableSet_Icc,
    Set.inter_eq_left.2 (Set.Icc_subset_Icc le_rfl hF1), Real.volume_Icc, sub_zero]
  unfold poissonCdf
  rw [ofReal_measureReal]

/-! ### Reindexing an infinite product -/

theorem infinitePi_comp {ι J C : Type} [MeasurableSpace C] (γ : Measure C) [IsProbabilityMeasure γ] (g : J → ι)
    (hg : Function.Injective g) :
    (Measure.infinitePi fun _ : ι => γ).map (fun k j => k (g j)) = Measure.infinitePi fun _ : J => γ := by
  classical
  refine Measure.eq_infinitePi _ fun s t ht => ?_
  have hmeas : Measurable (fun (k : ι → C) j => k (g j)) := by fun_prop
  rw [Measure.map_apply hmeas (.pi s.countable_toSet fun _ _ => ht _)]
  let t' : ι → Set C := fun i => if h : ∃ j, g j = i then t h.choose else Set.univ
  have ht' : ∀ j, t' (g j) = t j := by
    intro j
    have h : ∃ j', g j' = g j := ⟨j, rfl⟩
    simp only [t', dif_pos h]
    congr 1
    exact hg h.choose_spec
  have : (fun (k : ι → C) j => k (g j)) ⁻¹' ((s : Set J).pi t) = ((s.image g : Finset ι) : Set ι).pi t' := by
    ext k
    simp [ht']
  rw [this, Measure.infinitePi_pi]
  · rw [Finset.prod_image (fun a _ b _ h => hg h)]
    simp only [ht']
  · intro i hi
    obtain ⟨j, _, rfl⟩ := Finset.mem_image.1 hi
    rw [ht']
    exact ht j

theorem infinitePi_comp_curry {ι A B C : Type} [Fintype A] [MeasurableSpace C] (γ : Measure C)
    [IsProbabilityMeasure γ] (g : A × B → ι) (hg : Function.Injective g) :
    (Measure.infinitePi fun _ : ι => γ).map (fun k (a : A) (b : B) => k (g (a, b)))
      = Measure.pi fun _ => Measure.infinitePi fun _ => γ := by
  rw [← Measure.infinitePi_eq_pi, ← Measure.infinitePi_map_curry (fun (_ : A) (_ : B) => γ),
    ← infinitePi_comp γ g hg, Measure.map_map (by fun_prop) (by fun_prop)]
  rfl

/-! ### The generator -/

/-- The content of one cell of the generator: one value for every parameter of `uniform`, `randint` and `bernoulli`, an
exponential, a normal and a uniform number. -/
abbrev Cell : Type := (ℝ × ℝ → ℝ) × (ℤ × ℤ → ℤ) × (ℝ → Bool) × ℝ × ℝ × ℝ

open Classical in
/-- The law of a cell. -/
noncomputable def cellLaw : Measure Cell :=
  (Measure.infinitePi fun p : ℝ × ℝ => if p.1 < p.2 then uniformLaw p.1 p.2 else Measure.dirac 0).prod
    ((Measure.infinitePi fun p : ℤ × ℤ => if p.1 < p.2 then randintLaw p.1 p.2 else Measure.dirac 0).prod
      ((Measure.infinitePi fun p : ℝ => if 0 ≤ p ∧ p ≤ 1 then bernoulliLaw p else Measure.dirac true).prod
        ((expMeasure 1).prod ((gaussianReal 0 1).prod (uniformLaw 0 1)))))

open Classical in
private instance (p : ℝ × ℝ) : IsProbabilityMeasure (if p.1 < p.2 then uniformLaw p.1 p.2 else Measure.dirac 0) := by
  split_ifs with h
  · exact isProbabilityMeasure_uniformLaw h
  · infer_instance

open Classical in
private instance (p : ℤ × ℤ) : IsProbabilityMeasure (if p.1 < p.2 then randintLaw p.1 p.2 else Measure.dirac 0) := by
  split_ifs with h
  · exact isProbabilityMeasure_randintLaw h
  · infer_instance

open Classical in
private instance (p : ℝ) :
    IsProbabilityMeasure (if 0 ≤ p ∧ p ≤ 1 then bernoulliLaw p else Measure.dirac true) := by
  split_ifs with h
  · exact isProbabilityMeasure_bernoulliLaw h.1 h.2
  · infer_instance

private instance : IsProbabilityMeasure (uniformLaw 0 1) := isProbabilityMeasure_uniformLaw zero_lt_one

private instance : IsProbabilityMeasure (expMeasure 1) := isProbabilityMeasure_expMeasure zero_lt_one

instance : IsProbabilityMeasure cellLaw := by unfold cellLaw; infer_instance

/-- A key of the witness: a cell for each path of splits and each position in an array. -/
abbrev TreeKey : Type := List ℕ × ℕ × ℕ → Cell

/-- Independent cells. -/
noncomputable def treeLaw : Measure TreeKey := Measure.infinitePi fun _ => cellLaw

instance : IsProbabilityMeasure treeLaw := by unfold treeLaw; infer_instance

/-- The generator. -/
noncomputable def tree : JaxRandom TreeKey where
  prngKey _ _ := (fun _ => 0, fun _ => 0, fun _ => true, 0, 0, 0)
  split k _ i := fun z => k (i.val :: z.1, z.2)
  uniform k _ _ lo hi i j := (k ([], i, j)).1 (lo, hi)
  randint k _ _ lo hi i j := (k ([], i, j)).2.1 (lo, hi)
  bernoulli k p _ _ i j := (k ([], i, j)).2.2.1 p
  exponential k _ _ i j := (k ([], i, j)).2.2.2.1
  poisson k _ _ lam i j := natQuantile (poissonCdf (lam i j)) (k ([], i, j)).2.2.2.2.2
  multivariateNormal k _ d mean cov i :=
    WithLp.ofLp (WithLp.toLp 2 mean + Matrix.toEuclideanCLM (𝕜 := ℝ) (CFC.sqrt cov)
      (WithLp.toLp 2 fun j : Fin d => (k ([], i, j)).2.2.2.2.1))

theorem tree_split : IdealSplit tree treeLaw := by
  intro m
  have hm : Measurable (fun k : TreeKey => tree.split k m) := by
    refine measurable_pi_lambda _ fun i => measurable_pi_lambda _ fun z => ?_
    exact measurable_pi_apply _
  refine ⟨hm, ?_⟩
  exact infinitePi_comp_curry cellLaw (fun p : Fin m × (List ℕ × ℕ × ℕ) => (p.1.val :: p.2.1, p.2.2)) (by
    rintro ⟨a, b, c⟩ ⟨a', b', c'⟩ h
    simp only [Prod.mk.injEq, List.cons.injEq] at h
    obtain ⟨⟨h1, h2⟩, h3⟩ := h
    rw [Fin.ext h1, h2, h3])

theorem tree_cells {T : Type} [MeasurableSpace T] (n d : ℕ) (f : Fin n → Fin d → Cell → T)
    (hf : ∀ i j, Measurable (f i j)) :
    Measurable (fun (k : TreeKey) i j => f i j (k ([], i.val, j.val))) ∧
    treeLaw.map (fun (k : TreeKey) i j => f i j (k ([], i.val, j.val)))
      = Measure.pi fun i => Measure.pi fun j => cellLaw.map (f i j) := by
  have hp : ∀ i j, IsProbabilityMeasure (cellLaw.map (f i j)) := fun i j =>
    Measure.isProbabilityMeasure_map (hf i j).aemeasurable
  refine ⟨by fun_prop, ?_⟩
  have h1 := infinitePi_comp_curry cellLaw (fun p : Fin n × Fin d => (([] : List ℕ), p.1.val, p.2.val)) (by
    rintro ⟨a, b⟩ ⟨a', b'⟩ h
    simp only [Prod.mk.injEq, true_and] at h
    rw [Fin.ext h.1, Fin.ext h.2])
  have h2 : ∀ i, (Measure.pi fun _ : Fin d => cellLaw).map (fun c j => f i j (c j))
      = Measure.pi fun j => cellLaw.map (f i j) := fun i =>
    Measure.pi_map_pi (fun j => (hf i j).aemeasurable)
  have h3 : (Measure.pi fun _ : Fin n => Measure.pi fun _ : Fin d => cellLaw).map
      (fun c i j => f i j (c i j)) = Measure.pi fun i => Measure.pi fun j => cellLaw.map (f i j) := by
    simp only [← h2]
    have : ∀ i, IsProbabilityMeasure ((Measure.pi fun _ : Fin d => cellLaw).map (fun c j => f i j (c j))) :=
      fun i => by rw [h2]; infer_instance
    exact Measure.pi_map_pi (f := fun i (c : Fin d → Cell) j => f i j (c j)) (fun i => (by fun_prop : Measurable _).aemeasurable)
  rw [← h3, ← Measure.infinitePi_eq_pi (μ := fun _ : Fin d => cellLaw), ← h1, Measure.map_map (by fun_prop) (by fun_prop)]
  rfl

open Classical in
theorem tree_uniform : IdealUniform tree treeLaw := by
  intro n d lo hi h
  have hm : Measurable (fun c : Cell => c.1 (lo, hi)) := (measurable_pi_apply _).comp measurable_fst
  have e : cellLaw.map (fun c => c.1 (lo, hi)) = uniformLaw lo hi := by
    have h1 : MeasurePreserving (Prod.fst : Cell → _) cellLaw _ := measurePreserving_fst
    have h2 := (measurePreserving_eval_infinitePi
      (fun p : ℝ × ℝ => if p.1 < p.2 then uniformLaw p.1 p.2 else Measure.dirac 0) (lo, hi)).comp h1
    have h3 := h2.map_eq
    rw [if_pos h] at h3
    exact h3
  have := tree_cells n d (fun _ _ c => c.1 (lo, hi)) (fun _ _ => hm)
  rw [e] at this
  exact this

open Classical in
theorem tree_randint : IdealRandint tree treeLaw := by
  intro n d lo hi h
  have hm : Measurable (fun c : Cell => c.2.1 (lo, hi)) :=
    (measurable_pi_apply _).comp (measurable_fst.comp measurable_snd)
  have e : cellLaw.map (fun c => c.2.1 (lo, hi)) = randintLaw lo hi := by
    have h0 : MeasurePreserving (Prod.snd : Cell → _) cellLaw _ := measurePreserving_snd
    have h1 := measurePreserving_fst.comp h0
    have h2 := (measurePreserving_eval_infinitePi
      (fun p : ℤ × ℤ => if p.1 < p.2 then randintLaw p.1 p.2 else Measure.dirac 0) (lo, hi)).comp h1
    have h3 := h2.map_eq
    rw [if_pos h] at h3
    exact h3
  have := tree_cells n d (fun _ _ c => c.2.1 (lo, hi)) (fun _ _ => hm)
  rw [e] at this
  exact this

open Classical in
theorem tree_bernoulli : IdealBernoulli tree treeLaw := by
  intro n d p hp0 hp1
  have hm : Measurable (fun c : Cell => c.2.2.1 p) :=
    (measurable_pi_apply _).comp (measurable_fst.comp (measurable_snd.comp measurable_snd))
  have e : cellLaw.map (fun c => c.2.2.1 p) = bernoulliLaw p := by
    have h0 : MeasurePreserving (Prod.snd : Cell → _) cellLaw _ := measurePreserving_snd
    have h1 := measurePreserving_fst.comp (measurePreserving_snd.comp h0)
    have h2 := (measurePreserving_eval_infinitePi
      (fun p : ℝ => if 0 ≤ p ∧ p ≤ 1 then bernoulliLaw p else Measure.dirac true) p).comp h1
    have h3 := h2.map_eq
    rw [if_pos ⟨hp0, hp1⟩] at h3
    exact h3
  have := tree_cells n d (fun _ _ c => c.2.2.1 p) (fun _ _ => hm)
  rw [e] at this
  exact this

theorem tree_exponential : IdealExponential tree treeLaw := by
  intro n d
  have h0 : MeasurePreserving (Prod.snd : Cell → _) cellLaw _ := measurePreserving_snd
  have h1 := measurePreserving_fst.comp (measurePreserving_snd.comp (measurePreserving_snd.comp h0))
  have e : cellLaw.map (fun c => c.2.2.2.1) = expMeasure 1 := h1.map_eq
  have := tree_cells n d (fun _ _ c => c.2.2.2.1) (fun _ _ => h1.measurable)
  rw [e] at this
  exact this

theorem tree_poisson : IdealPoisson tree treeLaw := by
  intro n d
  have h0 : MeasurePreserving (Prod.snd : Cell → _) cellLaw _ := measurePreserving_snd
  have h1 := measurePreserving_snd.comp (measurePreserving_snd.comp (measurePreserving_snd.comp
    (measurePreserving_snd.comp h0)))
  have e : cellLaw.map (fun c => c.2.2.2.2.2) = uniformLaw 0 1 := h1.map_eq
  have hm : Measurable (fun c : Cell => c.2.2.2.2.2) := h1.measurable
  have hq : ∀ lam : ℝ, Measurable (natQuantile (poissonCdf lam)) := fun lam =>
    measurable_poissonQuantile.comp (measurable_const.prodMk measurable_id)
  refine ⟨?_, fun lam _ => ?_⟩
  · refine measurable_pi_lambda _ fun i => measurable_pi_lambda _ fun j => ?_
    have hl : Measurable fun z : TreeKey × (Fin n → Fin d → ℝ) => z.2 i j :=
      (measurable_pi_apply j).comp ((measurable_pi_apply i).comp measurable_snd)
    have hk : Measurable fun z : TreeKey × (Fin n → Fin d → ℝ) => (z.1 ([], i.val, j.val)).2.2.2.2.2 :=
      hm.comp ((measurable_pi_apply _).comp measurable_fst)
    exact measurable_poissonQuantile.comp (hl.prodMk hk)
  · have := (tree_cells n d (fun i j c => natQuantile (poissonCdf (lam i j)) c.2.2.2.2.2)
      (fun i j => (hq _).comp hm)).2
    have e2 : ∀ i j, cellLaw.map (fun c => natQuantile (poissonCdf (lam i j)) c.2.2.2.2.2)
        = poissonMeasure (lam i j).toNNReal := by
      intro i j
      rw [← map_poissonQuantile, ← e, Measure.map_map (hq _) hm]
      rfl
    simp only [e2] at this
    exact this

theorem tree_normal : IdealNormal tree treeLaw := by
  intro n d mean cov _
  have h0 : MeasurePreserving (Prod.snd : Cell → _) cellLaw _ := measurePreserving_snd
  have h1 := measurePreserving_fst.comp (measurePreserving_snd.comp (measurePreserving_snd.comp
    (measurePreserving_snd.comp h0)))
  have e : cellLaw.map (fun c => c.2.2.2.2.1) = gaussianReal 0 1 := h1.map_eq
  have hz := tree_cells n d (fun _ _ c => c.2.2.2.2.1) (fun _ _ => h1.measurable)
  rw [e] at hz
  let F : (Fin d → ℝ) → (Fin d → ℝ) := fun v => WithLp.ofLp (WithLp.toLp 2 mean +
    Matrix.toEuclideanCLM (𝕜 := ℝ) (CFC.sqrt cov) (WithLp.toLp 2 v))
  have hF : Measurable F := by fun_prop
  have hlaw : (Measure.pi fun _ : Fin d => gaussianReal 0 1).map F = normalLaw mean cov := by
    unfold normalLaw multivariateGaussian
    rw [← map_pi_eq_stdGaussian, Measure.map_map (by fun_prop) (by fun_prop), Measure.map_map (by fun_prop) (by fun_prop)]
    rfl
  have hFF : Measurable (fun (c : Fin n → Fin d → ℝ) i => F (c i)) := by fun_prop
  refine ⟨hFF.comp hz.1, ?_⟩
  have h2 : (Measure.pi fun _ : Fin n => Measure.pi fun _ : Fin d => gaussianReal 0 1).map (fun c i => F (c i))
      = Measure.pi fun _ => normalLaw mean cov := by
    simp only [← hlaw]
    have : IsProbabilityMeasure ((Measure.pi fun _ : Fin d => gaussianReal 0 1).map F) := by rw [hlaw]; infer_instance
    exact Measure.pi_map_pi (f := fun _ => F) fun _ => hF.aemeasurable
  rw [← h2, ← hz.2, Measure.map_map hFF hz.1]
  rfl

/-- The assumptions about `jax.random` are consistent. -/
theorem tree_ideal : IdealRandom tree treeLaw where
  prob := inferInstance
  split := tree_split
  uniform := tree_uniform
  randint := tree_randint
  exponential := tree_exponential
  bernoulli := tree_bernoulli
  poisson := tree_poisson
  normal := tree_normal

end BMI.Samplers
