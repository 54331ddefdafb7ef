import Verif.Spec.AddNoise
import Verif.Lemmas.MutualInfo
import Mathlib.Probability.Independence.InfinitePi

/-!
C95: `add_noise` breaks ties; noise from independent generators creates no information, but the same key for both variables
(the default) gives both the same noise.
-/

namespace BMI.AddNoise

open MeasureTheory ProbabilityTheory InformationTheory BMI.PSpace BMI.AddNoise.Spec

variable {State : Type}

/-- C95: exactly negative keys and negative standard deviations are refused; otherwise the array keeps its shape, and the rows
are the rows of the points with noise from the generator for the key. -/
theorem addNoise_spec (G : Normals State) (points : Mat) (σ : ℝ) (key : ℤ) :
    (key < 0 ∨ σ < 0 → addNoise G points σ key = .error .valueError) ∧
    (0 ≤ key → 0 ≤ σ → ∃ r : Fin points.n → Fin points.d → ℝ, addNoise G points σ key = .ok ⟨points.n, points.d, r⟩ ∧
      (∀ i, r i = noisyRow G σ i (G.defaultRng key) (points.v i)) ∧ (σ = 0 → r = points.v)) := by
  constructor
  · intro h
    unfold addNoise normal
    by_cases hk : key < 0
    · rw [if_pos hk]
    · rw [if_neg hk]
      simp only [if_pos (h.resolve_left hk), bind, Except.bind]
  · intro hk hσ
    refine ⟨_, ?_, fun i => rfl, ?_⟩
    · unfold addNoise normal
      rw [if_neg (not_lt.2 hk)]
      simp only [if_neg (not_lt.2 hσ), bind, Except.bind]
      rfl
    · rintro rfl
      funext i j
      simp [noisyRow]

section

variable [MeasurableSpace State] {G : Normals State} {κ : Measure State} [IsProbabilityMeasure κ]

/-- Places of an array have different numbers. -/
theorem place_inj {n d : ℕ} {p q : Fin n × Fin d} (h : (p.1 : ℕ) * d + p.2 = q.1 * d + q.2) : p = q := by
  have hd : 0 < d := p.2.pos
  have h1 : (p.1 : ℕ) = q.1 := by
    have := congrArg (· / d) h
    simpa [Nat.add_div_of_dvd_right, Nat.mul_div_cancel _ hd, Nat.div_eq_of_lt, hd, mul_comm _ d,
      Nat.mul_add_div hd] using this
  have h2 : (p.2 : ℕ) = q.2 := by rw [h1] at h; omega
  exact Prod.ext (Fin.ext h1) (Fin.ext h2)

/-- C95: the entries are independent, each normal around the given number. -/
theorem entries_normal (hG : Ideal G κ) {n d : ℕ} (v : Fin n → Fin d → ℝ) (σ : ℝ) :
    iIndepFun (fun (p : Fin n × Fin d) s => noisyRow G σ p.1 s (v p.1) p.2) κ ∧
    ∀ (i : Fin n) (j : Fin d), κ.map (fun s => noisyRow G σ i s (v i) j) = gaussianReal (v i j) (σ ^ 2).toNNReal := by
  constructor
  · have h1 := hG.indep.precomp (g := fun p : Fin n × Fin d => (p.1 : ℕ) * d + p.2) fun p q h => place_inj h
    exact h1.comp (fun p t => v p.1 p.2 + σ * t) fun p => by fun_prop
  · intro i j
    have hm := hG.measurable ((i : ℕ) * d + j)
    have h1 : (fun s => noisyRow G σ i s (v i) j) = (fun t => v i j + t) ∘ (fun t => σ * t) ∘ fun s => G.stream s ((i : ℕ) * d + j) := rfl
    rw [h1, ← Measure.map_map (by fun_prop) (by fun_prop), ← Measure.map_map (by fun_prop) hm, hG.law,
      gaussianReal_map_const_mul, gaussianReal_map_const_add]
    congr 1
    · ring
    · rw [mul_one, Real.toNNReal_of_nonneg (sq_nonneg σ)]

/-- C95: with a positive standard deviation almost surely no two entries are equal. -/
theorem no_ties (hG : Ideal G κ) {n d : ℕ} (v : Fin n → Fin d → ℝ) {σ : ℝ} (hσ : 0 < σ) :
    ∀ᵐ s ∂κ, ∀ p q : Fin n × Fin d, p ≠ q → noisyRow G σ p.1 s (v p.1) p.2 ≠ noisyRow G σ q.1 s (v q.1) q.2 := by
  rw [ae_all_iff]
  intro p
  rw [ae_all_iff]
  intro q
  by_cases hpq : p = q
  · exact Filter.Eventually.of_forall fun s h => absurd hpq h
  obtain ⟨h1, h2⟩ := entries_normal hG v σ
  have hind := h1.indepFun hpq
  have hm : ∀ r : Fin n × Fin d, Measurable fun s => noisyRow G σ r.1 s (v r.1) r.2 := fun r => by
    unfold noisyRow
    have := hG.measurable ((r.1 : ℕ) * d + r.2)
    fun_prop
  rw [indepFun_iff_map_prod_eq_prod_map_map (hm p).aemeasurable (hm q).aemeasurable, h2, h2] at hind
  have hv : (σ ^ 2).toNNReal ≠ 0 := (Real.toNNReal_pos.2 (pow_pos hσ 2)).ne'
  have h0 : ((gaussianReal (v p.1 p.2) (σ ^ 2).toNNReal).prod (gaussianReal (v q.1 q.2) (σ ^ 2).toNNReal))
      {z : ℝ × ℝ | z.1 = z.2} = 0 := by
    have hms : MeasurableSet {z : ℝ × ℝ | z.1 = z.2} := measurableSet_eq_fun measurable_fst measurable_snd
    rw [Measure.prod_apply hms]
    haveI := noAtoms_gaussianReal (μ := v q.1 q.2) hv
    simp only [Set.preimage_setOf_eq, show ∀ x : ℝ, {y : ℝ | x = y} = {x} from fun x => by ext y; simp [eq_comm],
      measure_singleton, lintegral_zero]
  rw [← hind, Measure.map_apply ((hm p).prodMk (hm q)) (measurableSet_eq_fun measurable_fst measurable_snd)] at h0
  have : ∀ᵐ s ∂κ, ¬ noisyRow G σ p.1 s (v p.1) p.2 = noisyRow G σ q.1 s (v q.1) q.2 := by
    rw [ae_iff]
    simpa using h0
  filter_upwards [this] with s hs _ using hs

theorem measurable_noisyRow (hG : Ideal G κ) (σ : ℝ) (i d : ℕ) :
    Measurable fun z : (Fin d → ℝ) × State => noisyRow G σ i z.2 z.1 := by
  refine measurable_pi_lambda _ fun j => ?_
  unfold noisyRow
  have := hG.measurable (i * d + j)
  fun_prop

/-- C95, as far as it is true: noise from generators with independent states does not create information. -/
theorem fresh_noise_partial (hG : Ideal G κ) (σ σ' : ℝ) (i : ℕ) {dx dy : ℕ} (P : Measure ((Fin dx → ℝ) × (Fin dy → ℝ)))
    [IsProbabilityMeasure P] : mutualInfo (freshLaw G κ σ σ' i P) ≤ mutualInfo P := by
  have hx := measurable_noisyRow hG σ i dx
  have hy := measurable_noisyRow hG σ' i dy
  have hreg : Measurable (regroup : ((Fin dx → ℝ) × (Fin dy → ℝ)) × (State × State) → _) := by
    unfold regroup; fun_prop
  have h1 : freshLaw G κ σ σ' i P = ((P.prod (κ.prod κ)).map regroup).map
      (Prod.map (fun z : (Fin dx → ℝ) × State => noisyRow G σ i z.2 z.1) fun z : (Fin dy → ℝ) × State => noisyRow G σ' i z.2 z.1) := by
    rw [Measure.map_map (hx.prodMap hy) hreg]
    rfl
  haveI : IsProbabilityMeasure ((P.prod (κ.prod κ)).map regroup) := Measure.isProbabilityMeasure_map hreg.aemeasurable
  rw [h1]
  refine (mutualInfo_map_le _ hx hy).trans ?_
  rw [mutualInfo_regroup, mutualInfo_prod, add_zero]

/-- C95, where it fails: with the same key, arrays of the same shape get the same noise (scaled). -/
theorem shared_noise (G : Normals State) (x y : Mat) (hn : x.n = y.n) (hd : x.d = y.d) (σ σ' : ℝ) (hσ : 0 ≤ σ) (hσ' : 0 ≤ σ')
    (key : ℤ) (hk : 0 ≤ key) : ∃ rx ry, addNoise G x σ key = .ok ⟨x.n, x.d, rx⟩ ∧ addNoise G y σ' key = .ok ⟨y.n, y.d, ry⟩ ∧
      ∀ i j, σ' * (rx i j - x.v i j) = σ * (ry (i.cast hn) (j.cast hd) - y.v (i.cast hn) (j.cast hd)) := by
  obtain ⟨rx, h1, h2, -⟩ := (addNoise_spec G x σ key).2 hk hσ
  obtain ⟨ry, h3, h4, -⟩ := (addNoise_spec G y σ' key).2 hk hσ'
  refine ⟨rx, ry, h1, h3, fun i j => ?_⟩
  rw [h2, h4]
  simp only [noisyRow, Fin.val_cast, hd]
  ring

/-- C95 is false for the same key: two discrete variables, however independent of each other, become infinitely informative
about each other. -/
theorem shared_noise_infinite (hG : Ideal G κ) {σ σ' : ℝ} (hσ : 0 < σ) (hσ' : 0 < σ') (i : ℕ) {d : ℕ} (hd : 0 < d)
    (P : Measure ((Fin d → ℝ) × (Fin d → ℝ))) [IsProbabilityMeasure P] (hx : Discrete P.fst) (hy : Discrete P.snd) :
    mutualInfo (sharedLaw G κ σ σ' i P) = ⊤ := by
  obtain ⟨S, hS, hxS⟩ := hx
  obtain ⟨T, hT, hyT⟩ := hy
  have mx := measurable_noisyRow hG σ i d
  have my := measurable_noisyRow hG σ' i d
  have hmap : Measurable fun z : ((Fin d → ℝ) × (Fin d → ℝ)) × State =>
      (noisyRow G σ i z.2 z.1.1, noisyRow G σ' i z.2 z.1.2) :=
    (mx.comp (f := fun z : ((Fin d → ℝ) × (Fin d → ℝ)) × State => (z.1.1, z.2)) (by fun_prop)).prodMk
      (my.comp (f := fun z : ((Fin d → ℝ) × (Fin d → ℝ)) × State => (z.1.2, z.2)) (by fun_prop))
  let o : Fin d := ⟨0, hd⟩
  let D : Set ℝ := (fun p : (Fin d → ℝ) × (Fin d → ℝ) => σ' * p.1 o - σ * p.2 o) '' (S ×ˢ T)
  have hD : D.Countable := (hS.prod hT).image _
  let A : Set ((Fin d → ℝ) × (Fin d → ℝ)) := {p | σ' * p.1 o - σ * p.2 o ∈ D}
  have hA : MeasurableSet A := by
    have : Measurable fun p : (Fin d → ℝ) × (Fin d → ℝ) => σ' * p.1 o - σ * p.2 o := by fun_prop
    exact this hD.measurableSet
  haveI : IsProbabilityMeasure (sharedLaw G κ σ σ' i P) := Measure.isProbabilityMeasure_map hmap.aemeasurable
  -- the joint law lives on `A`
  have h1 : sharedLaw G κ σ σ' i P Aᶜ = 0 := by
    have ax : ∀ᵐ z ∂P, z.1 ∈ S := ae_of_ae_map measurable_fst.aemeasurable hxS
    have ay : ∀ᵐ z ∂P, z.2 ∈ T := ae_of_ae_map measurable_snd.aemeasurable hyT
    have : ∀ᵐ z ∂(P.prod κ), (noisyRow G σ i z.2 z.1.1, noisyRow G σ' i z.2 z.1.2) ∈ A := by
      have hq : ∀ᵐ z ∂(P.prod κ), z.1.1 ∈ S ∧ z.1.2 ∈ T :=
        Measure.quasiMeasurePreserving_fst.ae (ax.and ay)
      filter_upwards [hq] with z hz
      refine ⟨z.1, hz, ?_⟩
      simp only [noisyRow]
      ring
    unfold sharedLaw
    rw [Measure.map_apply hmap hA.compl]
    rw [ae_iff] at this
    exact this
  -- the first variable has no atoms
  have hfst : ∀ c : ℝ, (sharedLaw G κ σ σ' i P).fst {u | u o = c} = 0 := by
    intro c
    have hms : MeasurableSet {u : Fin d → ℝ | u o = c} := by
      have : Measurable fun u : Fin d → ℝ => u o := by fun_prop
      exact this (measurableSet_singleton c)
    rw [Measure.fst_apply hms]
    unfold sharedLaw
    rw [Measure.map_apply hmap (measurable_fst hms), Measure.prod_apply (hmap (measurable_fst hms))]
    simp only [Set.preimage_setOf_eq]
    refine lintegral_eq_zero_of_ae_eq_zero (Filter.Eventually.of_forall fun z => ?_)
    have hset : {s : State | noisyRow G σ i s z.1 o = c} = (fun s => G.stream s (i * d + (o : ℕ))) ⁻¹' {(c - z.1 o) / σ} := by
      ext s
      simp only [Set.mem_setOf_eq, Set.mem_preimage, Set.mem_singleton_iff, noisyRow, eq_div_iff hσ.ne']
      constructor <;> intro h <;> linarith
    simp only [Pi.zero_apply]
    rw [hset, ← Measure.map_apply (hG.measurable _) (measurableSet_singleton _), hG.law]
    haveI := noAtoms_gaussianReal (μ := 0) (v := 1) one_ne_zero
    exact measure_singleton _
  -- the product of the marginals does not see `A`
  have h2 : ((sharedLaw G κ σ σ' i P).fst.prod (sharedLaw G κ σ σ' i P).snd) A = 0 := by
    rw [Measure.prod_apply_symm hA]
    refine lintegral_eq_zero_of_ae_eq_zero (Filter.Eventually.of_forall fun w => ?_)
    simp only [Pi.zero_apply]
    have hsub : (fun u => (u, w)) ⁻¹' A ⊆ ⋃ t ∈ D, {u : Fin d → ℝ | u o = (t + σ * w o) / σ'} := by
      intro u hu
      simp only [Set.mem_iUnion, Set.mem_setOf_eq]
      refine ⟨_, hu, ?_⟩
      field_simp
      ring
    exact measure_mono_null hsub ((measure_biUnion_null_iff hD).2 fun t _ => hfst _)
  unfold mutualInfo
  refine klDiv_of_not_ac fun hac => ?_
  have h3 := hac h2
  have h4 := prob_compl_eq_zero_iff hA (μ := sharedLaw G κ σ σ' i P) |>.1 h1
  rw [h3] at h4
  exact zero_ne_one h4

end

/-! ### The hypotheses can be met -/

/-- A generator whose state is the whole sequence of numbers. -/
def exampleNormals : Normals (ℕ → ℝ) := ⟨fun _ _ => 0, fun s m => s m⟩

/-- The law of such a state. -/
noncomputable def exampleStates : Measure (ℕ → ℝ) := Measure.infinitePi fun _ => gaussianReal 0 1

instance : IsProbabilityMeasure exampleStates := by unfold exampleStates; infer_instance

theorem example_ideal : Ideal exampleNormals exampleStates :=
  ⟨fun m => measurable_pi_apply m, iIndepFun_infinitePi (X := fun _ => id) fun _ => measurable_id,
    fun m => Measure.infinitePi_map_eval _ m⟩

/-- Two constants have no mutual information; after noise with the same key it is infinite, after noise with independent
generators it is still zero. -/
theorem shared_noise_constants : let P := (Measure.dirac (fun _ : Fin 1 => (0 : ℝ))).prod (Measure.dirac fun _ : Fin 1 => (0 : ℝ))
    mutualInfo P = 0 ∧ mutualInfo (sharedLaw exampleNormals exampleStates 1e-5 1e-5 0 P) = ⊤ ∧
      mutualInfo (freshLaw exampleNormals exampleStates 1e-5 1e-5 0 P) = 0 := by
  intro P
  have h0 : mutualInfo P = 0 := mutualInfo_prod _ _
  refine ⟨h0, shared_noise_infinite example_ideal (by norm_num) (by norm_num) 0 one_pos P ?_ ?_,
    le_antisymm (h0 ▸ fresh_noise_partial example_ideal _ _ 0 P) bot_le⟩
  · refine ⟨{fun _ => 0}, Set.countable_singleton _, ?_⟩
    rw [Measure.fst_prod]
    simp
  · refine ⟨{fun _ => 0}, Set.countable_singleton _, ?_⟩
    rw [Measure.snd_prod]
    simp

example : ∀ᵐ s ∂exampleStates, ∀ p q : Fin 100 × Fin 3, p ≠ q →
    noisyRow exampleNormals 1e-5 p.1 s (fun _ => 7) p.2 ≠ noisyRow exampleNormals 1e-5 q.1 s (fun _ => 7) q.2 :=
  no_ties example_ideal (fun _ _ => 7) (by norm_num)

end BMI.AddNoise
