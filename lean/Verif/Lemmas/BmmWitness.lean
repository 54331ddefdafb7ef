import Verif.Lemmas.BmmMixture
import Verif.Lemmas.IdealWitness
import Verif.Lemmas.StudentWitness
import Mathlib.Analysis.Matrix.LDL

/-! A generator that satisfies `IdealTfp`: the assumptions are consistent. -/

namespace BMI.Bmm

open MeasureTheory ProbabilityTheory BMI.Samplers

/-- A positive-definite matrix has a Cholesky factor. -/
theorem exists_cholesky {d : ℕ} {S : Matrix (Fin d) (Fin d) ℝ} (hS : S.PosDef) :
    ∃ L : Matrix (Fin d) (Fin d) ℝ, (∀ i j, i < j → L i j = 0) ∧ L * L.transpose = S := by
  have hd : ∀ i, 0 ≤ LDL.diagEntries hS i := by
    intro i
    have h1 : (LDL.diag hS).PosSemidef := by
      rw [LDL.diag_eq_lowerInv_conj]
      exact hS.posSemidef.mul_mul_conjTranspose_same _
    have h2 := h1.diag_nonneg (i := i)
    simpa [LDL.diag] using h2
  have ht : Matrix.BlockTriangular (LDL.lowerInv hS) OrderDual.toDual := by
    intro i j hij
    exact LDL.lowerInv_triangular hS (OrderDual.toDual_lt_toDual.1 hij)
  have htri : Matrix.BlockTriangular (LDL.lower hS) OrderDual.toDual := Matrix.blockTriangular_inv_of_blockTriangular ht
  refine ⟨LDL.lower hS * Matrix.diagonal fun i => √(LDL.diagEntries hS i), fun i j hij => ?_, ?_⟩
  · rw [Matrix.mul_diagonal, htri (OrderDual.toDual_lt_toDual.2 hij), zero_mul]
  · rw [Matrix.transpose_mul, Matrix.diagonal_transpose, Matrix.mul_assoc, ← Matrix.mul_assoc (Matrix.diagonal _),
      Matrix.diagonal_mul_diagonal]
    simp only [Real.mul_self_sqrt (hd _)]
    have := LDL.lower_conj_diag hS
    rw [Matrix.conjTranspose_eq_transpose_of_trivial, Matrix.mul_assoc] at this
    exact this

/-- The answers stored in a key: selected indices, normal and χ² numbers for every choice of arguments. -/
abbrev Answers : Type :=
  (∀ a : ℕ × List ℝ, Fin a.1 → ℕ) × (∀ a : ℕ × ℕ, Fin a.1 → Fin a.2 → ℝ) × (∀ a : ℕ × ℝ, Fin a.1 → ℝ)

open Classical in
/-- The law of selected indices. -/
noncomputable def indexLaw (a : ℕ × List ℝ) : Measure (Fin a.1 → ℕ) :=
  if (∀ p ∈ a.2, 0 ≤ p) ∧ a.2.sum = 1 then Measure.pi fun _ => categoricalLaw a.2 else Measure.dirac 0

theorem categoricalLaw_prob' {l : List ℝ} (h0 : ∀ p ∈ l, 0 ≤ p) (h1 : l.sum = 1) :
    IsProbabilityMeasure (categoricalLaw l) := by
  have := categoricalLaw_prob (p := fun i : Fin l.length => l[i]) (fun j => h0 _ (List.getElem_mem _)) (by simpa using h1)
  simpa using this

instance (a : ℕ × List ℝ) : IsProbabilityMeasure (indexLaw a) := by
  unfold indexLaw
  split_ifs with h
  · haveI := categoricalLaw_prob' h.1 h.2
    infer_instance
  · infer_instance

open Classical in
/-- The law of χ² numbers. -/
noncomputable def chiLaw (a : ℕ × ℝ) : Measure (Fin a.1 → ℝ) :=
  if 0 < a.2 then Measure.pi fun _ => chiSquared a.2 else Measure.dirac 0

instance (a : ℕ × ℝ) : IsProbabilityMeasure (chiLaw a) := by
  unfold chiLaw
  split_ifs with h
  · haveI := Fact.mk h
    infer_instance
  · infer_instance

/-- Independent answers. -/
noncomputable def answersLaw : Measure Answers :=
  (Measure.infinitePi indexLaw).prod ((Measure.infinitePi fun a : ℕ × ℕ =>
    (Measure.pi fun _ : Fin a.1 => Measure.pi fun _ : Fin a.2 => gaussianReal 0 1)).prod (Measure.infinitePi chiLaw))

instance : IsProbabilityMeasure answersLaw := by unfold answersLaw; infer_instance

/-- A key of the witness: answers for every path of splits. -/
abbrev PathKey : Type := List ℕ → Answers

/-- Independent answers on all paths. -/
noncomputable def pathLaw : Measure PathKey := Measure.infinitePi fun _ => answersLaw

instance : IsProbabilityMeasure pathLaw := by unfold pathLaw; infer_instance

open Classical in
/-- The generator. -/
noncomputable def path : Tfp PathKey where
  split k _ i := fun p => k (i.val :: p)
  categorical k n probs i := (k []).1 (n, probs) i % probs.length
  normal k n d := (k []).2.1 (n, d)
  chi2 k n df := (k []).2.2 (n, df)
  cholesky S := if h : S.PosDef then (exists_cholesky h).choose else 0

theorem path_head {X : Type} [MeasurableSpace X] {f : Answers → X} (hf : Measurable f) :
    Measurable (fun k : PathKey => f (k [])) ∧ pathLaw.map (fun k => f (k [])) = answersLaw.map f := by
  have h := measurePreserving_eval_infinitePi (fun _ : List ℕ => answersLaw) []
  refine ⟨hf.comp h.measurable, ?_⟩
  rw [← h.map_eq, Measure.map_map hf h.measurable]
  rfl

theorem categoricalLaw_mod (l : List ℝ) : (categoricalLaw l).map (· % l.length) = categoricalLaw l := by
  refine Measure.ext fun s hs => ?_
  have hm : Measurable fun c : ℕ => c % l.length := measurable_of_countable _
  rw [Measure.map_apply hm hs]
  unfold categoricalLaw
  simp only [Measure.finset_sum_apply, Measure.smul_apply]
  refine Finset.sum_congr rfl fun j _ => ?_
  rw [Measure.dirac_apply' _ (hm hs), Measure.dirac_apply' _ hs]
  have : j.val ∈ (fun c => c % l.length) ⁻¹' s ↔ j.val ∈ s := by
    rw [Set.mem_preimage, Nat.mod_eq_of_lt j.2]
  by_cases h : j.val ∈ s
  · rw [Set.indicator_of_mem h, Set.indicator_of_mem (this.2 h)]
  · rw [Set.indicator_of_notMem h, Set.indicator_of_notMem (fun h' => h (this.1 h'))]

theorem path_ideal : IdealTfp path pathLaw where
  prob := inferInstance
  split m := by
    refine ⟨measurable_pi_lambda _ fun i => measurable_pi_lambda _ fun z => measurable_pi_apply _, ?_⟩
    exact infinitePi_comp_curry answersLaw (fun p : Fin m × List ℕ => p.1.val :: p.2) (by
      rintro ⟨a, b⟩ ⟨a', b'⟩ h
      simp only [List.cons.injEq] at h
      rw [Fin.ext h.1, h.2])
  categorical_lt k n probs i h := Nat.mod_lt _ (List.length_pos_iff.2 h)
  categorical n probs h0 h1 := by
    have hi := measurePreserving_eval_infinitePi indexLaw (n, probs)
    have hmod : Measurable fun (c : Fin n → ℕ) i => c i % probs.length := by
      refine measurable_pi_lambda _ fun i => ?_
      exact (measurable_of_countable fun c : ℕ => c % probs.length).comp (measurable_pi_apply i)
    obtain ⟨h2, h3⟩ := path_head (f := fun a i => a.1 (n, probs) i % probs.length)
      (hmod.comp (hi.measurable.comp measurable_fst))
    refine ⟨h2, h3.trans ?_⟩
    haveI := categoricalLaw_prob' h0 h1
    have e1 : answersLaw.map (Function.eval (n, probs) ∘ Prod.fst) = Measure.pi fun _ => categoricalLaw probs := by
      have : (answersLaw.map Prod.fst).map (Function.eval (n, probs)) = indexLaw (n, probs) := by
        unfold answersLaw
        rw [Measure.map_fst_prod, measure_univ, one_smul]
        exact hi.map_eq
      rw [Measure.map_map hi.measurable measurable_fst] at this
      refine this.trans ?_
      unfold indexLaw
      rw [if_pos ⟨h0, h1⟩]
    have hp : IsProbabilityMeasure ((categoricalLaw probs).map (· % probs.length)) := by
      rw [categoricalLaw_mod]; infer_instance
    have e2 := Measure.pi_map_pi (μ := fun _ : Fin n => categoricalLaw probs) (f := fun _ c => c % probs.length)
      (fun _ => (measurable_of_countable _).aemeasurable)
    simp only [categoricalLaw_mod] at e2
    rw [← e1, Measure.map_map hmod (hi.measurable.comp measurable_fst)] at e2
    refine Eq.trans ?_ (e2.trans ?_)
    · rfl
    · rw [e1]
  normal n d := by
    have hi := measurePreserving_eval_infinitePi (fun a : ℕ × ℕ =>
      (Measure.pi fun _ : Fin a.1 => Measure.pi fun _ : Fin a.2 => gaussianReal 0 1)) (n, d)
    obtain ⟨h2, h3⟩ := path_head (f := fun a => a.2.1 (n, d))
      (hi.measurable.comp (measurable_fst.comp measurable_snd))
    refine ⟨h2, h3.trans ?_⟩
    have : ((answersLaw.map Prod.snd).map Prod.fst).map (Function.eval (n, d))
        = Measure.pi fun _ : Fin n => Measure.pi fun _ : Fin d => gaussianReal 0 1 := by
      unfold answersLaw
      rw [Measure.map_snd_prod, measure_univ, one_smul, Measure.map_fst_prod, measure_univ, one_smul]
      exact hi.map_eq
    rw [Measure.map_map measurable_fst measurable_snd, Measure.map_map hi.measurable (measurable_fst.comp measurable_snd)] at this
    exact this
  chi2 n ν hν := by
    have hi := measurePreserving_eval_infinitePi chiLaw (n, ν)
    obtain ⟨h2, h3⟩ := path_head (f := fun a => a.2.2 (n, ν))
      (hi.measurable.comp (measurable_snd.comp measurable_snd))
    refine ⟨h2, h3.trans ?_⟩
    have : ((answersLaw.map Prod.snd).map Prod.snd).map (Function.eval (n, ν)) = chiLaw (n, ν) := by
      unfold answersLaw
      rw [Measure.map_snd_prod, measure_univ, one_smul, Measure.map_snd_prod, measure_univ, one_smul]
      exact hi.map_eq
    rw [Measure.map_map measurable_snd measurable_snd, Measure.map_map hi.measurable (measurable_snd.comp measurable_snd)] at this
    refine Eq.trans this ?_
    unfold chiLaw
    rw [if_pos hν]
  cholesky S hS := by
    have e : path.cholesky S = (exists_cholesky hS).choose := dif_pos hS
    rw [e]
    exact (exists_cholesky hS).choose_spec

end BMI.Bmm
