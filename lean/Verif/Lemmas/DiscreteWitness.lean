import Verif.Lemmas.Discrete
import Verif.Lemmas.BmmWitness

/-! A generator that satisfies `IdealTfp` and `IdealUniform` together. -/

namespace BMI.Discrete

open MeasureTheory ProbabilityTheory BMI.Bmm BMI.Samplers

/-- Uniform numbers for every length. -/
abbrev Uniforms : Type := ∀ n : ℕ, Fin n → ℝ

instance : IsProbabilityMeasure ((volume : Measure ℝ).restrict (Set.Icc 0 1)) := ⟨by simp⟩

/-- Independent uniform numbers for every length. -/
noncomputable def uniformsLaw : Measure Uniforms :=
  Measure.infinitePi fun n : ℕ => Measure.pi fun _ : Fin n => (volume : Measure ℝ).restrict (Set.Icc 0 1)

instance : IsProbabilityMeasure uniformsLaw := by unfold uniformsLaw; infer_instance

/-- A key of the witness: answers, and uniform numbers, for every path of splits. -/
abbrev BitKey : Type := PathKey × (List ℕ → Uniforms)

/-- Independent answers on all paths. -/
noncomputable def bitKeyLaw : Measure BitKey := pathLaw.prod (Measure.infinitePi fun _ => uniformsLaw)

instance : IsProbabilityMeasure bitKeyLaw := by unfold bitKeyLaw; infer_instance

/-- The generator. -/
noncomputable def bitPath : Tfp BitKey where
  split k m i := (path.split k.1 m i, fun p => k.2 (i.val :: p))
  categorical k := path.categorical k.1
  normal k := path.normal k.1
  chi2 k := path.chi2 k.1
  cholesky := path.cholesky

theorem bitKey_fst {X : Type} [MeasurableSpace X] {f : PathKey → X} {ν : Measure X} (h : Measurable f ∧ pathLaw.map f = ν) :
    Measurable (fun k : BitKey => f k.1) ∧ bitKeyLaw.map (fun k => f k.1) = ν := by
  refine ⟨h.1.comp measurable_fst, ?_⟩
  have : bitKeyLaw.map Prod.fst = pathLaw := by
    unfold bitKeyLaw
    rw [Measure.map_fst_prod, measure_univ, one_smul]
  rw [← h.2, ← this, Measure.map_map h.1 measurable_fst]
  rfl

theorem bitPath_ideal : IdealTfp bitPath bitKeyLaw where
  prob := inferInstance
  split m := by
    obtain ⟨h1, h2⟩ := path_ideal.split m
    have g1 : Measurable fun (u : List ℕ → Uniforms) (i : Fin m) => fun p => u (i.val :: p) :=
      measurable_pi_lambda _ fun i => measurable_pi_lambda _ fun z => measurable_pi_apply _
    have g2 : (Measure.infinitePi fun _ : List ℕ => uniformsLaw).map (fun u (i : Fin m) => fun p => u (i.val :: p))
        = Measure.pi fun _ => Measure.infinitePi fun _ => uniformsLaw :=
      infinitePi_comp_curry uniformsLaw (fun p : Fin m × List ℕ => p.1.val :: p.2) (by
        rintro ⟨a, b⟩ ⟨a', b'⟩ h
        simp only [List.cons.injEq] at h
        rw [Fin.ext h.1, h.2])
    have p1 : MeasurePreserving (fun k => path.split k m) pathLaw (Measure.pi fun _ => pathLaw) := ⟨h1, h2⟩
    have p2 : MeasurePreserving (fun u (i : Fin m) => fun p => u (i.val :: p)) (Measure.infinitePi fun _ : List ℕ => uniformsLaw)
      (Measure.pi fun _ => Measure.infinitePi fun _ => uniformsLaw) := ⟨g1, g2⟩
    have p3 := (measurePreserving_arrowProdEquivProdArrow PathKey (List ℕ → Uniforms) (Fin m) (fun _ => pathLaw)
      (fun _ => Measure.infinitePi fun _ => uniformsLaw)).symm
    have p4 := p3.comp (p1.prod p2)
    exact ⟨p4.measurable, p4.map_eq⟩
  categorical_lt k := path_ideal.categorical_lt k.1
  categorical n probs h0 h1 := bitKey_fst (path_ideal.categorical n probs h0 h1)
  normal n d := bitKey_fst (path_ideal.normal n d)
  chi2 n ν hν := bitKey_fst (path_ideal.chi2 n ν hν)
  cholesky S hS := path_ideal.cholesky S hS

/-- The uniform numbers stored in the key. -/
def bitUniform (k : BitKey) (n : ℕ) : Fin n → ℝ := k.2 [] n

theorem bitUniform_ideal : IdealUniform bitUniform bitKeyLaw := by
  intro n
  have h1 := measurePreserving_eval_infinitePi (fun _ : List ℕ => uniformsLaw) []
  have h2 := measurePreserving_eval_infinitePi (fun n : ℕ => Measure.pi fun _ : Fin n => (volume : Measure ℝ).restrict (Set.Icc 0 1)) n
  have h3 : MeasurePreserving (Prod.snd : BitKey → _) bitKeyLaw (Measure.infinitePi fun _ => uniformsLaw) :=
    ⟨measurable_snd, by unfold bitKeyLaw; rw [Measure.map_snd_prod, measure_univ, one_smul]⟩
  have h4 : MeasurePreserving _ uniformsLaw _ := h2
  have h5 := h4.comp (h1.comp h3)
  exact ⟨h5.measurable, h5.map_eq⟩

end BMI.Discrete
