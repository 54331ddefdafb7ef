import Verif.Spec.MixtureTasks
import Verif.Lemmas.MixtureMore
import Verif.Lemmas.BmmMoments
import Verif.Props.BmmMixtureMI
import Verif.Props.BmmSampler
import Verif.Props.NormalTasks
import Verif.Props.Transforms

/-! Helper lemmas for the mixture tasks. -/

namespace BMI.MixtureTasks

open MeasureTheory ProbabilityTheory BMI.Samplers BMI.Bmm BMI.Student

variable {Key : Type} [MeasurableSpace Key] {T : Tfp Key} {κ : Measure Key}

theorem diag_ofFn {d : ℕ} (v : Fin d → ℝ) : diag (List.ofFn v) = rowsOf (Matrix.diagonal v) := by
  unfold diag rowsOf
  refine List.ext_getElem (by simp) fun i h1 h2 => ?_
  refine List.ext_getElem (by simp) fun j h3 h4 => ?_
  simp [Matrix.diagonal_apply]

theorem component_eq (dx dy : ℕ) (mean : Fin (dx + dy) → ℝ) (cov : Matrix (Fin (dx + dy)) (Fin (dx + dy)) ℝ) :
    component dx dy mean cov = splitNormal dx dy mean cov := rfl

instance (dx dy : ℕ) (mean : Fin (dx + dy) → ℝ) (cov : Matrix (Fin (dx + dy)) (Fin (dx + dy)) ℝ) :
    IsProbabilityMeasure (component dx dy mean cov) :=
  Measure.isProbabilityMeasure_map (measurable_parts dx dy).aemeasurable

/-- A normal component. -/
theorem normal_component (hT : IdealTfp T κ) (R : JaxRandom Key) (dx dy : ℕ) (hx : 0 < dx) (hy : 0 < dy)
    (mean : Fin (dx + dy) → ℝ) (cov : Matrix (Fin (dx + dy)) (Fin (dx + dy)) ℝ) (hpos : cov.PosDef) :
    ∃ J, multivariateNormalDistribution R T dx dy (rowsOf cov) (some (List.ofFn mean)) = .ok J ∧
      Consistent κ J Set.univ Set.univ (component dx dy mean cov) ∧ Tame J (component dx dy mean cov) := by
  obtain ⟨J, h1, -, h2⟩ := multivariateNormal_consistent hT R dx dy hx hy mean cov hpos
  exact ⟨J, h1, h2, tame_normal hT R dx dy mean cov hpos h1⟩

/-- A wrapped mixture. -/
theorem wraps_mixture (hT : IdealTfp T κ) (R : JaxRandom Key) {m dx dy : ℕ} (hx : 0 < dx) (hy : 0 < dy) (p : Fin m → ℝ)
    (h0 : ∀ j, 0 ≤ p j) (h1 : ∑ j, p j = 1) (J : Fin m → JointDistribution Key)
    (P : Fin m → Measure ((Fin dx → ℝ) × (Fin dy → ℝ))) (hJ : ∀ j, Consistent κ (J j) Set.univ Set.univ (P j))
    (ht : ∀ j, Tame (J j) (P j)) (size : ℕ) (hs : 0 < size) :
    ∃ M s, mixture T (List.ofFn p) (List.ofFn J) = .ok M ∧ bmmSampler M none (.seed 0) size = .ok s ∧
      Wraps R κ s size (mixtureLaw p P) := by
  haveI := fun j => (hJ j).prob
  obtain ⟨M, hM, -, hMC⟩ := mixture_consistent hT p h0 h1 J P hJ
  haveI := hMC.prob
  have hL := (tame_mixture T h0 h1 ht hM).memLp (pmi_density hMC).2.2.1
  have hne := (pmi_density hMC).2.2.2.1.2 (hL.integrable one_le_two)
  obtain ⟨s, hsam⟩ := (bmmSampler_accepts_iff M none (.seed 0) size).1.2
    ⟨by rw [hMC.dimX]; exact hx, by rw [hMC.dimY]; exact hy, by exact_mod_cast hs⟩
  refine ⟨M, s, hM, hsam, ?_⟩
  obtain ⟨hd1, hd2⟩ := bmmSampler_sample R hMC none (.seed 0) size hsam
  obtain ⟨rfl, -⟩ := bmmSampler_ok hsam
  obtain ⟨v, e, g1, g2, g3⟩ := monteCarlo_estimate hMC size hs
  refine ⟨hMC.prob, hMC.dimX, hMC.dimY, rfl, ⟨fun rng => hd1 0 (by norm_num) rng, hd2⟩, hne, v, ?_, (g2 hne).2, _, hL, ?_,
    (g3 hL).1⟩
  · filter_upwards [g1] with k hk
    unfold BmmSampler.mutualInformation
    show Prod.fst (match monteCarloMiEstimate k M size with
      | .error e => _
      | .ok (v, err) => _) = _
    rw [hk]
  · have hd := (pmi_density hMC).1
    have hfin := (tame_mixture T h0 h1 ht hM)
    conv_lhs => rw [hd]
    congr 1
    funext z
    obtain ⟨A, -, hA⟩ := hfin.joint
    obtain ⟨B, -, hB⟩ := hfin.x
    obtain ⟨C, -, hC⟩ := hfin.y
    obtain ⟨a, ha, -⟩ := hA z
    obtain ⟨b, hb, -⟩ := hB z.1
    obtain ⟨c, hc, -⟩ := hC z.2
    have e : M.pmiAt (List.ofFn z.1) (List.ofFn z.2) = ((a - (b + c) : ℝ) : EReal) := by
      unfold JointDistribution.pmiAt
      have ha' : M.distJoint.logProb (List.ofFn z.1 ++ List.ofFn z.2) = a := ha
      simp only [ha', hb, hc]
      push_cast
      rfl
    rw [e, EReal.exp_coe, EReal.toReal_coe]

/-- Transforming a wrapper. -/
theorem draws_transformed (R : JaxRandom Key) {base : Sampler Key} {dx dy : ℕ} {P : Measure ((Fin dx → ℝ) × (Fin dy → ℝ))}
    [IsProbabilityMeasure P] (hdx : base.dimX = .ok dx) (hdy : base.dimY = .ok dy) (hx : 0 < dx) (hy : 0 < dy)
    (hP : Draws R κ base.sample P) {tx : Transform} {f : (Fin dx → ℝ) → (Fin dx → ℝ)} (hf : Measurable f) (htx : Acts tx f) :
    ∃ t, transformed base tx .none 0 0 = .ok t ∧ t.dimX = .ok dx ∧ t.dimY = .ok dy ∧ t.mi = base.mi ∧
      Draws R κ t.sample (P.map (Prod.map f id)) := by
  have h : transformed base tx .none 0 0 = .ok
      { dimX := .ok dx
        dimY := .ok dy
        sample := fun n rng => do
          let xy ← base.sample n rng
          .ok (tx.vectorized xy.1, Transform.none.vectorized xy.2)
        mi := base.mi } := by
    unfold transformed
    rw [if_neg (by norm_num), hdx, hdy]
    show (Except.bind (validateDimensions (dx + 0) (dy + 0)) fun _ => _) = _
    rw [validateDimensions_of (by omega) (by omega)]
    simp [Except.bind]
  refine ⟨_, h, rfl, rfl, rfl, fun rng => ?_, fun n hn => ?_⟩
  · show (Except.bind (base.sample 0 rng) fun _ => _) = _
    rw [hP.1]
    rfl
  · obtain ⟨draw, hm, hl, hd⟩ := hP.2 n hn
    have hfg : Measurable (Prod.map f (id : (Fin dy → ℝ) → Fin dy → ℝ)) := hf.prodMap measurable_id
    have hfg' : Measurable (fun (z : Fin n → (Fin dx → ℝ) × (Fin dy → ℝ)) i => Prod.map f id (z i)) :=
      measurable_pi_lambda _ fun i => hfg.comp (measurable_pi_apply i)
    refine ⟨fun k i => Prod.map f id (draw k i), hfg'.comp hm, ?_, fun rng => ?_⟩
    · have : IsProbabilityMeasure (P.map (Prod.map f (id : (Fin dy → ℝ) → Fin dy → ℝ))) :=
        Measure.isProbabilityMeasure_map hfg.aemeasurable
      have h2 := Measure.pi_map_pi (μ := fun _ : Fin n => P) (f := fun _ => Prod.map f id) (fun _ => hfg.aemeasurable)
      rw [← h2, ← hl, Measure.map_map hfg' hm]
      rfl
    · show (Except.bind (base.sample n rng) fun _ => _) = _
      rw [hd]
      show Except.ok _ = _
      rw [htx]
      rfl

/-- The wrapper as the base of a transformed sampler. -/
theorem asSampler_number (R : JaxRandom Key) {M : JointDistribution Key} {s : BmmSampler Key} {size : ℕ}
    (hs : bmmSampler M none (.seed 0) size = .ok s) :
    ∃ v, (s.mutualInformation R).1 = .ok v ∧ (asSampler R s).mi = v.toReal := by
  obtain ⟨-, -, -, hsize⟩ := bmmSampler_ok hs
  obtain ⟨⟨v, e⟩, hr⟩ := monteCarlo_ok (castToRng R (.seed 0)) M size hsize
  have hv := mutualInformation_none R hs hr
  refine ⟨v, hv, ?_⟩
  unfold asSampler
  simp only [hv]

theorem mapM_ofFn {α β : Type} {n : ℕ} {a : Fin n → α} {f : α → Except Err β} {g : Fin n → β} (h : ∀ i, f (a i) = .ok (g i)) :
    (List.ofFn a).mapM f = .ok (List.ofFn g) := by
  induction n with
  | zero => simp [List.ofFn_zero]; rfl
  | succ n ih =>
    rw [List.ofFn_succ, List.mapM_cons, h 0, ih fun i => h i.succ, List.ofFn_succ]
    rfl

/-- The base sampler and the transformed one together. -/
theorem bends_of (hκ : IsProbabilityMeasure κ) (R : JaxRandom Key) {M : JointDistribution Key} {base : BmmSampler Key} {size dx dy : ℕ}
    (hs : bmmSampler M none (.seed 0) size = .ok base) (hx : 0 < dx) (hy : 0 < dy)
    {P : Measure ((Fin dx → ℝ) × (Fin dy → ℝ))} (hW : Wraps R κ base size P) {tx : Transform}
    {f : (Fin dx → ℝ) → (Fin dx → ℝ)} (hf : Measurable f) (hi : Function.Injective f) (htx : Acts tx f) :
    ∃ t, transformed (asSampler R base) tx .none 0 0 = .ok t ∧ Bends R κ t base P (P.map (Prod.map f id)) := by
  haveI := hW.prob
  obtain ⟨t, h1, h2, h3, h4, h5⟩ := draws_transformed (base := asSampler R base) R (congrArg Except.ok hW.dimX)
    (congrArg Except.ok hW.dimY) hx hy hW.draws hf htx
  obtain ⟨v, hv, hm⟩ := asSampler_number R hs
  refine ⟨t, h1, h2, h3, h5, ?_, v, hv, h4.trans hm⟩
  exact mutualInfo_map_eq_of_injOn P hf measurable_id MeasurableSet.univ MeasurableSet.univ (by simp) (by simp) hi.injOn
    Function.injective_id.injOn

/-! ## Pairs of numbers -/

/-- Variances `vx` and `vy`, correlation `c`. -/
theorem pair_posDef {vx vy c : ℝ} (hx : 0 < vx) (hy : 0 < vy) (hc : |c| < 1) :
    (!![vx, c * √(vx * vy); c * √(vx * vy), vy] : Matrix (Fin 2) (Fin 2) ℝ).PosDef := by
  obtain ⟨h1, h2⟩ := abs_lt.1 hc
  have h := bivariateCov_posDef c (√vx) (√vy) (Real.sqrt_pos.2 hx) (Real.sqrt_pos.2 hy) h1 h2
  unfold bivariateCov at h
  rwa [Real.sq_sqrt hx.le, Real.sq_sqrt hy.le, mul_assoc, ← Real.sqrt_mul hx.le] at h

theorem pair_mi {vx vy c : ℝ} (hx : 0 < vx) (hy : 0 < vy) (hc : |c| < 1) (mean : Fin 2 → ℝ) :
    mutualInfo (component 1 1 mean !![vx, c * √(vx * vy); c * √(vx * vy), vy])
      = ENNReal.ofReal (-(1 / 2) * Real.log (1 - c ^ 2)) ∧ 0 ≤ -(1 / 2) * Real.log (1 - c ^ 2) := by
  have h := splitNormal_mi (dx := 1) (dy := 1) mean (pair_posDef hx hy hc)
  have e : (Real.log (blockX (dx := 1) (dy := 1) !![vx, c * √(vx * vy); c * √(vx * vy), vy]).det
      + Real.log (blockY (dx := 1) (dy := 1) !![vx, c * √(vx * vy); c * √(vx * vy), vy]).det
      - Real.log (!![vx, c * √(vx * vy); c * √(vx * vy), vy] : Matrix (Fin 2) (Fin 2) ℝ).det) / 2
      = -(1 / 2) * Real.log (1 - c ^ 2) := by
    have hd : (!![vx, c * √(vx * vy); c * √(vx * vy), vy] : Matrix (Fin 2) (Fin 2) ℝ).det = vx * vy * (1 - c ^ 2) := by
      rw [Matrix.det_fin_two_of]
      have := Real.mul_self_sqrt (mul_pos hx hy).le
      linear_combination (-c ^ 2) * this
    have h1 : (blockX (dx := 1) (dy := 1) !![vx, c * √(vx * vy); c * √(vx * vy), vy]).det = vx := by
      rw [Matrix.det_unique]
      rfl
    have h2 : (blockY (dx := 1) (dy := 1) !![vx, c * √(vx * vy); c * √(vx * vy), vy]).det = vy := by
      rw [Matrix.det_unique]
      rfl
    have hc2 : 0 < 1 - c ^ 2 := by
      have := (sq_lt_one_iff_abs_lt_one c).2 hc
      linarith
    rw [hd, h1, h2, Real.log_mul (mul_pos hx hy).ne' hc2.ne', Real.log_mul hx.ne' hy.ne']
    ring
  exact ⟨h.1.trans (by rw [← e]), by rw [← e]; exact h.2⟩

theorem unit_pair (c : ℝ) : (!![1, c; c, 1] : Matrix (Fin 2) (Fin 2) ℝ) = !![1, c * √(1 * 1); c * √(1 * 1), 1] := by simp

end BMI.MixtureTasks
