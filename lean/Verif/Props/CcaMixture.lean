import Verif.Lemmas.CcaMixture
import Verif.Props.KdeMixture

/-! C109: CCA on laws with normal marginals and on mixtures. -/

namespace BMI.Cca

open MeasureTheory ProbabilityTheory Filter Topology InformationTheory BMI.Cca.Spec BMI.Kde.Spec BMI.Consistency BMI.Samplers BMI.Student BMI.Bmm

variable {Key State : Type} [MeasurableSpace Key] {R : JaxRandom Key} {T : Tfp Key} {κ : Measure Key} {dx dy m : ℕ}

/-! ## Normal marginals -/

/-- **C109** If the marginals of a law are normal, then it encodes at least as much information as the normal law with the same
covariance, and more unless it is this law. -/
theorem normal_le_mi {P : Measure ((Fin dx → ℝ) × (Fin dy → ℝ))} [IsProbabilityMeasure P] (mean : Fin (dx + dy) → ℝ)
    {S : Matrix (Fin (dx + dy)) (Fin (dx + dy)) ℝ} (hS : S.PosDef) (h1 : P.fst = normalLaw (parts mean).1 (blockX S))
    (h2 : P.snd = normalLaw (parts mean).2 (blockY S)) (hP : HasCov P S) (hfin : mutualInfo P ≠ ⊤) :
    (mutualInfo (splitNormal dx dy mean S)).toReal ≤ (mutualInfo P).toReal ∧
    ((mutualInfo (splitNormal dx dy mean S)).toReal = (mutualInfo P).toReal ↔ P = splitNormal dx dy mean S) := by
  haveI : IsProbabilityMeasure (splitNormal dx dy mean S) := Measure.isProbabilityMeasure_map (measurable_parts dx dy).aemeasurable
  obtain ⟨a1, a2⟩ := info_split mean hS h1 h2 hP hfin
  have a3 : 0 ≤ (klDiv P (splitNormal dx dy mean S)).toReal := ENNReal.toReal_nonneg
  refine ⟨by linarith, fun h => ?_, fun h => by rw [← h]⟩
  have : (klDiv P (splitNormal dx dy mean S)).toReal = 0 := by linarith
  rcases (ENNReal.toReal_eq_zero_iff _).1 this with h0 | h0
  · exact klDiv_eq_zero_iff.1 h0
  · exact (a1 h0).elim

/-- **C109** On samples with normal marginals CCA never finds too much in the limit, and it finds the mutual information only if the
variables are jointly normal. -/
theorem cca_normal_marginals {s : Sampler Key} {P : Measure ((Fin dx → ℝ) × (Fin dy → ℝ))} [IsProbabilityMeasure P]
    (hs : Consistency.Draws κ s P) (mean : Fin (dx + dy) → ℝ) {S : Matrix (Fin (dx + dy)) (Fin (dx + dy)) ℝ} (hS : S.PosDef)
    (h1 : P.fst = normalLaw (parts mean).1 (blockX S)) (h2 : P.snd = normalLaw (parts mean).2 (blockY S)) (hP : HasCov P S)
    (hfin : mutualInfo P ≠ ⊤) {fit : (n : ℕ) → Fit n dx dy} {scale : Bool} (hfit : CanonicalFit fit scale) :
    ∃ v, ConvergesTo κ s (ccaGives fit scale) v ∧ v ≤ (mutualInfo P).toReal ∧
      (v = (mutualInfo P).toReal ↔ P = splitNormal dx dy mean S) :=
  ⟨_, (cca_converges hs hP hS hfit mean).2, normal_le_mi mean hS h1 h2 hP hfin⟩

/-! ## Mixtures -/

theorem spread_posDef {d : ℕ} {S : Matrix (Fin d) (Fin d) ℝ} (hS : S.PosDef) (df : Option ℝ) (h : ∀ ν ∈ df, 2 < ν) :
    (spread S df).PosDef := by
  cases df with
  | none => exact hS
  | some ν =>
    have : 2 < ν := h ν rfl
    exact hS.smul (div_pos (by linarith) (by linarith))

theorem mean_parts {Q : Measure (Fin (dx + dy) → ℝ)} (i : Fin (dx + dy)) :
    ∫ z, Fin.append z.1 z.2 i ∂(Q.map (parts (dx := dx) (dy := dy))) = ∫ z, z i ∂Q := by
  rw [integral_map (measurable_parts dx dy).aemeasurable (measurable_append i).aestronglyMeasurable]
  simp only [append_parts]

theorem ingredient_cov (mean : Fin (dx + dy) → ℝ) {S : Matrix (Fin (dx + dy)) (Fin (dx + dy)) ℝ} (hS : S.PosDef) (df : Option ℝ)
    (h : ∀ ν ∈ df, 2 < ν) : HasCov (ingredient dx dy mean S df) (spread S df) ∧
      ∀ i, ∫ z, Fin.append z.1 z.2 i ∂(ingredient dx dy mean S df) = mean i := by
  cases df with
  | none => exact ⟨normalLaw_hasCov mean hS.posSemidef, fun i => (mean_parts i).trans (MixtureTasks.normalLaw_moments mean hS.posSemidef i i).2.1⟩
  | some ν =>
    have hν : 2 < ν := h ν rfl
    exact ⟨hasCov_parts (fun i => studentLaw_memLp mean hν i) fun i j => studentLaw_covariance mean hS.posSemidef hν i j,
      fun i => (mean_parts i).trans (studentLaw_mean mean hν i)⟩

theorem wrapped_converges [IsProbabilityMeasure κ] {t : Sampler Key} {P : Measure ((Fin dx → ℝ) × (Fin dy → ℝ))} [IsProbabilityMeasure P]
    (h : MixtureTasks.Draws R κ t.sample P) {S : Matrix (Fin (dx + dy)) (Fin (dx + dy)) ℝ} (hP : HasCov P S) (hS : S.PosDef)
    {fit : (n : ℕ) → Fit n dx dy} {scale : Bool} (hfit : CanonicalFit fit scale) (mean : Fin (dx + dy) → ℝ) :
    ConvergesTo κ t (ccaGives fit scale) (mutualInfo (splitNormal dx dy mean S)).toReal :=
  Kde.converges_lenient (cca_converges (Kde.lenient_draws h) hP hS hfit mean).2

/-- **C109** On a wrapped mixture of normal and Student-t components (with more than two degrees of freedom) in any dimensions and
proportions, CCA finds the mutual information of normal variables with the covariance within and between the components. -/
theorem cca_mixture (hT : IdealTfp T κ) (N : NpRandom State) (hx : 0 < dx) (hy : 0 < dy) (p : Fin m → ℝ) (h0 : ∀ j, 0 ≤ p j)
    (h1 : ∑ j, p j = 1) (mean : Fin m → Fin (dx + dy) → ℝ) (S : Fin m → Matrix (Fin (dx + dy)) (Fin (dx + dy)) ℝ) (hS : ∀ j, (S j).PosDef)
    (df : Fin m → Option ℝ) (hdf : ∀ j, ∀ ν ∈ df j, 2 < ν) (size : ℕ) (hs : 0 < size) {fit : (n : ℕ) → Fit n dx dy} {scale : Bool}
    (hfit : CanonicalFit fit scale) :
    ∃ (J : Fin m → JointDistribution Key) (M : JointDistribution Key) (s : BmmSampler Key),
      (∀ j, (match df j with
        | none => multivariateNormalDistribution R T dx dy (rowsOf (S j)) (some (List.ofFn (mean j)))
        | some ν => multivariateStudentDistribution R N T dx dy ν (rowsOf (S j)) (some (List.ofFn (mean j)))) = .ok (J j)) ∧
      mixture T (List.ofFn p) (List.ofFn J) = .ok M ∧ bmmSampler M none (.seed 0) size = .ok s ∧
      mutualInfo (splitNormal dx dy 0 (mixtureCov p mean fun j => spread (S j) (df j))) ≠ ⊤ ∧
      ConvergesTo κ (MixtureTasks.asSampler R s) (ccaGives fit scale)
        (mutualInfo (splitNormal dx dy 0 (mixtureCov p mean fun j => spread (S j) (df j)))).toReal := by
  haveI := hT.prob
  have key : ∀ j, ∃ J : JointDistribution Key, (match df j with
        | none => multivariateNormalDistribution R T dx dy (rowsOf (S j)) (some (List.ofFn (mean j)))
        | some ν => multivariateStudentDistribution R N T dx dy ν (rowsOf (S j)) (some (List.ofFn (mean j)))) = .ok J ∧
      Consistent κ J Set.univ Set.univ (ingredient dx dy (mean j) (S j) (df j)) ∧
      mutualInfo (ingredient dx dy (mean j) (S j) (df j)) ≠ ⊤ := by
    intro j
    cases hj : df j with
    | none =>
      obtain ⟨J, a1, -, a2⟩ := multivariateNormal_consistent hT R dx dy hx hy (mean j) (S j) (hS j)
      refine ⟨J, a1, a2, ?_⟩
      have := (splitNormal_mi (dx := dx) (dy := dy) (mean j) (hS j)).1
      exact fun h => ENNReal.ofReal_ne_top (this.symm.trans h)
    | some ν =>
      have hν : 0 < ν := by linarith [hdf j ν hj]
      obtain ⟨J, a1, -, a2⟩ := multivariateStudent_consistent hT R N dx dy hx hy (mean j) (S j) (hS j) ν hν
      refine ⟨J, a1, a2, ?_⟩
      have := (splitStudent_mi (dx := dx) (dy := dy) (mean j) (hS j) hν).1
      exact fun h => ENNReal.ofReal_ne_top (this.symm.trans h)
  choose J a1 a2 a3 using key
  obtain ⟨M, b1, b2, b3, -, -, -⟩ := mixture_mi_le hT p h0 h1 J _ a2 a3
  haveI := b2.prob
  haveI := fun j => (a2 j).prob
  obtain ⟨s, hsam⟩ := (bmmSampler_accepts_iff M none (.seed 0) size).1.2
    ⟨by rw [b2.dimX]; exact hx, by rw [b2.dimY]; exact hy, by exact_mod_cast hs⟩
  obtain ⟨hd1, hd2⟩ := bmmSampler_sample R b2 none (.seed 0) size hsam
  have hpos := mixtureCov_posDef h0 h1 mean fun j => spread_posDef (hS j) (df j) (hdf j)
  refine ⟨J, M, s, a1, b1, hsam, by rw [(splitNormal_mi 0 hpos).1]; exact ENNReal.ofReal_ne_top, ?_⟩
  exact wrapped_converges (R := R) (t := MixtureTasks.asSampler R s) (P := mixtureLaw p fun j => ingredient dx dy (mean j) (S j) (df j))
    ⟨fun rng => hd1 0 (by norm_num) rng, hd2⟩
    (hasCov_mixture h0 h1 (fun j i => (ingredient_cov (mean j) (hS j) (df j) (hdf j)).2 i) fun j => (ingredient_cov (mean j) (hS j) (df j) (hdf j)).1)
    hpos hfit 0

/-! ## The mixture tasks -/

theorem component_cov (mean : Fin (dx + dy) → ℝ) {S : Matrix (Fin (dx + dy)) (Fin (dx + dy)) ℝ} (hS : S.PosDef) :
    HasCov (MixtureTasks.component dx dy mean S) S ∧ ∀ i, ∫ z, Fin.append z.1 z.2 i ∂(MixtureTasks.component dx dy mean S) = mean i :=
  ingredient_cov mean hS none fun ν h => by cases h

theorem component_prob (mean : Fin (dx + dy) → ℝ) (S : Matrix (Fin (dx + dy)) (Fin (dx + dy)) ℝ) :
    IsProbabilityMeasure (MixtureTasks.component dx dy mean S) := Measure.isProbabilityMeasure_map (measurable_parts dx dy).aemeasurable

theorem components_cov {w : Fin m → ℝ} (h0 : ∀ j, 0 ≤ w j) (h1 : ∑ j, w j = 1) (mean : Fin m → Fin (dx + dy) → ℝ)
    {S : Fin m → Matrix (Fin (dx + dy)) (Fin (dx + dy)) ℝ} (hS : ∀ j, (S j).PosDef) :
    HasCov (mixtureLaw w fun j => MixtureTasks.component dx dy (mean j) (S j)) (mixtureCov w mean S) := by
  haveI := fun j => component_prob (mean j) (S j)
  exact hasCov_mixture h0 h1 (fun j i => (component_cov (mean j) (hS j)).2 i) fun j => (component_cov (mean j) (hS j)).1

theorem wraps_cca [IsProbabilityMeasure κ] {s : BmmSampler Key} {size : ℕ} {P : Measure ((Fin dx → ℝ) × (Fin dy → ℝ))}
    (h : MixtureTasks.Wraps R κ s size P) {S : Matrix (Fin (dx + dy)) (Fin (dx + dy)) ℝ} (hP : HasCov P S) (hS : S.PosDef)
    {fit : (n : ℕ) → Fit n dx dy} {scale : Bool} (hfit : CanonicalFit fit scale) :
    ConvergesTo κ (MixtureTasks.asSampler R s) (ccaGives fit scale)
      ((Real.log (blockX S).det + Real.log (blockY S).det - Real.log S.det) / 2) := by
  haveI := h.prob
  have := wrapped_converges (R := R) (t := MixtureTasks.asSampler R s) h.draws hP hS hfit 0
  rwa [(splitNormal_mi 0 hS).1, ENNReal.toReal_ofReal (splitNormal_mi 0 hS).2] at this

theorem diagonal_number (v : Fin (dx + dy) → ℝ) (hv : ∀ i, 0 < v i) :
    (Real.log (blockX (Matrix.diagonal v)).det + Real.log (blockY (Matrix.diagonal v)).det - Real.log (Matrix.diagonal v).det) / 2 = 0 := by
  have h := (splitNormal_diagonal 0 v hv).1
  rw [(splitNormal_mi 0 (Matrix.PosDef.diagonal hv)).1, ENNReal.ofReal_eq_zero] at h
  exact le_antisymm h (splitNormal_mi 0 (Matrix.PosDef.diagonal hv)).2

theorem pair_number {a b c : ℝ} (ha : 0 < a) (hb : 0 < b) (hc : c ^ 2 < a * b) :
    (Real.log (blockX (dx := 1) (dy := 1) !![a, c; c, b]).det + Real.log (blockY (dx := 1) (dy := 1) !![a, c; c, b]).det
      - Real.log (!![a, c; c, b] : Matrix (Fin (1 + 1)) (Fin (1 + 1)) ℝ).det) / 2 = -(1 / 2) * Real.log (1 - c ^ 2 / (a * b)) := by
  have e1 : (blockX (dx := 1) (dy := 1) !![a, c; c, b]).det = a := Matrix.det_fin_one _
  have e2 : (blockY (dx := 1) (dy := 1) !![a, c; c, b]).det = b := Matrix.det_fin_one _
  have e3 : (!![a, c; c, b] : Matrix (Fin (1 + 1)) (Fin (1 + 1)) ℝ).det = a * b * (1 - c ^ 2 / (a * b)) := by
    refine (Matrix.det_fin_two_of a c c b).trans ?_
    field_simp
  have h1 : 0 < 1 - c ^ 2 / (a * b) := by
    rw [sub_pos, div_lt_one (by positivity)]
    exact hc
  rw [e1, e2, e3, Real.log_mul (by positivity) h1.ne', Real.log_mul ha.ne' hb.ne']
  ring

open MixtureTasks in
/-- **C109** X: CCA finds nothing, and the mutual information is positive unless `ρ = 0`. -/
theorem cca_taskX (hT : IdealTfp T κ) (ρ : ℝ) (hρ : |ρ| < 1) (size : ℕ) (hs : 0 < size) {fit : (n : ℕ) → Fit n 1 1} {scale : Bool}
    (hfit : CanonicalFit fit scale) :
    ∃ s, taskX R T ρ size = .ok s ∧ Wraps R κ s size (lawX ρ) ∧ ConvergesTo κ (asSampler R s) (ccaGives fit scale) 0 ∧
      (0 < (mutualInfo (lawX ρ)).toReal ↔ ρ ≠ 0) := by
  haveI := hT.prob
  obtain ⟨s, h1, h2, -⟩ := taskX_correct hT R ρ hρ size hs
  have hpos : ∀ j : Fin 2, (!![1, ![-ρ, ρ] j; ![-ρ, ρ] j, 1] : Matrix (Fin 2) (Fin 2) ℝ).PosDef := fun j => by
    rw [unit_pair]
    exact pair_posDef one_pos one_pos (by fin_cases j <;> simpa using hρ)
  have hc := components_cov (dx := 1) (dy := 1) Kde.half_weights.1 Kde.half_weights.2 (fun _ => 0) hpos
  have e : mixtureCov ![1 / 2, 1 / 2] (fun _ => (0 : Fin (1 + 1) → ℝ)) (fun j : Fin 2 => !![1, ![-ρ, ρ] j; ![-ρ, ρ] j, 1])
      = Matrix.diagonal (1 : Fin (1 + 1) → ℝ) := by
    ext a b
    fin_cases a <;> fin_cases b <;> simp [mixtureCov, mixtureMean, Fin.sum_univ_two] <;> norm_num
  rw [e] at hc
  have k := wraps_cca h2 hc (Matrix.PosDef.diagonal fun _ => one_pos) hfit
  rw [diagonal_number (dx := 1) (dy := 1) 1 fun _ => one_pos] at k
  refine ⟨s, h1, h2, k, ?_⟩
  rw [ENNReal.toReal_pos_iff, pos_iff_ne_zero, lt_top_iff_ne_top, ne_eq, ne_eq, (lawX_mi_zero_iff ρ hρ).2]
  exact and_iff_left h2.finite

open MixtureTasks in
/-- **C109** Concentric normal distributions: CCA finds nothing, and the mutual information is positive if there are at least two of
them. -/
theorem cca_taskConcentric (hT : IdealTfp T κ) (d n : ℕ) (hd : 0 < d) (hn : 0 < n) (size : ℕ) (hs : 0 < size)
    {fit : (n : ℕ) → Fit n d 1} {scale : Bool} (hfit : CanonicalFit fit scale) :
    ∃ s, taskConcentric R T d n size = .ok s ∧ Wraps R κ s size (lawConcentric d n) ∧
      ConvergesTo κ (asSampler R s) (ccaGives fit scale) 0 ∧ (0 < (mutualInfo (lawConcentric d n)).toReal ↔ n ≠ 1) := by
  haveI := hT.prob
  obtain ⟨s, h1, h2, -⟩ := taskConcentric_correct hT R d n hd hn size hs
  have hv : ∀ (j : Fin n) i, 0 < Fin.append (fun _ : Fin d => (((j : ℕ) : ℝ) + 1) ^ 2) (fun _ : Fin 1 => (1 / 10000 : ℝ)) i :=
    fun j i => by
      refine Fin.addCases (fun i => ?_) (fun i => ?_) i
      · rw [Fin.append_left]
        positivity
      · rw [Fin.append_right]
        norm_num
  have w := Kde.uniform_weights hn
  set mean : Fin n → Fin (d + 1) → ℝ := fun j => Fin.append 0 fun _ => ((j : ℕ) : ℝ) + 1 with hmean
  set S : Fin n → Matrix (Fin (d + 1)) (Fin (d + 1)) ℝ :=
    fun j => Matrix.diagonal (Fin.append (fun _ => (((j : ℕ) : ℝ) + 1) ^ 2) fun _ => 1 / 10000) with hSd
  have hpos := mixtureCov_posDef w.1 w.2 mean (S := S) fun j => Matrix.PosDef.diagonal (hv j)
  have hc := components_cov (dx := d) (dy := 1) w.1 w.2 mean (S := S) fun j => Matrix.PosDef.diagonal (hv j)
  have e : mixtureCov (fun _ : Fin n => 1 / (n : ℝ)) mean S = Matrix.diagonal fun i => mixtureCov (fun _ : Fin n => 1 / (n : ℝ)) mean S i i := by
    ext a b
    rw [Matrix.diagonal_apply]
    split_ifs with hab
    · rw [hab]
    · revert hab
      refine Fin.addCases (fun a => ?_) (fun a => ?_) a <;> refine Fin.addCases (fun b => ?_) (fun b => ?_) b <;> intro hab
      · simp [mixtureCov, mixtureMean, hmean, hSd, Matrix.diagonal_apply_ne _ hab]
      · simp [mixtureCov, mixtureMean, hmean, hSd, Matrix.diagonal_apply_ne _ hab]
      · simp [mixtureCov, mixtureMean, hmean, hSd, Matrix.diagonal_apply_ne _ hab]
      · exact (hab (by rw [Subsingleton.elim a b])).elim
  have hdiag : ∀ i, 0 < mixtureCov (fun _ : Fin n => 1 / (n : ℝ)) mean S i i := fun i => hpos.diag_pos
  have k := wraps_cca h2 hc hpos hfit
  rw [e, diagonal_number _ hdiag] at k
  refine ⟨s, h1, h2, k, ?_⟩
  rw [ENNReal.toReal_pos_iff, pos_iff_ne_zero, lt_top_iff_ne_top, ne_eq, ne_eq, (lawConcentric_mi_zero_iff hT R d n hd hn).2]
  exact and_iff_left h2.finite

open MixtureTasks in
/-- **C109** AI: CCA finds about 0.00114 nats. -/
theorem cca_taskAi (hT : IdealTfp T κ) (size : ℕ) (hs : 0 < size) {fit : (n : ℕ) → Fit n 1 1} {scale : Bool}
    (hfit : CanonicalFit fit scale) :
    ∃ s, taskAi R T size = .ok s ∧ Wraps R κ s size lawAi ∧
      ConvergesTo κ (asSampler R s) (ccaGives fit scale) (-(1 / 2) * Real.log (1 - 18 / 7909)) := by
  haveI := hT.prob
  obtain ⟨s, h1, h2, -⟩ := taskAi_correct hT R size hs
  have hc : ∀ j, |(strokes j).2.2| < 1 := fun j => by
    fin_cases j <;> norm_num [strokes, abs_of_pos, abs_of_neg]
  have hv : ∀ j, 0 < (strokes j).2.1.1 ∧ 0 < (strokes j).2.1.2 := fun j => by fin_cases j <;> norm_num [strokes]
  have hpos := fun j => pair_posDef (hv j).1 (hv j).2 (hc j)
  have hcov := components_cov (dx := 1) (dy := 1) (w := fun _ : Fin 6 => 1 / 6) (by norm_num) (by norm_num)
    (fun j => ![(strokes j).1.1, (strokes j).1.2]) hpos
  have e : mixtureCov (fun _ : Fin 6 => 1 / 6) (fun j => (![(strokes j).1.1, (strokes j).1.2] : Fin (1 + 1) → ℝ))
      (fun j => !![(strokes j).2.1.1, (strokes j).2.2 * √((strokes j).2.1.1 * (strokes j).2.1.2);
        (strokes j).2.2 * √((strokes j).2.1.1 * (strokes j).2.1.2), (strokes j).2.1.2])
      = !![9 / 10, 3 / 100; 3 / 100, 7909 / 18000] := by
    ext a b
    fin_cases a <;> fin_cases b <;> simp [mixtureCov, mixtureMean, Fin.sum_univ_six, strokes] <;> ring
  rw [e] at hcov
  have hp : (!![9 / 10, 3 / 100; 3 / 100, 7909 / 18000] : Matrix (Fin (1 + 1)) (Fin (1 + 1)) ℝ).PosDef := by
    rw [← e]
    exact mixtureCov_posDef (by norm_num) (by norm_num) _ hpos
  have k := wraps_cca h2 hcov hp hfit
  rw [pair_number (by norm_num) (by norm_num) (by norm_num)] at k
  refine ⟨s, h1, h2, ?_⟩
  norm_num at k ⊢
  exact k

/-! ### Inliers -/

open MixtureTasks in
theorem inliers_components (dx dy k : ℕ) (hkx : k ≤ dx) (strength ε : ℝ) :
    lawInliers dx dy k strength ε
      = mixtureLaw ![1 - ε, ε] fun j : Fin 2 => component dx dy 0 (![pairs dx dy k (strength ^ 2 / (1 + strength ^ 2)), 1] j) := by
  have hpos := pairs_posDef (dx := dx) (dy := dy) hkx (strength_lt strength)
  unfold lawInliers
  congr 1
  funext j
  fin_cases j
  · rfl
  · show (lawSignal dx dy k strength).fst.prod (lawSignal dx dy k strength).snd = component dx dy 0 1
    have h1 : (lawSignal dx dy k strength).fst = normalLaw 0 1 := by
      refine (splitNormal_fst 0 hpos.posSemidef).trans ?_
      congr 1
      ext i j
      simp [blockX, (pairs_isCanonical dx dy k hkx _).xx, Matrix.one_apply]
    have h2 : (lawSignal dx dy k strength).snd = normalLaw 0 1 := by
      refine (splitNormal_snd 0 hpos.posSemidef).trans ?_
      congr 1
      ext i j
      simp [blockY, (pairs_isCanonical dx dy k hkx _).yy, Matrix.one_apply]
    have h3 := (splitNormal_diagonal (dx := dx) (dy := dy) 0 1 fun _ => one_pos).2
    rw [show Matrix.diagonal (1 : Fin (dx + dy) → ℝ) = 1 from Matrix.diagonal_one] at h3
    rw [h1, h2]
    refine Eq.trans ?_ h3.symm
    congr 2 <;> exact Matrix.diagonal_one.symm

theorem pairs_zero (dx dy k : ℕ) : pairs dx dy k 0 = 1 := by
  ext a b
  simp [pairs, Matrix.one_apply]

theorem pairs_none (dx dy : ℕ) (c : ℝ) : pairs dx dy 0 c = 1 := by
  ext a b
  simp [pairs, Matrix.one_apply]

open MixtureTasks in
/-- **C109** Sparse with inliers: CCA finds the mutual information of pairs with correlations reduced by the fraction of inliers; this
is too small, except if there are no inliers or nothing else, or nothing interacts. -/
theorem cca_taskInliers (hT : IdealTfp T κ) (dx dy k : ℕ) (hx : 0 < dx) (hy : 0 < dy) (hkx : k ≤ dx) (hky : k ≤ dy) (strength ε : ℝ)
    (h0 : 0 ≤ ε) (h1 : ε ≤ 1) (size : ℕ) (hs : 0 < size) {fit : (n : ℕ) → Fit n dx dy} {scale : Bool} (hfit : CanonicalFit fit scale) :
    ∃ s, taskInliers R T dx dy k strength ε size = .ok s ∧ Wraps R κ s size (lawInliers dx dy k strength ε) ∧
      ConvergesTo κ (asSampler R s) (ccaGives fit scale)
        (-(k / 2 * Real.log (1 - ((1 - ε) * (strength ^ 2 / (1 + strength ^ 2))) ^ 2))) ∧
      -(k / 2 * Real.log (1 - ((1 - ε) * (strength ^ 2 / (1 + strength ^ 2))) ^ 2)) ≤ (mutualInfo (lawInliers dx dy k strength ε)).toReal ∧
      (-(k / 2 * Real.log (1 - ((1 - ε) * (strength ^ 2 / (1 + strength ^ 2))) ^ 2)) = (mutualInfo (lawInliers dx dy k strength ε)).toReal
        ↔ ε = 0 ∨ ε = 1 ∨ k = 0 ∨ strength = 0) := by
  haveI := hT.prob
  obtain ⟨s, a1, a2, a3, a4, -⟩ := taskInliers_correct hT R dx dy k hx hy hkx hky strength ε h0 h1 size hs
  haveI := a2.prob
  have hcs : 0 ≤ strength ^ 2 / (1 + strength ^ 2) := by positivity
  have hlt := strength_lt strength
  have hz : strength ^ 2 / (1 + strength ^ 2) = 0 ↔ strength = 0 := by
    rw [div_eq_zero_iff]
    constructor
    · rintro (h | h)
      · simpa using h
      · nlinarith [sq_nonneg strength]
    · rintro rfl
      simp
  have hlaw := inliers_components dx dy k hkx strength ε
  set c := strength ^ 2 / (1 + strength ^ 2) with hcd
  have hpos := pairs_posDef (dx := dx) (dy := dy) (k := k) hkx hlt
  have hw0 : ∀ j : Fin 2, 0 ≤ (![1 - ε, ε] : Fin 2 → ℝ) j := fun j => by
    fin_cases j
    · exact sub_nonneg.2 h1
    · exact h0
  have hw1 : ∑ j, (![1 - ε, ε] : Fin 2 → ℝ) j = 1 := by simp [Fin.sum_univ_two]
  have hS : ∀ j : Fin 2, ((![pairs dx dy k c, 1] : Fin 2 → Matrix (Fin (dx + dy)) (Fin (dx + dy)) ℝ) j).PosDef := fun j => by
    fin_cases j
    · exact hpos
    · exact Matrix.PosDef.one
  have hcov := components_cov (dx := dx) (dy := dy) hw0 hw1 (fun _ => 0) hS
  have e : mixtureCov ![1 - ε, ε] (fun _ => (0 : Fin (dx + dy) → ℝ)) ![pairs dx dy k c, 1] = pairs dx dy k ((1 - ε) * c) := by
    ext a b
    simp only [mixtureCov, mixtureMean, Matrix.of_apply, Fin.sum_univ_two, Matrix.cons_val_zero, Matrix.cons_val_one, Pi.zero_apply, mul_zero,
      add_zero, sub_zero, pairs, Matrix.one_apply]
    split_ifs <;> ring
  rw [e, ← hlaw] at hcov
  have hc2 : ((1 - ε) * c) ^ 2 < 1 := by
    rw [mul_pow]
    have : (1 - ε) ^ 2 ≤ 1 := by nlinarith
    nlinarith [sq_nonneg (1 - ε), sq_nonneg c]
  have hpos' := pairs_posDef (dx := dx) (dy := dy) (k := k) hkx hc2
  have n1 := splitNormal_mi (dx := dx) (dy := dy) 0 hpos'
  rw [pairs_number hkx hky hc2] at n1
  have k1 := wraps_cca a2 hcov hpos' hfit
  rw [pairs_number hkx hky hc2] at k1
  have bx : blockX (pairs dx dy k ((1 - ε) * c)) = 1 := by
    ext i j
    simp [blockX, (pairs_isCanonical dx dy k hkx _).xx, Matrix.one_apply]
  have by' : blockY (pairs dx dy k ((1 - ε) * c)) = 1 := by
    ext i j
    simp [blockY, (pairs_isCanonical dx dy k hkx _).yy, Matrix.one_apply]
  have k2 := normal_le_mi (P := lawInliers dx dy k strength ε) 0 hpos' (by rw [a3, bx]; rfl) (by rw [a4, by']; rfl) hcov a2.finite
  rw [n1.1, ENNReal.toReal_ofReal n1.2] at k2
  refine ⟨s, a1, a2, k1, k2.1, k2.2.trans ⟨fun h => ?_, fun h => ?_⟩⟩
  · by_contra hne
    push Not at hne
    obtain ⟨e0, e1, e2, e3⟩ := hne
    have hc0 : c ≠ 0 := fun h => e3 (hz.1 h)
    set a : Fin dx := ⟨0, hx⟩
    set b : Fin dy := ⟨0, hy⟩
    have hab : Fin.castAdd dy a ≠ Fin.natAdd dx b := fun h => by
      have := congrArg Fin.val h
      simp [a, b] at this
      omega
    have hval : ∀ t : ℝ, pairs dx dy k t (Fin.castAdd dy a) (Fin.natAdd dx b) = t := fun t => by
      unfold pairs
      rw [Matrix.of_apply, if_neg hab, if_pos]
      left
      simp [a, b]
      omega
    have hone : ∀ (t : ℝ) i, pairs dx dy k t i i = 1 := fun t i => by simp [pairs]
    have hcos : ∀ {S : Matrix (Fin (dx + dy)) (Fin (dx + dy)) ℝ}, S.PosDef →
        ∫ z, Real.cos (z.1 a + z.2 b) ∂(component dx dy 0 S)
          = Real.exp (-(S (Fin.castAdd dy a) (Fin.castAdd dy a) + S (Fin.natAdd dx b) (Fin.natAdd dx b)
            + 2 * S (Fin.castAdd dy a) (Fin.natAdd dx b)) / 2) := fun {S} hS => by
      rw [← integral_cos_entries hS.posSemidef hab]
      unfold component
      rw [integral_map (φ := halves dx dy) (measurable_parts dx dy).aemeasurable (by fun_prop)]
      rfl
    have i1 := (integral_mixture ![1 - ε, ε] hw0 (fun j : Fin 2 => component dx dy 0 (![pairs dx dy k c, 1] j))
      (fun z => Real.cos (z.1 a + z.2 b)) fun j _ => by
        haveI := component_prob (0 : Fin (dx + dy) → ℝ) ((![pairs dx dy k c, 1] : Fin 2 → Matrix (Fin (dx + dy)) (Fin (dx + dy)) ℝ) j)
        exact (integrable_const (1 : ℝ)).mono' (by fun_prop) (.of_forall fun z => by rw [Real.norm_eq_abs]; exact Real.abs_cos_le_one _)).2
    rw [← hlaw, h, Fin.sum_univ_two, hcos (hS 0), hcos (hS 1)] at i1
    have i2 : ∫ z, Real.cos (z.1 a + z.2 b) ∂(splitNormal dx dy 0 (pairs dx dy k ((1 - ε) * c))) = _ := hcos hpos'
    rw [i2] at i1
    simp only [Matrix.cons_val_zero, Matrix.cons_val_one, hval, hone, Matrix.one_apply_eq, Matrix.one_apply_ne hab] at i1
    have hconv := strictConvexOn_exp.2 (Set.mem_univ (-(1 + 1 + 2 * c) / 2)) (Set.mem_univ (-(1 + 1 + 2 * 0) / 2))
      (fun h => hc0 (by linarith)) (lt_of_le_of_ne (sub_nonneg.2 h1) fun h => e1 (by linarith)) (lt_of_le_of_ne h0 (Ne.symm e0))
      (sub_add_cancel 1 ε)
    simp only [smul_eq_mul] at hconv
    rw [show (1 - ε) * (-(1 + 1 + 2 * c) / 2) + ε * (-(1 + 1 + 2 * 0) / 2) = -(1 + 1 + 2 * ((1 - ε) * c)) / 2 by ring] at hconv
    linarith
  · have hm : ∀ S : Matrix (Fin (dx + dy)) (Fin (dx + dy)) ℝ, (∀ j : Fin 2, (![1 - ε, ε] : Fin 2 → ℝ) j ≠ 0 →
        (![pairs dx dy k c, 1] : Fin 2 → Matrix (Fin (dx + dy)) (Fin (dx + dy)) ℝ) j = S) → S = pairs dx dy k ((1 - ε) * c) →
        lawInliers dx dy k strength ε = splitNormal dx dy 0 (pairs dx dy k ((1 - ε) * c)) := by
      rintro S hj rfl
      rw [hlaw]
      unfold mixtureLaw
      have : ∀ j : Fin 2, ENNReal.ofReal ((![1 - ε, ε] : Fin 2 → ℝ) j) • component dx dy 0 (![pairs dx dy k c, 1] j)
          = ENNReal.ofReal ((![1 - ε, ε] : Fin 2 → ℝ) j) • component dx dy 0 (pairs dx dy k ((1 - ε) * c)) := fun j => by
        by_cases hw : (![1 - ε, ε] : Fin 2 → ℝ) j = 0
        · rw [hw]
          simp
        · rw [hj j hw]
      simp only [this]
      rw [← Finset.sum_smul, ← ENNReal.ofReal_sum_of_nonneg fun j _ => hw0 j, hw1, ENNReal.ofReal_one, one_smul]
      rfl
    rcases h with rfl | rfl | rfl | h
    · refine hm (pairs dx dy k c) (fun j hj => ?_) (by simp)
      fin_cases j
      · rfl
      · simp at hj
    · refine hm 1 (fun j hj => ?_) (by simp [pairs_zero])
      fin_cases j
      · simp at hj
      · rfl
    · refine hm 1 (fun j _ => ?_) (by simp [pairs_none])
      fin_cases j
      · exact pairs_none _ _ _
      · rfl
    · refine hm 1 (fun j _ => ?_) (by simp [hz.2 h, pairs_zero])
      fin_cases j
      · show pairs dx dy k c = 1
        rw [hz.2 h, pairs_zero]
      · rfl

/-! ## The assumptions can be met -/

open MixtureTasks in
/-- The tasks with their default arguments. -/
example (R : JaxRandom PathKey) : ∃ fit : (n : ℕ) → Fit n 1 1, ∃ fit' : (n : ℕ) → Fit n 5 4,
    (∃ s, taskX R path 0.9 100000 = .ok s ∧ ConvergesTo pathLaw (asSampler R s) (ccaGives fit true) 0 ∧ 0 < (mutualInfo (lawX 0.9)).toReal) ∧
    ∃ s v, taskInliers R path 5 4 2 2 0.2 100000 = .ok s ∧ ConvergesTo pathLaw (asSampler R s) (ccaGives fit' true) v ∧
      v < (mutualInfo (lawInliers 5 4 2 2 0.2)).toReal := by
  obtain ⟨fit, hfit⟩ := exists_canonicalFit 1 1 true
  obtain ⟨fit', hfit'⟩ := exists_canonicalFit 5 4 true
  obtain ⟨s1, a1, -, a2, a3⟩ := cca_taskX (R := R) path_ideal 0.9 (by norm_num [abs_of_pos]) 100000 (by norm_num) hfit
  obtain ⟨s6, f1, -, f2, f3, f4⟩ := cca_taskInliers (R := R) path_ideal 5 4 2 (by norm_num) (by norm_num) (by norm_num) (by norm_num) 2 0.2
    (by norm_num) (by norm_num) 100000 (by norm_num) hfit'
  refine ⟨fit, fit', ⟨s1, a1, a2, a3.2 (by norm_num)⟩, s6, _, f1, f2, lt_of_le_of_ne f3 fun h => ?_⟩
  have := f4.1 h
  norm_num at this

/-- Student-t outliers. -/
example (R : JaxRandom PathKey) (N : NpRandom State) : ∃ (fit : (n : ℕ) → Fit n 2 3) (s : BmmSampler PathKey) (v : ℝ),
    ConvergesTo pathLaw (MixtureTasks.asSampler R s) (ccaGives fit false) v := by
  obtain ⟨fit, hfit⟩ := exists_canonicalFit 2 3 false
  obtain ⟨J, M, s, -, -, -, -, h⟩ := cca_mixture (R := R) path_ideal N (dx := 2) (dy := 3) two_pos three_pos ![9 / 10, 1 / 10]
    (fun j => by fin_cases j <;> norm_num) (by norm_num [Fin.sum_univ_two]) (fun j => ![0, 1] j) (fun _ => 1) (fun _ => Matrix.PosDef.one)
    ![none, some 3] (fun j ν hν => by fin_cases j <;> simp at hν; rw [← hν]; norm_num) 1000 (by norm_num) hfit
  exact ⟨fit, s, _, h⟩

end BMI.Cca
