import Verif.Spec.Fitting
import Verif.Props.MixtureTasks
import Verif.Props.MixtureTasksMI
import Verif.Props.Integration
import Verif.Props.Gallery
import Verif.Props.Workflow

/-! Helper lemmas for the example distributions and the fitted mixtures. -/

namespace BMI.Fitting

open MeasureTheory ProbabilityTheory BMI.Samplers BMI.Bmm BMI.Student BMI.MatrixUtils BMI.MixtureTasks BMI.Gmm BMI.Gallery BMI.Workflow
open BMI.Integration (pmi_of_tame sample_draws normal_indep)

variable {Key : Type} [MeasurableSpace Key] {T : Tfp Key} {κ : Measure Key}

/-! ## Examples -/

/-- The sampler `t` is `base` with the first variable mapped by `f`. -/
structure Over (base t : Sampler Key) (dx dy : ℕ) (f : (Fin dx → ℝ) → Fin dx → ℝ) : Prop where
  dimX : t.dimX = .ok dx
  dimY : t.dimY = .ok dy
  mi : t.mi = base.mi
  ok : ∀ (n m : ℕ) (rng : Rng Key) (a : Fin m → Fin dx → ℝ) (b : Fin m → Fin dy → ℝ), base.sample n rng = .ok (rowsOf a, rowsOf b) →
    t.sample n rng = .ok (rowsOf fun i => f (a i), rowsOf b)
  error : ∀ (n : ℕ) (rng : Rng Key) (e : Err), base.sample n rng = .error e → t.sample n rng = .error e

theorem Over.refl {base : Sampler Key} {dx dy : ℕ} (hx : base.dimX = .ok dx) (hy : base.dimY = .ok dy) : Over base base dx dy id :=
  ⟨hx, hy, rfl, fun _ _ _ _ _ h => h, fun _ _ _ h => h⟩

theorem Over.transformed {base t : Sampler Key} {dx dy : ℕ} {f g : (Fin dx → ℝ) → Fin dx → ℝ} (h : Over base t dx dy f) (hx : 0 < dx)
    (hy : 0 < dy) {tx : Transform} (hg : Acts tx g) :
    ∃ t', Samplers.transformed t tx .none 0 0 = .ok t' ∧ Over base t' dx dy fun x => g (f x) := by
  have e : Samplers.transformed t tx .none 0 0 = .ok
      { dimX := .ok dx
        dimY := .ok dy
        sample := fun n rng => do
          let xy ← t.sample n rng
          .ok (tx.vectorized xy.1, Transform.none.vectorized xy.2)
        mi := t.mi } := by
    unfold Samplers.transformed
    rw [if_neg (by norm_num), h.dimX, h.dimY]
    show (Except.bind (validateDimensions (dx + 0) (dy + 0)) fun _ => _) = _
    rw [validateDimensions_of (by omega) (by omega)]
    simp [Except.bind]
  refine ⟨_, e, rfl, rfl, h.mi, fun n m rng a b hb => ?_, fun n rng er hb => ?_⟩
  · show (Except.bind (t.sample n rng) fun _ => _) = _
    rw [h.ok n m rng a b hb]
    show Except.ok _ = _
    rw [hg]
    rfl
  · show (Except.bind (t.sample n rng) fun _ => _) = _
    rw [h.error n rng er hb]
    rfl

/-- An example from its distribution and its sampler. -/
theorem example_of {create : JaxRandom Key → Except Err (ExampleDistribution Key)} {size dx dy : ℕ} (hs : 0 < size)
    {f : (Fin dx → ℝ) → Fin dx → ℝ} {P : Measure ((Fin dx → ℝ) × (Fin dy → ℝ))} {J : JointDistribution Key}
    (hJ : Consistent κ J Set.univ Set.univ P) (ht : Tame J P) (hf : Measurable f) (hi : Function.Injective f)
    (hc : ∀ R, ∃ s t, bmmSampler J none (.seed 0) size = .ok s ∧ create R = .ok ⟨J, t⟩ ∧ Over (asSampler R s) t dx dy f) :
    IsExample κ create size f P J := by
  haveI := hJ.prob
  have hL := ht.memLp (pmi_density hJ).2.2.1
  have hne := (pmi_density hJ).2.2.2.1.2 (hL.integrable one_le_two)
  have hprof := fun n (hn : 0 < n) => profile_of hJ (r := fun w => Integration.pmiOf J (List.ofFn w.1) (List.ofFn w.2))
    (pmi_of_tame hJ ht).2 hne (n := n) hn
  obtain ⟨p, hp, -, v, hv, hv1, hv2⟩ := hprof size hs
  have hnum : ∀ R E, create R = .ok E → E.sampler.mi = v (R.prngKey 0) ∧
      ∃ e, monteCarloMiEstimate (R.prngKey 0) J size = .ok ((v (R.prngKey 0) : EReal), e) := fun R E hE => by
    obtain ⟨s, t, h1, h2, h3⟩ := hc R
    rw [hE] at h2
    obtain rfl := Except.ok.inj h2
    have hm : ∃ e, monteCarloMiEstimate (castToRng R (.seed 0)) J size = .ok ((v (R.prngKey 0) : EReal), e) := by
      unfold monteCarloMiEstimate
      refine ⟨std ((p (R.prngKey 0)).map EReal.toReal) / √((size : ℤ) : ℝ), ?_⟩
      show (Except.bind (pmiProfile (R.prngKey 0) J size) fun _ => _) = _
      rw [hp, ← hv]
      rfl
    refine ⟨?_, hm⟩
    rw [h3.mi]
    obtain ⟨e, he⟩ := hm
    have := mutualInformation_none R h1 he
    unfold asSampler
    simp only [this, EReal.toReal_coe]
  refine ⟨hJ.prob, hne, ?_, hJ.dimX, hJ.dimY, fun R => ?_, fun n hn => ?_, hprof, ?_, hJ, ?_⟩
  · exact mutualInfo_map_eq_of_injOn P hf measurable_id MeasurableSet.univ MeasurableSet.univ (by simp) (by simp) hi.injOn
      Function.injective_id.injOn
  · obtain ⟨s, t, h1, h2, h3⟩ := hc R
    obtain ⟨rfl, -⟩ := bmmSampler_ok h1
    refine ⟨_, h2, rfl, h3.dimX, h3.dimY, fun rng => h3.error 0 rng _ ?_⟩
    show JointDistribution.sample J ((0 : ℕ) : ℤ) (castToRng R rng) = _
    unfold JointDistribution.sample
    rw [if_pos (by norm_num)]
  · obtain ⟨z, hz, hsam⟩ := sample_draws hJ n hn
    refine ⟨z, hz, hsam, fun R E hE rng => ?_⟩
    obtain ⟨s, t, h1, h2, h3⟩ := hc R
    obtain ⟨rfl, -⟩ := bmmSampler_ok h1
    rw [hE] at h2
    obtain rfl := Except.ok.inj h2
    exact h3.ok n n rng _ _ (hsam (castToRng R rng))
  · exact ⟨v, hv1, hv2, fun R E hE => (hnum R E hE).1⟩
  · intro R E hE
    rw [(hnum R E hE).1]
    exact (hnum R E hE).2

/-- A mixture of normal components, for every generator. -/
theorem mixture_of (hT : IdealTfp T κ) (R₀ : JaxRandom Key) {m dx dy : ℕ} (hx : 0 < dx) (hy : 0 < dy) (p : Fin m → ℝ)
    (h0 : ∀ j, 0 ≤ p j) (h1 : ∑ j, p j = 1) (mean : Fin m → Fin (dx + dy) → ℝ)
    (cov : Fin m → Matrix (Fin (dx + dy)) (Fin (dx + dy)) ℝ) (hpos : ∀ j, (cov j).PosDef) :
    ∃ (J : Fin m → JointDistribution Key) (M : JointDistribution Key),
      (∀ (R : JaxRandom Key) j, multivariateNormalDistribution R T dx dy (rowsOf (cov j)) (some (List.ofFn (mean j))) = .ok (J j)) ∧
      mixture T (List.ofFn p) (List.ofFn J) = .ok M ∧
      Consistent κ M Set.univ Set.univ (mixtureLaw p fun j => component dx dy (mean j) (cov j)) ∧
      Tame M (mixtureLaw p fun j => component dx dy (mean j) (cov j)) ∧
      (∀ j, Consistent κ (J j) Set.univ Set.univ (component dx dy (mean j) (cov j))) := by
  choose J g1 g2 g3 using fun j => normal_component hT R₀ dx dy hx hy (mean j) (cov j) (hpos j)
  obtain ⟨M, hM, -, hMC⟩ := mixture_consistent hT p h0 h1 J _ g2
  exact ⟨J, M, fun R j => (normal_indep R R₀ T dx dy _ _).trans (g1 j), hM, hMC, tame_mixture T h0 h1 g3 hM, g2⟩

theorem sampler_of {J : JointDistribution Key} {dx dy : ℕ} (hx : 0 < dx) (hy : 0 < dy) {P : Measure ((Fin dx → ℝ) × (Fin dy → ℝ))}
    (hJ : Consistent κ J Set.univ Set.univ P) {size : ℕ} (hs : 0 < size) :
    ∃ s, bmmSampler J none (.seed 0) size = .ok s ∧ ∀ R, Over (asSampler R s) (asSampler R s) dx dy id := by
  obtain ⟨s, h⟩ := (bmmSampler_accepts_iff J none (.seed 0) size).1.2
    ⟨by rw [hJ.dimX]; exact hx, by rw [hJ.dimY]; exact hy, by exact_mod_cast hs⟩
  refine ⟨s, h, fun R => ?_⟩
  obtain ⟨rfl, -⟩ := bmmSampler_ok h
  exact Over.refl (congrArg Except.ok hJ.dimX) (congrArg Except.ok hJ.dimY)

/-! ## Fitted mixtures -/

/-- The distribution made from a sample of the posterior. -/
theorem fitted (hT : IdealTfp T κ) (R₀ : JaxRandom Key) {K dx dy : ℕ} (hx : 0 < dx) (hy : 0 < dy) {l : Latent K (dx + dy)}
    (hl : l.Supported) {jitter : ℝ} (hj : 0 ≤ jitter) :
    ∃ M, (∀ R : JaxRandom Key, sampleIntoBmm R T (l.draw jitter).mu (l.draw jitter).cov (l.draw jitter).pi dx dy = .ok M) ∧
      Consistent κ M Set.univ Set.univ (l.law jitter dx dy) ∧ Tame M (l.law jitter dx dy) := by
  obtain ⟨J, M, h1, h2, h3, h4, -⟩ := mixture_of hT R₀ hx hy l.pi hl.pi_nonneg hl.pi_sum l.mu
    (fun k => covMatrix jitter (l.tau k) (l.omega k)) (covMatrix_posDef hl hj)
  have hlaw : l.law jitter dx dy = mixtureLaw l.pi fun k => MixtureTasks.component dx dy (l.mu k) (covMatrix jitter (l.tau k) (l.omega k)) := by
    rw [Latent.law]
    congr 1
    funext k
    unfold MixtureTasks.component
    rw [← component_law, Measure.map_map]
    · rfl
    · unfold halves; fun_prop
    · unfold Gmm.component; fun_prop
  refine ⟨M, fun R => ?_, hlaw ▸ h3, hlaw ▸ h4⟩
  unfold sampleIntoBmm Latent.draw rowsOf
  rw [if_neg (by simp), if_neg (by simp), zip_ofFn, Gmm.mapM_ofFn (h1 R)]
  exact h2

/-! ## Paths -/

/-- Values with dashes between them. -/
def joined (ext : List Char) : List (List Char) → List Char
  | [] => []
  | [v] => v ++ ext
  | v :: vs => v ++ ('-' :: joined ext vs)

theorem joined_count (ext : List Char) (he : ext.count '-' = 0) : ∀ vs : List (List Char), vs ≠ [] → (∀ v ∈ vs, '-' ∉ v) →
    (joined ext vs).count '-' = vs.length - 1
  | [], h, _ => absurd rfl h
  | [v], _, h => by
    simp only [joined, List.count_append, he, List.count_eq_zero.2 (h v (by simp))]
    simp
  | v :: w :: vs, _, h => by
    have := joined_count ext he (w :: vs) (by simp) fun u hu => h u (by simp [hu])
    simp only [joined, List.count_append, List.count_cons_self, this, List.count_eq_zero.2 (h v (by simp))]
    simp

theorem dashed_count (ext : List Char) (he : ext.count '-' = 0) (k : ℕ) : litCount '-' (dashed ext k) = k := by
  induction k with
  | zero => simp [dashed, litCount, he]
  | succ k ih => simp [dashed, litCount, ih]; omega

theorem dashed_match (ext : List Char) (he : ext.count '-' = 0) : ∀ (vs : List (List Char)) (k : ℕ), vs.length = k + 1 →
    (∀ v ∈ vs, v ≠ [] ∧ '-' ∉ v ∧ '\n' ∉ v) → matchPat (dashed ext k) (joined ext vs) = some vs
  | [], k, h, _ => by simp at h
  | [v], k, h, hv => by
    obtain rfl : k = 0 := by simp at h; omega
    obtain ⟨h1, -, h3⟩ := hv v (by simp)
    exact matchPat_wild _ _ _ _ h1 h3 (matchPat_end _) (matchPat_end_none ext)
  | v :: w :: vs, k, h, hv => by
    obtain ⟨k, rfl⟩ : ∃ j, k = j + 1 := ⟨k - 1, by simp at h; omega⟩
    obtain ⟨h1, -, h3⟩ := hv v (by simp)
    have ih := dashed_match ext he (w :: vs) k (by simpa using h) fun u hu => hv u (by simp [hu])
    refine matchPat_wild _ _ _ _ h1 h3 ?_ ?_
    · have := matchPat_lit (dashed ext k) ['-'] (joined ext (w :: vs))
      exact this.trans ih
    · refine no_suffix '-' _ _ ?_ rfl
      have hk : vs.length = k := by simpa using h
      simp only [litCount, dashed_count ext he, List.count_cons_self,
        joined_count ext he (w :: vs) (by simp) fun u hu => (hv u (by simp [hu])).2.1]
      simp [hk]

theorem dashed_fill (ext : List Char) : ∀ (vs : List (List Char)) (k : ℕ), vs.length = k + 1 →
    fill (dashed ext k) vs = joined ext vs
  | [], k, h => by simp at h
  | [v], k, h => by
    obtain rfl : k = 0 := by simp at h; omega
    simp [dashed, fill, joined]
  | v :: w :: vs, k, h => by
    obtain ⟨k, rfl⟩ : ∃ j, k = j + 1 := ⟨k - 1, by simp at h; omega⟩
    have ih := dashed_fill ext (w :: vs) k (by simpa using h)
    simp only [dashed, fill, joined, ih]
    rfl

/-- The values of the wildcards are recovered from a path. -/
theorem recover (pre ext : List Char) (he : ext.count '-' = 0) (vs : List (List Char)) (k : ℕ) (h : vs.length = k + 1)
    (hv : ∀ v ∈ vs, v ≠ [] ∧ '-' ∉ v ∧ '\n' ∉ v) :
    matchPat (.lit pre :: dashed ext k) (fill (.lit pre :: dashed ext k) vs) = some vs := by
  have e : fill (.lit pre :: dashed ext k) vs = pre ++ fill (dashed ext k) vs := by
    simp only [fill]
  rw [e, matchPat_lit, dashed_fill ext vs k h]
  exact dashed_match ext he vs k h hv

end BMI.Fitting
