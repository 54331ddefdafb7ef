import Verif.Spec.Integration
import Verif.Model.Integration
import Verif.Lemmas.Integration
import Verif.Props.Outliers
import Verif.Props.PmiProfile

/-! Property C71: the bounds as integrators of a known pointwise mutual information
(/repo/workflows/projects/Mixtures/how_good_integration_is.smk). -/

namespace BMI.Integration

open MeasureTheory ProbabilityTheory BMI.Samplers BMI.Bmm BMI.Student BMI.MatrixUtils BMI.MixtureTasks BMI.Workflow BMI.Neural

variable {Key : Type} [MeasurableSpace Key] {T : Tfp Key} {κ : Measure Key}

section
variable {X Y : Type} [MeasurableSpace X] [MeasurableSpace Y] {P : Measure (X × Y)} [IsProbabilityMeasure P]

/-- The four estimates on points of any kind. -/
noncomputable def valueOf {n : ℕ} (f : X → Y → ℝ) (x : Fin n → X) (y : Fin n → Y) (e : String) : ℝ :=
  if e = "NWJ" then Neural.Spec.nwj (fun x y => f x y + 1) x y
  else if e = "InfoNCE" then Neural.Spec.infonce f x y
  else if e = "DV" then Neural.Spec.donskerVaradhan f x y
  else Neural.Spec.positive f x y

/-- **C71**, any law with a pointwise mutual information: what the estimates integrate to. -/
theorem integrates {t g : X → Y → ℝ} (h : IsPmi P t) (hg : Measurable fun z : X × Y => g z.1 z.2) {C : ℝ}
    (hC : ∀ x y, |g x y| ≤ C) (n : ℕ) (hn : 2 ≤ n) :
    Integrates (Measure.pi fun _ : Fin n => P) P (fun z => g z.1 z.2) n
      (fun e b => valueOf (fun x y => t x y + g x y) (fun i => (b i).1) (fun i => (b i).2) e) := by
  obtain ⟨hne, hinfo⟩ := h.info
  obtain ⟨g1, g2, g3⟩ := bounded_critic P g hg C hC
  have g4 : Integrable (fun z : X × Y => Real.exp (g z.1 z.2)) P := integrable_exp_of_bdd _ hg C fun p => hC _ _
  have fP : Integrable (fun z : X × Y => t z.1 z.2 + g z.1 z.2) P := h.joint.add g1
  have fQ : Integrable (fun z : X × Y => t z.1 z.2 + g z.1 z.2) (P.fst.prod P.snd) := h.product.add g2
  have fsum : ∫ z : X × Y, (t z.1 z.2 + g z.1 z.2) ∂P = (mutualInfo P).toReal + ∫ z : X × Y, g z.1 z.2 ∂P := by
    rw [integral_add h.joint g1, hinfo]
  obtain ⟨x1, x2⟩ := h.exp_add g4
  have e1 : ∀ z : X × Y, Real.exp (t z.1 z.2 + g z.1 z.2 + 1) = Real.exp 1 * Real.exp (t z.1 z.2 + g z.1 z.2) := fun z => by
    rw [Real.exp_add, mul_comm]
  have hnwj := integral_nwj P (fun x y => t x y + g x y + 1) (fP.add (integrable_const 1)) (by
    simp only [e1]
    exact x1.const_mul _) n hn
  have hinf := infonce_le_mi P (fun x y => t x y + g x y) fP fQ n (by omega)
  have hdv := integrable_donskerVaradhan (fun x y => t x y + g x y) fP fQ n hn
  have hmc := Bmm.mean_draws P fP n (by omega)
  simp only [Linear.nwj_eq hn, Linear.infonce_eq (show 0 < n by omega), Linear.donskerVaradhan_eq hn, EReal.toReal_coe] at hnwj hinf hdv
  have v1 : ∀ b : Fin n → X × Y, valueOf (fun x y => t x y + g x y) (fun i => (b i).1) (fun i => (b i).2) "NWJ"
      = Neural.Spec.nwj (fun x y => t x y + g x y + 1) (fun i => (b i).1) (fun i => (b i).2) := fun b => rfl
  have v2 : ∀ b : Fin n → X × Y, valueOf (fun x y => t x y + g x y) (fun i => (b i).1) (fun i => (b i).2) "InfoNCE"
      = Neural.Spec.infonce (fun x y => t x y + g x y) (fun i => (b i).1) (fun i => (b i).2) := fun b => rfl
  have v3 : ∀ b : Fin n → X × Y, valueOf (fun x y => t x y + g x y) (fun i => (b i).1) (fun i => (b i).2) "DV"
      = Neural.Spec.donskerVaradhan (fun x y => t x y + g x y) (fun i => (b i).1) (fun i => (b i).2) := fun b => rfl
  have v4 : ∀ b : Fin n → X × Y, valueOf (fun x y => t x y + g x y) (fun i => (b i).1) (fun i => (b i).2) "MC"
      = (∑ i, (t (b i).1 (b i).2 + g (b i).1 (b i).2)) / n := fun b => rfl
  refine ⟨?_, ?_, ?_, ?_, ?_, ?_⟩
  · intro e he
    simp only [List.mem_cons, List.not_mem_nil, or_false] at he
    rcases he with rfl | rfl | rfl | rfl
    · simp only [v1]; exact hnwj.1
    · simp only [v2]; exact hinf.1
    · simp only [v3]; exact hdv
    · simp only [v4]; exact hmc.1
  · simp only [v4]
    rw [hmc.2, fsum]
  · simp only [v1]
    rw [hnwj.2]
    simp only [e1]
    rw [integral_const_mul, x2, ← mul_assoc, ← Real.exp_add, integral_add fP (integrable_const 1), fsum]
    simp
    ring
  · simp only [v2]
    exact (ENNReal.ofReal_le_iff_le_toReal hne).1 hinf.2
  · intro b
    rw [v2, ← EReal.coe_le_coe_iff, ← Linear.infonce_eq (by omega)]
    have := infonce_le_log (fun x y => t x y + g x y) (List.ofFn fun i => (b i).1) (List.ofFn fun i => (b i).2) (by simp)
      (by simp; omega)
    rwa [List.length_ofFn] at this
  · intro b
    rw [v1, v3, ← EReal.coe_le_coe_iff, ← Linear.nwj_eq hn, ← Linear.donskerVaradhan_eq hn]
    have h1 := nwj_le_donskerVaradhan (fun x y => t x y + g x y + 1) (List.ofFn fun i => (b i).1) (List.ofFn fun i => (b i).2)
      (by simp) (by simpa using hn)
    rwa [donskerVaradhan_shift (fun x y => t x y + g x y) 1 _ _ (by simp) (by simpa using hn)] at h1

end

/-! ## The distributions of the experiment -/

section
variable {dx dy : ℕ} {P : Measure ((Fin dx → ℝ) × (Fin dy → ℝ))} {J : JointDistribution Key}

/-- The pointwise mutual information of a distribution of quadratic growth. -/
theorem pmi_of_tame (hJ : Consistent κ J Set.univ Set.univ P) (ht : Tame J P) :
    IsPmi P (fun x y => pmiOf J (List.ofFn x) (List.ofFn y)) ∧
    ∀ (x : Fin dx → ℝ) (y : Fin dy → ℝ), J.pmiAt (List.ofFn x) (List.ofFn y) = (pmiOf J (List.ofFn x) (List.ofFn y) : EReal) := by
  haveI := hJ.prob
  have hfin : ∀ (x : Fin dx → ℝ) (y : Fin dy → ℝ), J.pmiAt (List.ofFn x) (List.ofFn y)
      = (pmiOf J (List.ofFn x) (List.ofFn y) : EReal) := fun x y => by
    obtain ⟨A, -, hA⟩ := ht.joint
    obtain ⟨B, -, hB⟩ := ht.x
    obtain ⟨C, -, hC⟩ := ht.y
    obtain ⟨a, ha, -⟩ := hA (x, y)
    obtain ⟨b, hb, -⟩ := hB x
    obtain ⟨c, hc, -⟩ := hC y
    have e : J.pmiAt (List.ofFn x) (List.ofFn y) = ((a - (b + c) : ℝ) : EReal) := by
      unfold JointDistribution.pmiAt
      have ha' : J.distJoint.logProb (List.ofFn x ++ List.ofFn y) = a := ha
      simp only [ha', hb, hc]
      push_cast
      rfl
    rw [pmiOf, e, EReal.toReal_coe]
  obtain ⟨hd, -, hm, -, -⟩ := pmi_density hJ
  have hL := ht.memLp hm
  refine ⟨⟨?_, hL.integrable one_le_two, ?_⟩, hfin⟩
  · conv_lhs => rw [hd]
    congr 1
    funext z
    rw [hfin, EReal.exp_coe]
  · obtain ⟨C, hC⟩ := ht.bound
    have hmQ := measurable_ereal_toReal.comp_aemeasurable (pmi_aemeasurable hJ)
    have i1 : Integrable (fun z : (Fin dx → ℝ) × (Fin dy → ℝ) => ‖z‖ ^ 2) P := by
      refine ((integrable_const (1 : ℝ)).add ht.moment).mono' (by fun_prop) (Filter.Eventually.of_forall fun z => ?_)
      rw [Real.norm_eq_abs, abs_of_nonneg (by positivity)]
      simp only [Pi.add_apply]
      nlinarith [sq_nonneg (‖z‖ ^ 2 - 1), sq_nonneg (‖z‖ ^ 2)]
    have iX : Integrable (fun x : Fin dx → ℝ => ‖x‖ ^ 2) P.fst := by
      rw [Measure.fst, integrable_map_measure (by fun_prop) measurable_fst.aemeasurable]
      refine i1.mono' (by
        refine Measurable.aestronglyMeasurable ?_
        exact (measurable_norm.comp measurable_fst).pow_const 2) (Filter.Eventually.of_forall fun z => ?_)
      rw [Real.norm_eq_abs, Function.comp, abs_of_nonneg (by positivity)]
      exact pow_le_pow_left₀ (norm_nonneg _) (norm_fst_le z) 2
    have iY : Integrable (fun y : Fin dy → ℝ => ‖y‖ ^ 2) P.snd := by
      rw [Measure.snd, integrable_map_measure (by fun_prop) measurable_snd.aemeasurable]
      refine i1.mono' (by
        refine Measurable.aestronglyMeasurable ?_
        exact (measurable_norm.comp measurable_snd).pow_const 2) (Filter.Eventually.of_forall fun z => ?_)
      rw [Real.norm_eq_abs, Function.comp, abs_of_nonneg (by positivity)]
      exact pow_le_pow_left₀ (norm_nonneg _) (norm_snd_le z) 2
    have iX' := iX.comp_fst P.snd
    have iY' := iY.comp_snd P.fst
    refine (((integrable_const (1 : ℝ)).add (iX'.add iY')).const_mul |C|).mono' hmQ.aestronglyMeasurable
      (Filter.Eventually.of_forall fun z => ?_)
    refine (hC z).trans ?_
    have h1 : ‖z‖ ^ 2 ≤ ‖z.1‖ ^ 2 + ‖z.2‖ ^ 2 := by
      rw [Prod.norm_def]
      rcases max_cases ‖z.1‖ ‖z.2‖ with ⟨h, -⟩ | ⟨h, -⟩ <;> rw [h] <;> nlinarith [sq_nonneg ‖z.1‖, sq_nonneg ‖z.2‖]
    simp only [Pi.add_apply]
    have h2 : 0 ≤ 1 + ‖z‖ ^ 2 := by positivity
    calc C * (1 + ‖z‖ ^ 2) ≤ |C| * (1 + ‖z‖ ^ 2) := mul_le_mul_of_nonneg_right (le_abs_self C) h2
      _ ≤ _ := mul_le_mul_of_nonneg_left (by linarith) (abs_nonneg C)

/-- The samples of the experiment are independent draws. -/
theorem sample_draws (hJ : Consistent κ J Set.univ Set.univ P) (n : ℕ) (hn : 0 < n) :
    ∃ draw : Key → Fin n → (Fin dx → ℝ) × (Fin dy → ℝ), MeasurePreserving draw κ (Measure.pi fun _ => P) ∧
      ∀ k, J.sample n k = .ok (rowsOf fun i => (draw k i).1, rowsOf fun i => (draw k i).2) := by
  obtain ⟨draw, hm, hs, hl⟩ := hJ.joint.law n
  refine ⟨draw, ⟨hm, hl⟩, fun k => ?_⟩
  unfold JointDistribution.sample
  rw [if_neg (by omega), Int.toNat_natCast, hs k, hJ.dimX]
  simp [rowsOf, pairList, List.map_ofFn, Function.comp_def]

end

/-- A normal distribution does not depend on the random numbers of JAX. -/
theorem normal_indep (R R' : JaxRandom Key) (T : Tfp Key) (dimX dimY : ℤ) (cov : Arr) (mean : Option (List ℝ)) :
    multivariateNormalDistribution R T dimX dimY cov mean = multivariateNormalDistribution R' T dimX dimY cov mean := by
  unfold multivariateNormalDistribution
  by_cases h : mean.isNone ∧ dimX + dimY < 0
  · rw [if_pos h, if_pos h]
  · rw [if_neg h, if_neg h]
    have := Outliers.split_number R R' dimX dimY cov (some (mean.getD (List.replicate (dimX + dimY).toNat 0)))
    simp only [bind, Except.bind]
    revert this
    cases splitMultinormal R dimX dimY cov (some (mean.getD (List.replicate (dimX + dimY).toNat 0))) <;>
      cases splitMultinormal R' dimX dimY cov (some (mean.getD (List.replicate (dimX + dimY).toNat 0))) <;>
      simp [Except.map]

theorem setups_indep (R R' : JaxRandom Key) (T : Tfp Key) : distributionAndPmis R T = distributionAndPmis R' T := by
  unfold distributionAndPmis distributions fourBalls
  simp only [normal_indep R R' T]

theorem rowsOf_smul {n d : ℕ} (c : ℝ) (m : Matrix (Fin n) (Fin d) ℝ) :
    rowsOf (c • m) = (rowsOf m).map fun r => r.map (c * ·) := by
  simp only [rowsOf, List.map_ofFn, Function.comp_def]
  rfl

theorem fourBalls_ok (hT : IdealTfp T κ) (R : JaxRandom Key) :
    ∃ J, fourBalls R T = .ok J ∧ Consistent κ J Set.univ Set.univ lawOfBalls ∧ Tame J lawOfBalls := by
  have hv : ∀ j, 0 < (balls j).2 := fun j => by fin_cases j <;> norm_num [balls]
  choose J h1 h2 h3 using fun j : Fin 4 => normal_component hT R 1 1 one_pos one_pos
    ![(balls j).1.1, (balls j).1.2] ((balls j).2 • 1) (Matrix.PosDef.one.smul (hv j))
  have hp0 : ∀ j : Fin 4, 0 ≤ (![3 / 10, 3 / 10, 1 / 5, 1 / 5] : Fin 4 → ℝ) j := fun j => by fin_cases j <;> norm_num
  have hp1 : ∑ j, (![3 / 10, 3 / 10, 1 / 5, 1 / 5] : Fin 4 → ℝ) j = 1 := by
    simp [Fin.sum_univ_succ]
    norm_num
  obtain ⟨M, m1, -, m2⟩ := mixture_consistent hT _ hp0 hp1 J _ h2
  refine ⟨M, ?_, m2, tame_mixture T hp0 hp1 h3 m1⟩
  obtain ⟨m, a1, a2⟩ := canonical_pair 0.0
  have r1 : rowsOf m = [[1, 0], [0, 1]] := by
    rw [a2]
    norm_num [rowsOf, List.ofFn_succ]
  have r2 : rowsOf ((0.2 : ℝ) • m) = [[1 / 5, 0], [0, 1 / 5]] := by
    rw [rowsOf_smul, r1]
    norm_num
  have c0 := h1 0
  rw [show balls 0 = ((-5 / 4, -5 / 4), 1) from rfl] at c0
  have c1 := h1 1
  rw [show balls 1 = ((5 / 4, 5 / 4), 1) from rfl] at c1
  have c2 := h1 2
  rw [show balls 2 = ((-5 / 2, 5 / 2), 1 / 5) from rfl] at c2
  have c3 := h1 3
  rw [show balls 3 = ((5 / 2, -5 / 2), 1 / 5) from rfl] at c3
  have e0 : multivariateNormalDistribution R T 1 1 (rowsOf m) (some [-1.25, -1.25]) = .ok (J 0) := by
    rw [r1, ← c0]
    norm_num [rowsOf, List.ofFn_succ]
  have e1 : multivariateNormalDistribution R T 1 1 (rowsOf m) (some [1.25, 1.25]) = .ok (J 1) := by
    rw [r1, ← c1]
    norm_num [rowsOf, List.ofFn_succ]
  have e2 : multivariateNormalDistribution R T 1 1 (rowsOf ((0.2 : ℝ) • m)) (some [-2.5, 2.5]) = .ok (J 2) := by
    rw [r2, ← c2]
    norm_num [rowsOf, List.ofFn_succ, Matrix.one_apply]
  have e3 : multivariateNormalDistribution R T 1 1 (rowsOf ((0.2 : ℝ) • m)) (some [2.5, -2.5]) = .ok (J 3) := by
    rw [r2, ← c3]
    norm_num [rowsOf, List.ofFn_succ, Matrix.one_apply]
  unfold fourBalls
  simp only [a1, bind, Except.bind, e0, e1, e2, e3]
  rw [← m1]
  norm_num [List.ofFn_succ]
  rfl

/-- The matrix of the high-dimensional setup. -/
theorem high_canonical : IsCanonical (dx := 25) (dy := 25) (fun _ => 4 / 5) (Matrix.of fun p q : Fin (25 + 25) => if p = q then (1 : ℝ)
      else if (p : ℕ) + 25 = q ∨ (q : ℕ) + 25 = p then 4 / 5 else 0) := by
  refine ⟨fun i j => ?_, fun i j => ?_, fun i j => ?_, fun i j => ?_⟩
  all_goals
    simp only [Matrix.of_apply, Fin.ext_iff, Fin.val_castAdd, Fin.val_natAdd]
    split_ifs <;> first | rfl | omega

theorem canonical_unique {dx dy dx' dy' : ℕ} {ρ : Fin dx → ℝ} {ρ' : Fin dx' → ℝ} {m : Matrix (Fin (dx + dy)) (Fin (dx + dy)) ℝ}
    {m' : Matrix (Fin (dx' + dy')) (Fin (dx' + dy')) ℝ} (hx : dx = dx') (hy : dy = dy') (h : IsCanonical ρ m)
    (h' : IsCanonical ρ' m') (hρ : ∀ i, ρ i = ρ' (i.cast hx)) : rowsOf m = rowsOf m' := by
  subst hx hy
  congr 1
  ext p q
  refine Fin.addCases (fun i => ?_) (fun i => ?_) p <;> refine Fin.addCases (fun j => ?_) (fun j => ?_) q
  · rw [h.xx, h'.xx]
  · rw [h.xy, h'.xy, hρ]
    rfl
  · rw [h.yx, h'.yx, hρ]
    rfl
  · rw [h.yy, h'.yy]

theorem normal_ok (hT : IdealTfp T κ) (R : JaxRandom Key) :
    ∃ m J, canonicalCorrelation (List.replicate 25 0.8) 0 = .ok m ∧
      multivariateNormalDistribution R T 25 25 (rowsOf m) none = .ok J ∧
      Consistent κ J Set.univ Set.univ lawOfNormal ∧ Tame J lawOfNormal ∧ (mutualInfo lawOfNormal).toReal = 25 * Real.log (5 / 3) := by
  have hpos := (canonical_posDef_iff high_canonical le_rfl).2 fun i => by norm_num [abs_lt]
  obtain ⟨J, h1, h2, h3⟩ := normal_component hT R 25 25 (by norm_num) (by norm_num) 0 _ hpos
  obtain ⟨m, g1, g2⟩ := canonicalCorrelation_spec (List.replicate 25 0.8) 0 le_rfl
  have hrows := canonical_unique (by simp) (by simp) g2 high_canonical fun i => by
    rw [List.get_eq_getElem, List.getElem_replicate]
    norm_num
  refine ⟨m, J, g1, ?_, h2, h3, ?_⟩
  · rw [hrows]
    exact (normal_default R T 25 25 _).trans h1
  · obtain ⟨s, hs1, hs2⟩ := canonical_number R (by norm_num) le_rfl high_canonical (fun i => by norm_num [abs_lt]) 0
    obtain ⟨s', hs1', hs2'⟩ := splitMultinormal_number R 25 25 (by norm_num) (by norm_num) 0 _ hpos
    obtain rfl : s = s' := Except.ok.inj (hs1.symm.trans hs1')
    obtain ⟨m1, m2⟩ := splitNormal_mi (dx := 25) (dy := 25) 0 hpos
    unfold lawOfNormal
    rw [component_eq, m1, ENNReal.toReal_ofReal m2, ← hs2', hs2]
    have e : (1 : ℝ) - (4 / 5) ^ 2 = (5 / 3 : ℝ)⁻¹ ^ 2 := by norm_num
    simp only [e, Real.log_pow, Real.log_inv, Finset.sum_const, Finset.card_univ, Fintype.card_fin]
    ring

/-! ## The estimates of the experiment -/

/-- Drawing the points with a key. -/
theorem Integrates.comp {X Y Ω : Type} [MeasurableSpace X] [MeasurableSpace Y] [MeasurableSpace Ω] {P : Measure (X × Y)}
    {g : X × Y → ℝ} {n : ℕ} {μ : Measure Ω} {v : String → Ω → ℝ} (h : Integrates μ P g n v) {draw : Key → Ω}
    (hd : MeasurePreserving draw κ μ) : Integrates κ P g n fun e k => v e (draw k) := by
  have hi : ∀ e ∈ ["NWJ", "InfoNCE", "DV", "MC"], ∫ k, v e (draw k) ∂κ = ∫ b, v e b ∂μ := fun e he => by
    have := h.integrable e he
    rw [← hd.map_eq] at this ⊢
    exact (integral_map hd.measurable.aemeasurable this.1).symm
  refine ⟨fun e he => hd.integrable_comp_of_integrable (h.integrable e he), ?_, ?_, ?_, fun k => h.infonce_le _, fun k => h.dv_ge _⟩
  · rw [hi _ (by simp), h.mc]
  · rw [hi _ (by simp), h.nwj]
  · rw [hi _ (by simp)]
    exact h.infonce

/-- The number which an estimator returns for the points drawn with a key. -/
noncomputable def runValue (D : JointDistribution Key × Critic) (e : String) (n : ℕ) (k : Key) : ℝ :=
  match D.1.sample n k, estimators.get e with
  | .ok s, some f => (f D.2 s.1 s.2).toReal
  | _, _ => 0

/-- Names of the estimators. -/
def estimatorNames : List String := ["NWJ", "InfoNCE", "DV", "MC"]

section
variable {dx dy : ℕ} {P : Measure ((Fin dx → ℝ) × (Fin dy → ℝ))} {J : JointDistribution Key}

/-- The estimates for any distribution of quadratic growth. -/
theorem runValue_spec (hJ : Consistent κ J Set.univ Set.univ P) (ht : Tame J P) {c : Critic} {g : (Fin dx → ℝ) → (Fin dy → ℝ) → ℝ}
    (hc : ∀ x y, c (List.ofFn x) (List.ofFn y) = pmiOf J (List.ofFn x) (List.ofFn y) + g x y)
    (hg : Measurable fun z : (Fin dx → ℝ) × (Fin dy → ℝ) => g z.1 z.2) {C : ℝ} (hC : ∀ x y, |g x y| ≤ C) (n : ℕ) (hn : 2 ≤ n) :
    Integrates κ P (fun z => g z.1 z.2) n (fun e => runValue (J, c) e n) ∧
    ∀ k, ∃ xs ys : Arr, J.sample n k = .ok (xs, ys) ∧ xs.length = n ∧ ys.length = n ∧ ∀ e ∈ estimatorNames, ∃ f,
      estimators.get e = some f ∧ f c xs ys = (runValue (J, c) e n k : EReal) := by
  haveI := hJ.prob
  obtain ⟨hp, -⟩ := pmi_of_tame hJ ht
  obtain ⟨draw, hd, hs⟩ := sample_draws hJ n (by omega)
  have hv : ∀ k, ∀ e ∈ estimatorNames, ∃ f, estimators.get e = some f ∧
      f c (rowsOf fun i => (draw k i).1) (rowsOf fun i => (draw k i).2)
        = (valueOf (fun x y => pmiOf J (List.ofFn x) (List.ofFn y) + g x y) (fun i => (draw k i).1) (fun i => (draw k i).2) e : EReal) := by
    intro k e he
    have hc' : (fun (x : Fin dx → ℝ) (y : Fin dy → ℝ) => pmiOf J (List.ofFn x) (List.ofFn y) + g x y)
      = fun x y => c (List.ofFn x) (List.ofFn y) := by
      funext x y
      rw [hc]
    rw [hc']
    simp only [estimatorNames, List.mem_cons, List.not_mem_nil, or_false] at he
    rcases he with rfl | rfl | rfl | rfl
    · exact ⟨nwjShifted, by simp [estimators, Run.Dict.get], Linear.nwj_eq hn _ _ _⟩
    · exact ⟨Linear.infonce, by simp [estimators, Run.Dict.get], Linear.infonce_eq (by omega) _ _ _⟩
    · exact ⟨Linear.donskerVaradhan, by simp [estimators, Run.Dict.get], Linear.donskerVaradhan_eq hn _ _ _⟩
    · exact ⟨monteCarlo, by simp [estimators, Run.Dict.get], Linear.mean_paired _ _ _⟩
  have hr : ∀ k, ∀ e ∈ estimatorNames, runValue (J, c) e n k
      = valueOf (fun x y => pmiOf J (List.ofFn x) (List.ofFn y) + g x y) (fun i => (draw k i).1) (fun i => (draw k i).2) e := by
    intro k e he
    obtain ⟨f, h1, h2⟩ := hv k e he
    simp only [runValue, hs k, h1, h2, EReal.toReal_coe]
  refine ⟨?_, fun k => ⟨_, _, hs k, by simp [rowsOf], by simp [rowsOf], fun e he => ?_⟩⟩
  · have := (integrates hp hg hC n hn).comp hd
    refine ⟨fun e he => ?_, ?_, ?_, ?_, fun k => ?_, fun k => ?_⟩
    · simp only [funext fun k => hr k e he]
      exact this.integrable e he
    · simp only [hr _ "MC" (by simp [estimatorNames])]
      exact this.mc
    · simp only [hr _ "NWJ" (by simp [estimatorNames])]
      exact this.nwj
    · simp only [hr _ "InfoNCE" (by simp [estimatorNames])]
      exact this.infonce
    · rw [hr _ "InfoNCE" (by simp [estimatorNames])]
      exact this.infonce_le k
    · rw [hr _ "NWJ" (by simp [estimatorNames]), hr _ "DV" (by simp [estimatorNames])]
      exact this.dv_ge k
  · obtain ⟨f, h1, h2⟩ := hv k e he
    exact ⟨f, h1, by rw [h2, hr k e he]⟩

/-- The ground truth for any distribution of quadratic growth. -/
theorem truth_estimate (hJ : Consistent κ J Set.univ Set.univ P) (ht : Tame J P) :
    Outliers.IsEstimate κ (Outliers.runWith J) 100000 P := by
  haveI := hJ.prob
  obtain ⟨hp, -⟩ := pmi_of_tame hJ ht
  obtain ⟨v, e, g1, g2, g3⟩ := monteCarlo_estimate hJ 100000 (by norm_num)
  have hL := ht.memLp (pmi_density hJ).2.2.1
  have hne := hp.info.1
  refine ⟨v, ?_, (g2 hne).2, _, hL, hp.density, (g3 hL).1⟩
  filter_upwards [g1] with k hk
  obtain ⟨e', he⟩ := Outliers.runWith_spec J k
  rw [Nat.cast_ofNat, he] at hk
  exact (Prod.mk.inj (Except.ok.inj hk)).1

end

/-! ## Paths -/

theorem match_sample (s n k : List Char) (hs : s ≠ []) (hsn : '\n' ∉ s) (hn : n ≠ []) (hk : k ≠ [])
    (hnd : ∀ d ∈ n, d.isDigit) (hkd : ∀ d ∈ k, d.isDigit) :
    matchPat samplePat (fill samplePat [s, n, k]) = some [s, n, k] := by
  simp only [samplePat, fill, List.append_nil]
  refine matchPat_wild _ _ _ _ hs hsn ?_ ?_
  · rw [matchPat_lit]
    exact tail_match _ n k hn hk hnd hkd (by decide)
  · refine no_suffix '/' _ _ ?_ rfl
    simp [litCount, count_digits (c := '/') (by decide) hnd, count_digits (c := '/') (by decide) hkd]

theorem match_estimate (s e n k : List Char) (hs : s ≠ []) (hsn : '\n' ∉ s) (he : e ≠ []) (hen : '\n' ∉ e) (hes : '/' ∉ e)
    (hn : n ≠ []) (hk : k ≠ []) (hnd : ∀ d ∈ n, d.isDigit) (hkd : ∀ d ∈ k, d.isDigit) :
    matchPat estimatePat (fill estimatePat [s, e, n, k]) = some [s, e, n, k] := by
  have h1 := count_digits (c := '/') (by decide) hnd
  have h2 := count_digits (c := '/') (by decide) hkd
  simp only [estimatePat, fill, List.append_nil]
  refine matchPat_wild _ _ _ _ hs hsn ?_ ?_
  · rw [matchPat_lit]
    refine matchPat_wild _ _ _ _ he hen ?_ ?_
    · rw [matchPat_lit]
      exact tail_match _ n k hn hk hnd hkd (by decide)
    · refine no_suffix '/' _ _ ?_ rfl
      simp [litCount, h1, h2]
  · refine no_suffix '/' _ _ ?_ rfl
    simp [litCount, h1, h2, List.count_eq_zero.2 hes]

theorem match_truth (s k : List Char) (hs : s ≠ []) (hsn : '\n' ∉ s) (hk : k ≠ []) (hkd : ∀ d ∈ k, d.isDigit) :
    matchPat truthPat (fill truthPat [s, k]) = some [s, k] := by
  simp only [truthPat, fill, List.append_nil]
  refine matchPat_wild _ _ _ _ hs hsn ?_ ?_
  · rw [matchPat_lit]
    exact matchPat_wild _ _ _ _ hk (digits_ne _ hkd (by decide)) (matchPat_end _) (matchPat_end_none _)
  · refine no_suffix '/' _ _ ?_ rfl
    simp [litCount, count_digits (c := '/') (by decide) hkd]

/-! ## The experiment -/

/-- Names of the setups. -/
def setupNames : List String := ["Four_Balls", "Four_Balls_Biased", "Four_Balls_SinSquare", "Normal-25Dim"]

/-- The setups of the experiment. -/
theorem setups_ok (hT : IdealTfp T κ) (R : JaxRandom Key) : ∃ J K : JointDistribution Key,
    Consistent κ J Set.univ Set.univ lawOfBalls ∧ Tame J lawOfBalls ∧
    Consistent κ K Set.univ Set.univ lawOfNormal ∧ Tame K lawOfNormal ∧
    distributionAndPmis R T = .ok [("Four_Balls", (J, pmiOf J)), ("Four_Balls_Biased", (J, fun x y => pmiOf J x y + 0.5)),
      ("Four_Balls_SinSquare", (J, fun x y => pmiOf J x y + Real.sin ((x.headD 0) ^ 2))), ("Normal-25Dim", (K, pmiOf K))] := by
  obtain ⟨J, a1, a2, a3⟩ := fourBalls_ok hT R
  obtain ⟨m, K, b1, b2, b3, b4, -⟩ := normal_ok hT R
  refine ⟨J, K, a2, a3, b3, b4, ?_⟩
  simp only [distributionAndPmis, distributions, a1, b1, b2, bind, Except.bind, List.map_cons, List.map_nil, Option.getD_some,
    Option.getD_none]

theorem mapM_map_ok {A B C E : Type} (F : B → Except E C) (p : A → B) (r : A → C) (l : List A) (h : ∀ a ∈ l, F (p a) = .ok (r a)) :
    (l.map p).mapM F = .ok (l.map r) := by
  induction l with
  | nil => rfl
  | cons a l ih =>
    rw [List.map_cons, List.mapM_cons, h a (by simp), ih fun b hb => h b (by simp [hb])]
    rfl

/-- The rows of a setup. -/
theorem rows_of_setup {R : JaxRandom Key} {ds : Run.Dict (JointDistribution Key × Critic)} (hds : distributionAndPmis R T = .ok ds)
    {name : String} {D : JointDistribution Key × Critic} (hD : ds.get name = some D) (hne : name.toList ≠ []) (hnl : '\n' ∉ name.toList)
    (hrun : ∀ n : ℕ, 2 ≤ n → ∀ k, ∃ xs ys : Arr, D.1.sample n k = .ok (xs, ys) ∧ xs.length = n ∧ ys.length = n ∧
      ∀ e ∈ estimatorNames, ∃ f, estimators.get e = some f ∧ f D.2 xs ys = (runValue D e n k : EReal)) :
    assembleEstimates R T name = .ok ((List.range 11).flatMap fun a => (List.range 20).flatMap fun s => estimatorNames.map fun e =>
      ⟨e, name, (runValue D e (2 ^ (a + 3)) (R.prngKey (s : ℕ)) : EReal), 2 ^ (a + 3)⟩) := by
  have hone : ∀ n : ℕ, 2 ≤ n → ∀ s : ℕ, ∀ e ∈ estimatorNames,
      applyEstimator R T (fill estimatePat [name.toList, e.toList, intStr n, intStr s])
        = .ok ⟨e, name, (runValue D e n (R.prngKey (s : ℕ)) : EReal), n⟩ := by
    intro n hn s e he
    obtain ⟨n1, n2⟩ := intStr_digits (z := (n : ℤ)) (by omega)
    obtain ⟨s1, s2⟩ := intStr_digits (z := (s : ℤ)) (by omega)
    have hec : e.toList ≠ [] ∧ '\n' ∉ e.toList ∧ '/' ∉ e.toList := by
      simp only [estimatorNames, List.mem_cons, List.not_mem_nil, or_false] at he
      rcases he with rfl | rfl | rfl | rfl <;> exact ⟨by simp, by simp, by simp⟩
    obtain ⟨xs, ys, h1, -, -, h2⟩ := hrun n hn (R.prngKey s)
    obtain ⟨f, h3, h4⟩ := h2 e he
    rw [applyEstimator, match_estimate _ _ _ _ hne hnl hec.1 hec.2.1 hec.2.2 n1 s1 n2 s2]
    simp only [sampleDistribution, match_sample _ _ _ hne hnl n1 s1 n2 s2, hds, lift, bind, Except.bind, String.ofList_toList,
      hD, orRaise, pyInt_intStr, h1, h3, h4]
  have hn : nPoints = (List.range 11).map fun a => 2 ^ (a + 3) := by decide
  have he : estimators.map Prod.fst = estimatorNames := rfl
  unfold assembleEstimates
  rw [he, hn, seeds]
  have key := mapM_map_ok (applyEstimator R T)
    (fun q : ℕ × ℕ × String => fill estimatePat [name.toList, q.2.2.toList, intStr (2 ^ (q.1 + 3) : ℕ), intStr q.2.1])
    (fun q => (⟨q.2.2, name, (runValue D q.2.2 (2 ^ (q.1 + 3)) (R.prngKey (q.2.1 : ℕ)) : EReal), 2 ^ (q.1 + 3)⟩ : Row))
    ((List.range 11).flatMap fun a => (List.range 20).flatMap fun s => estimatorNames.map fun e => (a, s, e)) (by
      intro q hq
      simp only [List.mem_flatMap, List.mem_map] at hq
      obtain ⟨a, -, s, -, e, he, rfl⟩ := hq
      have h2 : 2 ≤ 2 ^ (a + 3) := by
        rw [pow_succ]
        have := Nat.one_le_two_pow (n := a + 2)
        omega
      rw [hone _ h2 s e he]
      push_cast
      rfl)
  simp only [List.map_flatMap, List.map_map, Function.comp_def] at key
  rw [List.flatMap_map]
  exact key

/-- **C71**: the experiment on the four setups.  With the random numbers of JAX replaced by any others, the rows of
`estimates.csv` are those of the sizes `8, 16, ..., 8192`, the seeds `0, ..., 19` and the four estimators, and the estimate in a
row is a function of the setup, the estimator, the size and the key of the seed, which integrates the pointwise mutual
information with the bias of the setup as specified.  For a fixed size and key, InfoNCE does not see either bias,
Donsker-Varadhan does not see the constant one, and the Monte Carlo average is off by it. -/
theorem experiment (hT : IdealTfp T κ) (R₀ : JaxRandom Key) : ∃ v : String → String → ℕ → Key → ℝ,
    (∀ R : JaxRandom Key, ∀ setup ∈ ["Four_Balls", "Four_Balls_Biased", "Four_Balls_SinSquare", "Normal-25Dim"],
      assembleEstimates R T setup = .ok ((List.range 11).flatMap fun a => (List.range 20).flatMap fun s =>
        ["NWJ", "InfoNCE", "DV", "MC"].map fun e =>
          ⟨e, setup, (v setup e (2 ^ (a + 3)) (R.prngKey (s : ℕ)) : EReal), 2 ^ (a + 3)⟩)) ∧
    (∀ n : ℕ, 2 ≤ n →
      Integrates κ lawOfBalls (fun _ => 0) n (fun e => v "Four_Balls" e n) ∧
      Integrates κ lawOfBalls (fun _ => 1 / 2) n (fun e => v "Four_Balls_Biased" e n) ∧
      Integrates κ lawOfBalls (fun z => Real.sin (z.1 0 ^ 2)) n (fun e => v "Four_Balls_SinSquare" e n) ∧
      Integrates κ lawOfNormal (fun _ => 0) n (fun e => v "Normal-25Dim" e n)) ∧
    ∀ n : ℕ, 2 ≤ n → ∀ k,
      v "Four_Balls_Biased" "InfoNCE" n k = v "Four_Balls" "InfoNCE" n k ∧
      v "Four_Balls_SinSquare" "InfoNCE" n k = v "Four_Balls" "InfoNCE" n k ∧
      v "Four_Balls_Biased" "DV" n k = v "Four_Balls" "DV" n k ∧
      v "Four_Balls_Biased" "MC" n k = v "Four_Balls" "MC" n k + 1 / 2 := by
  obtain ⟨J, K, hJ, hJt, hK, hKt, hds⟩ := setups_ok hT R₀
  have s1 := fun (n : ℕ) (hn : 2 ≤ n) => runValue_spec hJ hJt (c := pmiOf J) (g := fun _ _ => 0) (fun x y => by simp)
    measurable_const (C := 0) (fun x y => by simp) n hn
  have s2 := fun (n : ℕ) (hn : 2 ≤ n) => runValue_spec hJ hJt (c := fun x y => pmiOf J x y + 0.5) (g := fun _ _ => 1 / 2)
    (fun x y => by norm_num) measurable_const (C := 1 / 2) (fun x y => by norm_num) n hn
  have s3 := fun (n : ℕ) (hn : 2 ≤ n) => runValue_spec hJ hJt (c := fun x y => pmiOf J x y + Real.sin ((x.headD 0) ^ 2))
    (g := fun x _ => Real.sin (x 0 ^ 2)) (fun x y => by simp [List.ofFn_succ]) (by fun_prop) (C := 1)
    (fun x y => Real.abs_sin_le_one _) n hn
  have s4 := fun (n : ℕ) (hn : 2 ≤ n) => runValue_spec hK hKt (c := pmiOf K) (g := fun _ _ => 0) (fun x y => by simp)
    measurable_const (C := 0) (fun x y => by simp) n hn
  let D : String → JointDistribution Key × Critic := fun s =>
    if s = "Four_Balls" then (J, pmiOf J) else if s = "Four_Balls_Biased" then (J, fun x y => pmiOf J x y + 0.5)
    else if s = "Four_Balls_SinSquare" then (J, fun x y => pmiOf J x y + Real.sin ((x.headD 0) ^ 2)) else (K, pmiOf K)
  refine ⟨fun setup e n k => runValue (D setup) e n k, fun R setup hsetup => ?_, fun n hn => ⟨?_, ?_, ?_, ?_⟩, fun n hn k => ?_⟩
  · have hds' : distributionAndPmis R T = _ := (setups_indep R R₀ T).trans hds
    simp only [List.mem_cons, List.not_mem_nil, or_false] at hsetup
    rcases hsetup with rfl | rfl | rfl | rfl
    · exact rows_of_setup hds' (D := D "Four_Balls") (by simp [Run.Dict.get, D]) (by simp) (by simp) fun n hn => (s1 n hn).2
    · exact rows_of_setup hds' (D := D "Four_Balls_Biased") (by simp [Run.Dict.get, D]) (by simp) (by simp) fun n hn => (s2 n hn).2
    · exact rows_of_setup hds' (D := D "Four_Balls_SinSquare") (by simp [Run.Dict.get, D]) (by simp) (by simp) fun n hn => (s3 n hn).2
    · exact rows_of_setup hds' (D := D "Normal-25Dim") (by simp [Run.Dict.get, D]) (by simp) (by simp) fun n hn => (s4 n hn).2
  · exact (s1 n hn).1
  · exact (s2 n hn).1
  · exact (s3 n hn).1
  · exact (s4 n hn).1
  · obtain ⟨xs, ys, h1, hx, hy, -⟩ := (s1 n hn).2 k
    have d1 : D "Four_Balls" = (J, pmiOf J) := rfl
    have d2 : D "Four_Balls_Biased" = (J, fun x y => pmiOf J x y + 0.5) := rfl
    have d3 : D "Four_Balls_SinSquare" = (J, fun x y => pmiOf J x y + Real.sin ((x.headD 0) ^ 2)) := rfl
    have g1 : estimators.get "InfoNCE" = some Linear.infonce := by simp [estimators, Run.Dict.get]
    have g2 : estimators.get "DV" = some Linear.donskerVaradhan := by simp [estimators, Run.Dict.get]
    have g3 : estimators.get "MC" = some monteCarlo := by simp [estimators, Run.Dict.get]
    have hxy : xs.length = ys.length := by omega
    refine ⟨?_, ?_, ?_, ?_⟩
    · simp only [d1, d2, runValue, h1, g1]
      rw [infonce_shift (pmiOf J) (fun _ => 0.5) xs ys hxy (by omega)]
    · simp only [d1, d3, runValue, h1, g1]
      rw [infonce_shift (pmiOf J) (fun x => Real.sin ((x.headD 0) ^ 2)) xs ys hxy (by omega)]
    · simp only [d1, d2, runValue, h1, g2]
      rw [donskerVaradhan_shift (pmiOf J) 0.5 xs ys hxy (by omega)]
    · simp only [d1, d2, runValue, h1, g3, monteCarlo]
      obtain ⟨m, x, y, hl, rfl, rfl⟩ := exists_ofFn xs ys hxy
      rw [Linear.mean_paired, Linear.mean_paired, EReal.toReal_coe, EReal.toReal_coe]
      have hm : (m : ℝ) ≠ 0 := by
        rw [List.length_ofFn] at hx
        exact_mod_cast (by omega : m ≠ 0)
      unfold Neural.Spec.positive
      rw [Finset.sum_add_distrib, Finset.sum_const, Finset.card_univ, Fintype.card_fin, nsmul_eq_mul, add_div,
        mul_div_cancel_left₀ _ hm]
      norm_num

/-- **C71**: the dotted lines.  They are averages over the seeds `0, ..., 9` of unbiased estimates of the mutual information of
the distributions, the same for the three setups with the four balls. -/
theorem ground_truth (hT : IdealTfp T κ) (R₀ : JaxRandom Key) : ∃ f g : Key → EReal,
    Outliers.IsEstimate κ f 100000 lawOfBalls ∧ Outliers.IsEstimate κ g 100000 lawOfNormal ∧ ∀ R : JaxRandom Key,
      (∀ setup ∈ ["Four_Balls", "Four_Balls_Biased", "Four_Balls_SinSquare"],
        groundTruth R T setup = .ok ((∑ i : Fin 10, f (R.prngKey (i : ℕ))) / (10 : ℕ))) ∧
      groundTruth R T "Normal-25Dim" = .ok ((∑ i : Fin 10, g (R.prngKey (i : ℕ))) / (10 : ℕ)) := by
  obtain ⟨J, K, hJ, hJt, hK, hKt, hds⟩ := setups_ok hT R₀
  have key : ∀ (R : JaxRandom Key) (name : String) (D : JointDistribution Key × Critic), name.toList ≠ [] → '\n' ∉ name.toList →
      Run.Dict.get [("Four_Balls", (J, pmiOf J)), ("Four_Balls_Biased", (J, fun x y => pmiOf J x y + 0.5)),
        ("Four_Balls_SinSquare", (J, fun x y => pmiOf J x y + Real.sin ((x.headD 0) ^ 2))), ("Normal-25Dim", (K, pmiOf K))] name
          = some D →
      groundTruth R T name = .ok ((∑ i : Fin 10, Outliers.runWith D.1 (R.prngKey (i : ℕ))) / (10 : ℕ)) := by
    intro R name D hne hnl hD
    have hds' : distributionAndPmis R T = _ := (setups_indep R R₀ T).trans hds
    choose e he using fun k => Outliers.runWith_spec D.1 k
    have hl : (List.range 10).mapM (fun seed : ℕ => groundTruthSeed R T (fill truthPat [name.toList, intStr seed]))
        = .ok ((List.range 10).map fun i : ℕ => (Outliers.runWith D.1 (R.prngKey i), e (R.prngKey i))) := by
      refine Outliers.mapM_ok _ _ _ fun i _ => ?_
      obtain ⟨d1, d2⟩ := intStr_digits (z := (i : ℤ)) (by omega)
      rw [groundTruthSeed, match_truth _ _ hne hnl d1 d2]
      simp only [hds', lift, bind, Except.bind, String.ofList_toList, hD, orRaise, pyInt_intStr, he]
    unfold groundTruth
    simp only [hl, bind, Except.bind]
    rw [Bmm.mean, range_ofFn, List.map_ofFn, List.map_ofFn, List.sum_ofFn, List.length_ofFn]
    rfl
  refine ⟨Outliers.runWith J, Outliers.runWith K, truth_estimate hJ hJt, truth_estimate hK hKt, fun R => ⟨fun setup hsetup => ?_, ?_⟩⟩
  · simp only [List.mem_cons, List.not_mem_nil, or_false] at hsetup
    rcases hsetup with rfl | rfl | rfl <;> exact key R _ (J, _) (by simp) (by simp) (by simp [Run.Dict.get]; rfl)
  · exact key R _ (K, _) (by simp) (by simp) (by simp [Run.Dict.get]; rfl)

/-! ## What can be read off the figure -/

section
variable {X Y : Type} [MeasurableSpace X] [MeasurableSpace Y] {P : Measure (X × Y)} [IsProbabilityMeasure P] {n : ℕ}
  {v : String → Key → ℝ}

/-- **C71**, unbiased critics: the Monte Carlo average and NWJ are unbiased, Donsker-Varadhan overestimates, InfoNCE
underestimates. -/
theorem unbiased_critic (h : Integrates κ P (fun _ => 0) n v) :
    ∫ k, v "MC" k ∂κ = (mutualInfo P).toReal ∧ ∫ k, v "NWJ" k ∂κ = (mutualInfo P).toReal ∧
    (mutualInfo P).toReal ≤ ∫ k, v "DV" k ∂κ ∧ ∫ k, v "InfoNCE" k ∂κ ≤ (mutualInfo P).toReal := by
  have h1 := h.mc
  have h2 := h.nwj
  simp at h1 h2
  refine ⟨h1, h2, ?_, h.infonce⟩
  rw [← h2]
  exact integral_mono (h.integrable _ (by simp)) (h.integrable _ (by simp)) h.dv_ge

/-- **C71**, constant bias: the Monte Carlo average is too large by 1/2, NWJ is too small by between 0.14 and 0.15. -/
theorem constant_bias (h : Integrates κ P (fun _ => 1 / 2) n v) :
    ∫ k, v "MC" k ∂κ = (mutualInfo P).toReal + 1 / 2 ∧
    ∫ k, v "NWJ" k ∂κ = (mutualInfo P).toReal + (3 / 2 - √(Real.exp 1)) ∧
    3 / 2 - √(Real.exp 1) ∈ Set.Ioo (-3 / 20 : ℝ) (-7 / 50) := by
  have h1 := h.mc
  have h2 := h.nwj
  simp only [integral_const, probReal_univ, one_smul] at h1 h2
  refine ⟨h1, ?_, ?_, ?_⟩
  · rw [h2, ← Real.exp_half]
    ring
  · have : √(Real.exp 1) < 33 / 20 := by
      rw [Real.sqrt_lt' (by norm_num)]
      linarith [Real.exp_one_lt_d9]
    linarith
  · have : 41 / 25 < √(Real.exp 1) := by
      rw [Real.lt_sqrt (by norm_num)]
      linarith [Real.exp_one_gt_d9]
    linarith

end

/-- Some random numbers. -/
noncomputable def pathRandom : JaxRandom PathKey where
  prngKey _ := fun _ => 0
  split k _ _ := k
  uniform _ _ _ _ _ _ _ := 0
  randint _ _ _ _ _ _ _ := 0
  exponential _ _ _ _ _ := 0
  bernoulli _ _ _ _ _ _ := false
  poisson _ _ _ _ _ _ := 0
  multivariateNormal _ _ _ _ _ _ _ := 0

theorem balls_consistent : IsProbabilityMeasure lawOfBalls ∧ lawOfBalls ≪ volume := by
  obtain ⟨J, h1, h2, -⟩ := fourBalls_ok path_ideal pathRandom
  refine ⟨h2.prob, ?_⟩
  have := h2.joint.density
  rw [this, Set.univ_prod_univ, Measure.restrict_univ]
  exact withDensity_absolutelyContinuous _ _

/-- **C71**, functional bias: NWJ is too small. -/
theorem functional_bias {n : ℕ} {v : String → Key → ℝ} (h : Integrates κ lawOfBalls (fun z => Real.sin (z.1 0 ^ 2)) n v) :
    ∫ k, v "NWJ" k ∂κ < (mutualInfo lawOfBalls).toReal := by
  haveI := balls_consistent.1
  have hm : Measurable fun z : (Fin 1 → ℝ) × (Fin 1 → ℝ) => Real.sin (z.1 0 ^ 2) := by fun_prop
  have i1 : Integrable (fun z : (Fin 1 → ℝ) × (Fin 1 → ℝ) => Real.sin (z.1 0 ^ 2)) lawOfBalls :=
    Integrable.of_bound hm.aestronglyMeasurable 1 (Filter.Eventually.of_forall fun z => Real.abs_sin_le_one _)
  have i2 : Integrable (fun z : (Fin 1 → ℝ) × (Fin 1 → ℝ) => Real.exp (Real.sin (z.1 0 ^ 2))) lawOfBalls :=
    integrable_exp_of_bdd _ hm 1 fun p => Real.abs_sin_le_one _
  have hc : {t : ℝ | Real.sin (t ^ 2) = 0}.Countable := by
    have : {t : ℝ | Real.sin (t ^ 2) = 0} ⊆ ⋃ k : ℤ, {√(k * Real.pi), -√(k * Real.pi)} := by
      intro t ht
      obtain ⟨k, hk⟩ := Real.sin_eq_zero_iff.1 ht
      refine Set.mem_iUnion.2 ⟨k, ?_⟩
      rw [hk, Real.sqrt_sq_eq_abs]
      rcases abs_choice t with h | h <;> rw [h] <;> simp
    exact (Set.countable_iUnion fun k => (Set.toFinite _).countable).mono this
  have hz : lawOfBalls {z | Real.sin (z.1 0 ^ 2) = 0} = 0 := by
    refine balls_consistent.2 ?_
    have hA : {x : Fin 1 → ℝ | Real.sin (x 0 ^ 2) = 0}.Countable :=
      hc.preimage_of_injOn (f := fun x : Fin 1 → ℝ => x 0) fun x _ y _ hxy => by
        funext i
        rw [Subsingleton.elim i 0]
        exact hxy
    have : {z : (Fin 1 → ℝ) × (Fin 1 → ℝ) | Real.sin (z.1 0 ^ 2) = 0} = {x : Fin 1 → ℝ | Real.sin (x 0 ^ 2) = 0} ×ˢ Set.univ := by
      ext z
      simp
    rw [this, Measure.volume_eq_prod, Measure.prod_prod, hA.measure_zero, zero_mul]
  have key : 0 < ∫ z, (Real.exp (Real.sin (z.1 0 ^ 2)) - (Real.sin (z.1 0 ^ 2) + 1)) ∂lawOfBalls := by
    have h0 : ∀ z : (Fin 1 → ℝ) × (Fin 1 → ℝ), 0 ≤ Real.exp (Real.sin (z.1 0 ^ 2)) - (Real.sin (z.1 0 ^ 2) + 1) := fun z => by
      linarith [Real.add_one_le_exp (Real.sin (z.1 0 ^ 2))]
    refine lt_of_le_of_ne (integral_nonneg h0) fun he => ?_
    have := (integral_eq_zero_iff_of_nonneg h0 (i2.sub (i1.add (integrable_const 1)))).1 he.symm
    have h1 : ∀ᵐ z ∂lawOfBalls, Real.sin (z.1 0 ^ 2) = 0 := by
      filter_upwards [this] with z hz
      by_contra hne
      have := Real.add_one_lt_exp hne
      simp only [Pi.zero_apply] at hz
      linarith
    have h2 : ∀ᵐ z ∂lawOfBalls, Real.sin (z.1 0 ^ 2) ≠ 0 := by
      rw [ae_iff]
      simpa using hz
    have h3 : ∀ᵐ z ∂lawOfBalls, False := by
      filter_upwards [h1, h2] with z a b using b a
    rw [Filter.eventually_false_iff_eq_bot, ae_eq_bot] at h3
    exact IsProbabilityMeasure.ne_zero _ h3
  have i3 : Integrable (fun z : (Fin 1 → ℝ) × (Fin 1 → ℝ) => Real.sin (z.1 0 ^ 2) + 1) lawOfBalls := i1.add (integrable_const 1)
  rw [integral_sub i2 i3, integral_add i1 (integrable_const 1)] at key
  simp at key
  rw [h.nwj]
  linarith

/-- **C71**, high dimension: the mutual information is `25 log (5/3)`, and with at most 8192 points no value of InfoNCE comes
closer to it than 3 from below or exceeds it. -/
theorem high_dimension {n : ℕ} {g : (Fin 25 → ℝ) × (Fin 25 → ℝ) → ℝ} {v : String → Key → ℝ} (h : Integrates κ lawOfNormal g n v)
    (h0 : 0 < n) (hn : n ≤ 8192) :
    (mutualInfo lawOfNormal).toReal = 25 * Real.log (5 / 3) ∧ ∀ k, v "InfoNCE" k + 3 < 25 * Real.log (5 / 3) := by
  refine ⟨(normal_ok path_ideal pathRandom).choose_spec.choose_spec.2.2.2.2, fun k => ?_⟩
  have h1 := h.infonce_le k
  have h2 : Real.log n ≤ 13 * Real.log 2 := by
    have := Real.log_le_log (by exact_mod_cast h0) (show (n : ℝ) ≤ 2 ^ 13 by norm_num; exact_mod_cast hn)
    rwa [Real.log_pow] at this
  have h3 : 11 * Real.log 2 ≤ 15 * Real.log (5 / 3) := by
    have := Real.log_le_log (by norm_num) (show (2 : ℝ) ^ 11 ≤ (5 / 3) ^ 15 by norm_num)
    rwa [Real.log_pow, Real.log_pow] at this
  have h4 := Real.log_two_gt_d9
  linarith

/-- There is a source of randomness which meets the assumptions; there, for instance with 64 points, the numbers of the figure are
as stated. -/
example : ∃ v : String → String → ℕ → PathKey → ℝ, (∀ R : JaxRandom PathKey, ∃ rows, assembleEstimates R path "Normal-25Dim" = .ok rows ∧
      rows.length = 880) ∧ ∫ k, v "Four_Balls" "NWJ" 64 k ∂pathLaw = (mutualInfo lawOfBalls).toReal ∧
    ∫ k, v "Four_Balls_SinSquare" "NWJ" 64 k ∂pathLaw < (mutualInfo lawOfBalls).toReal ∧
    ∀ k, v "Normal-25Dim" "InfoNCE" 64 k + 3 < 25 * Real.log (5 / 3) := by
  obtain ⟨v, h1, h2, -⟩ := experiment path_ideal pathRandom
  obtain ⟨a, -, b, c⟩ := h2 64 (by norm_num)
  haveI := balls_consistent.1
  refine ⟨v, fun R => ⟨_, h1 R "Normal-25Dim" (by simp), ?_⟩, (unbiased_critic a).2.1, functional_bias b,
    (high_dimension c (by norm_num) (by norm_num)).2⟩
  simp [List.length_flatMap]

end BMI.Integration
