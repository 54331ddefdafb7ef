import Verif.Lemmas.ZeroInflatedDraw
import Verif.Lemmas.IdealWitness

/-! Property C06: `ZeroInflatedPoissonizationSampler` (/repo/src/bmi/samplers/_discrete_continuous.py:121-187).

The number it reports is right without zero inflation, and too large whenever there is some. -/

namespace BMI.Samplers

open MeasureTheory ProbabilityTheory

variable {Key : Type}

/-- The documented law on pairs of numbers. -/
noncomputable def zipPairs (p : ℝ) : Measure (ℝ × ℝ) := (zipLaw p).map (Prod.map id Nat.cast)

theorem measurable_zipCast : Measurable (Prod.map id Nat.cast : ℝ × ℕ → ℝ × ℝ) :=
  measurable_id.prodMap measurable_from_top

theorem isProbabilityMeasure_zipPairs {p : ℝ} (h0 : 0 ≤ p) (h1 : p < 1) : IsProbabilityMeasure (zipPairs p) := by
  haveI := isProbabilityMeasure_zipLaw h0 h1
  exact Measure.isProbabilityMeasure_map measurable_zipCast.aemeasurable

theorem mutualInfo_zipPairs {p : ℝ} (h0 : 0 ≤ p) (h1 : p < 1) : mutualInfo (zipPairs p) = mutualInfo (zipLaw p) := by
  haveI := isProbabilityMeasure_zipLaw h0 h1
  exact mutualInfo_map_eq_of_injOn (zipLaw p) measurable_id (measurable_from_top (f := fun k : ℕ => (k : ℝ)))
    MeasurableSet.univ MeasurableSet.univ (by simp) (by simp) Function.injective_id.injOn Nat.cast_injective.injOn

/-- **C06**: `sample` returns independent draws of the documented law. -/
theorem zeroInflatedPoisson_law [MeasurableSpace Key] (R : JaxRandom Key) (κ : Measure Key) (hR : IdealRandom R κ)
    (p : ℝ) (h0 : 0 ≤ p) (h1 : p < 1) :
    ∃ s, zeroInflatedPoisson R p = .ok s ∧ HasLaw κ s (liftPair (zipPairs p)) := by
  haveI := hR.prob
  haveI : IsProbabilityMeasure (expMeasure 1) := isProbabilityMeasure_expMeasure one_pos
  haveI : IsProbabilityMeasure (bernoulliLaw (1 - p)) := isProbabilityMeasure_bernoulliLaw (by linarith) (by linarith)
  haveI := isProbabilityMeasure_zipLaw h0 h1
  obtain ⟨s, hs⟩ : ∃ s, zeroInflatedPoisson R p = .ok s := by
    unfold zeroInflatedPoisson
    rw [if_neg (by simp only [not_or, not_lt, ge_iff_le, not_le]; exact ⟨h0, h1⟩)]
    exact ⟨_, rfl⟩
  refine ⟨s, hs, fun n => ?_⟩
  unfold zeroInflatedPoisson at hs
  rw [if_neg (by simp only [not_or, not_lt, ge_iff_le, not_le]; exact ⟨h0, h1⟩)] at hs
  obtain rfl := Except.ok.inj hs
  obtain ⟨m1, l1⟩ := hR.exponential n 1
  obtain ⟨m2, l2⟩ := hR.bernoulli n 1 (1 - p) (by linarith) (by linarith)
  obtain ⟨m3, -⟩ := hR.poisson n 1
  obtain ⟨m4, l4⟩ := split_three hR.split
  have mev : ∀ {γ : Type} [MeasurableSpace γ], Measurable fun (a : Fin n → Fin 1 → γ) i => a i 0 := by
    intro γ _
    fun_prop
  -- rows of exponentials and coins, and the third key
  let pre : (Key × Key) × Key → (Fin n → ℝ × Bool) × Key := fun k =>
    (fun i => (R.exponential k.1.1 n 1 i 0, R.bernoulli k.1.2 (1 - p) n 1 i 0), k.2)
  let rows : (Fin n → ℝ × Bool) × Key → Fin n → (ℝ × Bool) × ℕ := fun z i =>
    (z.1 i, R.poisson z.2 n 1 (fun i _ => (z.1 i).1) i 0)
  let out : (ℝ × Bool) × ℕ → (Fin 1 → ℝ) × (Fin 1 → ℝ) := fun z =>
    (single z.1.1, single ((if z.1.2 then z.2 else 0 : ℕ) : ℝ))
  have mA : Measurable fun k (i : Fin n) => R.exponential k n 1 i 0 := mev.comp m1
  have mB : Measurable fun k (i : Fin n) => R.bernoulli k (1 - p) n 1 i 0 := mev.comp m2
  have mzip : Measurable fun (z : (Fin n → ℝ) × (Fin n → Bool)) i => (z.1 i, z.2 i) := by fun_prop
  have mpre1 : Measurable fun (k : Key × Key) (i : Fin n) =>
      (R.exponential k.1 n 1 i 0, R.bernoulli k.2 (1 - p) n 1 i 0) := mzip.comp (mA.prodMap mB)
  have mpre : Measurable pre := (mpre1.comp measurable_fst).prodMk measurable_snd
  have mrows : Measurable rows := by
    refine measurable_pi_lambda _ fun i => ((measurable_pi_apply i).comp measurable_fst).prodMk ?_
    refine (measurable_pi_apply 0).comp ((measurable_pi_apply i).comp (m3.comp (measurable_snd.prodMk ?_)))
    exact measurable_pi_lambda _ fun i => measurable_pi_lambda _ fun _ =>
      measurable_fst.comp ((measurable_pi_apply i).comp measurable_fst)
  have mthin : Measurable fun z : (ℝ × Bool) × ℕ => (z.1.1, if z.1.2 then z.2 else 0) :=
    (measurable_fst.comp measurable_fst).prodMk (Measurable.ite
      ((measurable_snd.comp measurable_fst) (measurableSet_singleton true)) measurable_snd measurable_const)
  have mout : Measurable out :=
    (measurable_single.prodMap measurable_single).comp (measurable_zipCast.comp mthin)
  have mout' : Measurable fun (z : Fin n → (ℝ × Bool) × ℕ) i => out (z i) :=
    measurable_pi_lambda _ fun i => mout.comp (measurable_pi_apply i)
  refine ⟨fun k i => out (rows (pre ((R.split k 3 0, R.split k 3 1), R.split k 3 2)) i),
    mout'.comp (mrows.comp (mpre.comp m4)), fun k => ?_, ?_⟩
  · have e : ∀ (x : Fin n → Fin 1 → ℝ), x = fun i => single (x i 0) := by
      intro x
      funext i j
      rw [Subsingleton.elim j 0]
      rfl
    have ex : R.exponential (R.split k 3 0) n 1 = fun i _ => R.exponential (R.split k 3 0) n 1 i 0 := e _
    simp only [castToRng, out, rows, pre]
    rw [← ex]
    refine congrArg Except.ok (Prod.ext (congrArg rowsOf (e _)) (congrArg rowsOf ?_))
    funext i j
    rw [Subsingleton.elim j 0]
    show (if R.bernoulli (R.split k 3 1) (1 - p) n 1 i 0 then (1 : ℝ) else 0)
        * ((R.poisson (R.split k 3 2) n 1 (R.exponential (R.split k 3 0) n 1) i 0 : ℕ) : ℝ)
      = ((if R.bernoulli (R.split k 3 1) (1 - p) n 1 i 0 then
          R.poisson (R.split k 3 2) n 1 (R.exponential (R.split k 3 0) n 1) i 0 else 0 : ℕ) : ℝ)
    split_ifs <;> simp
  · have e : (fun k (i : Fin n) => out (rows (pre ((R.split k 3 0, R.split k 3 1), R.split k 3 2)) i))
        = (fun (z : Fin n → (ℝ × Bool) × ℕ) i => out (z i)) ∘ rows ∘ pre ∘
          (fun k => ((R.split k 3 0, R.split k 3 1), R.split k 3 2)) := rfl
    rw [e, ← Measure.map_map mout' (mrows.comp (mpre.comp m4)), ← Measure.map_map mrows (mpre.comp m4),
      ← Measure.map_map mpre m4, l4]
    have l5 : (κ.prod κ).map (fun k (i : Fin n) => (R.exponential k.1 n 1 i 0, R.bernoulli k.2 (1 - p) n 1 i 0))
        = Measure.pi fun _ => (expMeasure 1).prod (bernoulliLaw (1 - p)) := by
      have e2 : (fun (k : Key × Key) (i : Fin n) => (R.exponential k.1 n 1 i 0, R.bernoulli k.2 (1 - p) n 1 i 0))
          = (fun (z : (Fin n → ℝ) × (Fin n → Bool)) i => (z.1 i, z.2 i)) ∘
            Prod.map (fun k i => R.exponential k n 1 i 0) (fun k i => R.bernoulli k (1 - p) n 1 i 0) := rfl
      have eA : κ.map (fun k i => R.exponential k n 1 i 0) = Measure.pi fun _ : Fin n => expMeasure 1 := by
        rw [← pi_pi_one n (expMeasure 1), ← l1, Measure.map_map mev m1]
        rfl
      have eB : κ.map (fun k i => R.bernoulli k (1 - p) n 1 i 0)
          = Measure.pi fun _ : Fin n => bernoulliLaw (1 - p) := by
        rw [← pi_pi_one n (bernoulliLaw (1 - p)), ← l2, Measure.map_map mev m2]
        rfl
      rw [e2, ← Measure.map_map mzip (mA.prodMap mB), ← Measure.map_prod_map _ _ mA mB, eA, eB, pi_zip]
    have l6 : ((κ.prod κ).prod κ).map pre
        = (Measure.pi fun _ : Fin n => (expMeasure 1).prod (bernoulliLaw (1 - p))).prod κ := by
      have e3 : pre = Prod.map (fun (k : Key × Key) (i : Fin n) =>
        (R.exponential k.1 n 1 i 0, R.bernoulli k.2 (1 - p) n 1 i 0)) id := rfl
      have e4 : κ.map id = κ := Measure.map_id
      haveI : SFinite (κ.map id) := by rw [e4]; infer_instance
      rw [e3, ← Measure.map_prod_map _ _ mpre1 measurable_id, l5, e4]
    have hpos : ∀ᵐ a ∂((expMeasure 1).prod (bernoulliLaw (1 - p))), 0 ≤ a.1 := by
      have h := expMeasure_pos
      have e5 : ((expMeasure 1).prod (bernoulliLaw (1 - p))).map Prod.fst = expMeasure 1 := by
        rw [Measure.map_fst_prod, measure_univ, one_smul]
      rw [← e5] at h
      exact (ae_of_ae_map measurable_fst.aemeasurable h).mono fun a ha => ha.le
    rw [l6, poisson_rows hR.poisson _ Prod.fst measurable_fst hpos n]
    have h2 := Measure.pi_map_pi (μ := fun _ : Fin n =>
        ((expMeasure 1).prod (bernoulliLaw (1 - p))) ⊗ₘ (poissonKernel.comap Prod.fst measurable_fst))
      (f := fun _ z => out z) (hμ := fun _ => (by
        have := Measure.isProbabilityMeasure_map (μ := ((expMeasure 1).prod (bernoulliLaw (1 - p))) ⊗ₘ
          (poissonKernel.comap Prod.fst measurable_fst)) mout.aemeasurable
        infer_instance)) (fun _ => mout.aemeasurable)
    rw [h2]
    congr 1
    funext i
    unfold liftPair zipPairs
    rw [← zip_thinning h0 h1, Measure.map_map measurable_zipCast mthin,
      Measure.map_map (measurable_single.prodMap measurable_single) (measurable_zipCast.comp mthin)]
    rfl

example : ∃ s, zeroInflatedPoisson tree 0.15 = .ok s ∧ HasLaw treeLaw s (liftPair (zipPairs 0.15)) :=
  zeroInflatedPoisson_law tree treeLaw tree_ideal _ (by norm_num) (by norm_num)

/-- The value reported with `truncation = t`. -/
theorem zeroInflatedPoissonMI_eq (p : ℝ) (t : ℕ) (ht : 0 < t) : zeroInflatedPoissonMI p (some t)
    = .ok ((1 - p) * (2 * Real.log 2 - Real.eulerMascheroniConstant
        - ∑ k ∈ Finset.range t, Real.log (k + 1 : ℝ) * (1 / 2) ^ (k + 1))) := by
  unfold zeroInflatedPoissonMI
  simp only [gt_iff_lt, Int.natCast_pos.2 ht, if_true, Int.toNat_natCast, List.map_map]
  congr 3
  clear ht
  induction t with
  | zero => simp
  | succ t ih =>
    rw [List.range_succ, List.map_append, List.sum_append, ih, Finset.sum_range_succ]
    simp only [List.map_cons, List.map_nil, List.sum_cons, List.sum_nil, add_zero, Function.comp_apply]
    congr 2
    rw [Real.rpow_neg two_pos.le, one_div, inv_pow, ← Real.rpow_natCast]
    push_cast
    rfl

/-- The tail of the series. -/
theorem log_geometric_tail (t : ℕ) :
    ∑' k : ℕ, Real.log (k + 1 : ℝ) * (1 / 2) ^ (k + 1)
      ≤ ∑ k ∈ Finset.range t, Real.log (k + 1 : ℝ) * (1 / 2) ^ (k + 1) + (t + 1) * (1 / 2) ^ t := by
  have hs := summable_log_geometric
  rw [← hs.sum_add_tsum_nat_add t]
  refine add_le_add le_rfl ?_
  have h1 : HasSum (fun k : ℕ => (1 / 2 : ℝ) ^ t * ((t : ℝ) * (1 / 2) ^ (k + 1) + (1 / 2) ^ (k + 1) * k))
      ((1 / 2) ^ t * (t * 1 + 1)) := by
    refine HasSum.mul_left _ (HasSum.add (HasSum.mul_left _ ?_) hasSum_geometric_mean)
    have := hasSum_geometric_two.mul_left (1 / 2)
    norm_num at this
    refine (congrArg (HasSum · (1 : ℝ)) (funext fun k => ?_)).mpr this
    rw [pow_succ]
    norm_num
    ring
  refine le_trans (((summable_nat_add_iff t).2 hs).tsum_le_tsum (fun k => ?_) h1.summable) (le_of_eq ?_)
  · have := Real.log_le_sub_one_of_pos (show (0 : ℝ) < ((k + t : ℕ) : ℝ) + 1 by positivity)
    have e : (1 / 2 : ℝ) ^ (k + t + 1) = (1 / 2) ^ t * (1 / 2) ^ (k + 1) := by rw [← pow_add]; ring_nf
    have h2 : (0 : ℝ) ≤ (1 / 2) ^ t * (1 / 2) ^ (k + 1) := by positivity
    rw [e]
    push_cast at this ⊢
    nlinarith
  · rw [h1.tsum_eq]; ring

/-- **C06**: as the truncation grows the reported value decreases to `(1 - p) (2 log 2 - γ - S)`, at a geometric
rate. -/
theorem zeroInflatedPoissonMI_converges (p : ℝ) (h1 : p < 1) (t : ℕ) (ht : 0 < t) :
    ∃ v, zeroInflatedPoissonMI p (some t) = .ok v ∧ (1 - p) * zipBracket ≤ v ∧
      v ≤ (1 - p) * (zipBracket + (t + 1) * (1 / 2) ^ t) := by
  refine ⟨_, zeroInflatedPoissonMI_eq p t ht, mul_le_mul_of_nonneg_left ?_ (by linarith),
    mul_le_mul_of_nonneg_left ?_ (by linarith)⟩
  · unfold zipBracket
    have := summable_log_geometric.sum_le_tsum (Finset.range t) fun k _ =>
      mul_nonneg (Real.log_nonneg (by linarith [k.cast_nonneg (α := ℝ)])) (by positivity : (0 : ℝ) ≤ (1 / 2) ^ (k + 1))
    linarith
  · unfold zipBracket
    linarith [log_geometric_tail t]

example : ∃ v, zeroInflatedPoissonMI 0 (some (10 : ℕ)) = .ok v ∧ |v - zipBracket| ≤ 0.011 := by
  obtain ⟨v, h, h1, h2⟩ := zeroInflatedPoissonMI_converges 0 (by norm_num) 10 (by norm_num)
  refine ⟨v, h, ?_⟩
  norm_num at h1 h2
  rw [abs_le]
  constructor <;> linarith

/-- **C06**: a truncation that is not positive is rejected. -/
theorem zeroInflatedPoissonMI_rejects (p : ℝ) (t : ℤ) (ht : t ≤ 0) :
    zeroInflatedPoissonMI p (some t) = .error .assertionError := by
  unfold zeroInflatedPoissonMI
  simp only [gt_iff_lt, not_lt.2 ht, if_false]

/-- **C06** holds for `p = 0`: the limit is the mutual information.  The full property would say
`mutualInfo (liftPair (zipPairs p)) = ENNReal.ofReal ((1 - p) * zipBracket)` for every `0 ≤ p < 1`; the next theorem shows
that this is false for every `p > 0`. -/
theorem zeroInflatedPoisson_exact_partial : mutualInfo (liftPair (zipPairs 0)) = ENNReal.ofReal ((1 - 0) * zipBracket) := by
  haveI := isProbabilityMeasure_zipPairs (p := 0) le_rfl one_pos
  rw [mutualInfo_liftPair, mutualInfo_zipPairs le_rfl one_pos, zipLaw_zero_mi.1]
  simp

/-- **C06** fails for `0 < p < 1`: the limit, and with it the value at every truncation, is larger than the mutual
information. -/
theorem zeroInflatedPoisson_overreports (p : ℝ) (h0 : 0 < p) (h1 : p < 1) :
    mutualInfo (liftPair (zipPairs p)) < ENNReal.ofReal ((1 - p) * zipBracket) ∧
      ∀ t : ℕ, 0 < t → ∃ v, zeroInflatedPoissonMI p (some t) = .ok v ∧
        mutualInfo (liftPair (zipPairs p)) < ENNReal.ofReal v := by
  haveI := isProbabilityMeasure_zipPairs h0.le h1
  have h : mutualInfo (liftPair (zipPairs p)) < ENNReal.ofReal ((1 - p) * zipBracket) := by
    rw [mutualInfo_liftPair, mutualInfo_zipPairs h0.le h1]
    exact zipLaw_mi_lt h0 h1
  refine ⟨h, fun t ht => ?_⟩
  obtain ⟨v, hv, hl, -⟩ := zeroInflatedPoissonMI_converges p h1 t ht
  exact ⟨v, hv, h.trans_le (ENNReal.ofReal_le_ofReal hl)⟩

example : ∃ v, zeroInflatedPoissonMI 0.15 (some (1000 : ℕ)) = .ok v ∧
    mutualInfo (liftPair (zipPairs 0.15)) < ENNReal.ofReal v :=
  (zeroInflatedPoisson_overreports 0.15 (by norm_num) (by norm_num)).2 1000 (by norm_num)

end BMI.Samplers
