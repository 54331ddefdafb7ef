import Verif.Props.Bmm

/-! Property C22 (transforms and products), over /repo/src/bmi/samplers/_tfp. -/

namespace BMI.Bmm

open MeasureTheory ProbabilityTheory BMI.Samplers BMI.Student

variable {Key : Type}

/-! ## Pointwise mutual information -/

theorem ereal_sub_shift (u v : EReal) (r : ℝ) : (u + r) - (v + r) = u - v := by
  induction u using EReal.rec <;> induction v using EReal.rec <;> try rfl
  · next a b =>
    norm_cast
    rw [add_sub_add_right_eq_sub]

/-- **C22**: at transformed points, the transformed distribution has the pointwise mutual information of the original one,
whatever the bijectors are, as long as `inverse` undoes `forward`. -/
theorem transform_pmiAt (J : JointDistribution Key) (b c : Bijector) (x y : List ℝ) (hx : x.length = J.dimX)
    (hb : Undoes b x) (hc : Undoes c y) :
    (transform J (some b) (some c)).pmiAt (b.forward x) (c.forward y) = J.pmiAt x y := by
  have ht : (b.forward x ++ c.forward y).take J.dimX = b.forward x := List.take_left' (hb.1.trans hx)
  have hd : (b.forward x ++ c.forward y).drop J.dimX = c.forward y := List.drop_left' (hb.1.trans hx)
  unfold JointDistribution.pmiAt transform transformedDistribution Bijector.blockwise
  simp only [Option.getD_some, ht, hd, hb.2, hc.2]
  rw [add_add_add_comm, EReal.coe_add, ← EReal.coe_add]
  exact ereal_sub_shift _ _ _

/-- Doubling, as a bijector; in any number of coordinates. -/
noncomputable def doubling : Bijector where
  forward r := r.map (2 * ·)
  inverse r := r.map (· / 2)
  ildj r := -(r.length * Real.log 2)

theorem doubling_undoes (r : List ℝ) : Undoes doubling r := by
  refine ⟨by simp [doubling], ?_⟩
  show (r.map (2 * ·)).map (· / 2) = r
  rw [List.map_map]
  conv_rhs => rw [← List.map_id r]
  refine List.map_congr_left fun x _ => ?_
  simp

example (J : JointDistribution Key) (hJ : J.dimX = 1) :
    (transform J (some doubling) (some .identity)).pmiAt [2] [5] = J.pmiAt [1] [5] := by
  have := transform_pmiAt J doubling .identity [1] [5] (by rw [hJ]; rfl) (doubling_undoes _) ⟨rfl, rfl⟩
  simpa [doubling, Bijector.identity] using this

/-- **C22**, defaults: no transform is the identity. -/
theorem transform_pmiAt_default (J : JointDistribution Key) (x y : List ℝ) (hx : x.length = J.dimX) :
    (∀ b, Undoes b x → (transform J (some b) none).pmiAt (b.forward x) y = J.pmiAt x y) ∧
    (∀ c, Undoes c y → (transform J none (some c)).pmiAt x (c.forward y) = J.pmiAt x y) ∧
    (transform J none none).pmiAt x y = J.pmiAt x y :=
  ⟨fun b hb => transform_pmiAt J b .identity x y hx hb ⟨rfl, rfl⟩,
    fun c hc => transform_pmiAt J .identity c x y hx ⟨rfl, rfl⟩ hc,
    transform_pmiAt J .identity .identity x y hx ⟨rfl, rfl⟩ ⟨rfl, rfl⟩⟩

/-- **C22**, estimates: for every key, the profile and the Monte Carlo estimate (with its standard error) of the
transformed distribution are those of the original one, as long as the bijectors are invertible at the sampled points; and
`transform` keeps the analytic value. -/
theorem transform_estimate (J : JointDistribution Key) (b c : Bijector) (key : Key) (n : ℤ)
    (hrow : ∀ r ∈ J.distJoint.sample key n.toNat, J.dimX ≤ r.length ∧ Undoes b (r.take J.dimX) ∧ Undoes c (r.drop J.dimX)) :
    pmiProfile key (transform J (some b) (some c)) n = pmiProfile key J n ∧
    monteCarloMiEstimate key (transform J (some b) (some c)) n = monteCarloMiEstimate key J n ∧
    (transform J (some b) (some c)).analyticMi = J.analyticMi := by
  have hp : pmiProfile key (transform J (some b) (some c)) n = pmiProfile key J n := by
    unfold pmiProfile JointDistribution.sample
    by_cases hn : n < 1
    · rw [if_pos hn, if_pos hn]; rfl
    · rw [if_neg hn, if_neg hn]
      show JointDistribution.pmi _ _ _ = JointDistribution.pmi _ _ _
      have hs : (transform J (some b) (some c)).distJoint.sample key n.toNat
          = (J.distJoint.sample key n.toNat).map (Bijector.blockwise b c J.dimX).forward := rfl
      rw [hs]
      unfold JointDistribution.pmi
      rw [if_pos (by simp), if_pos (by simp)]
      congr 1
      generalize J.distJoint.sample key n.toNat = rows at hrow
      induction rows with
      | nil => rfl
      | cons r rows ih =>
        obtain ⟨hlen, hb, hc⟩ := hrow r List.mem_cons_self
        have hl : (r.take J.dimX).length = J.dimX := by simpa using hlen
        simp only [List.map_cons, List.zipWith_cons_cons]
        rw [ih fun r' hr' => hrow r' (List.mem_cons_of_mem _ hr')]
        congr 1
        have e1 : ((Bijector.blockwise b c J.dimX).forward r).take J.dimX = b.forward (r.take J.dimX) :=
          List.take_left' (hb.1.trans hl)
        have e2 : ((Bijector.blockwise b c J.dimX).forward r).drop J.dimX = c.forward (r.drop J.dimX) :=
          List.drop_left' (hb.1.trans hl)
        have := transform_pmiAt J b c (r.take J.dimX) (r.drop J.dimX) hl hb hc
        rw [← e1, ← e2] at this
        exact this
  refine ⟨hp, ?_, rfl⟩
  unfold monteCarloMiEstimate
  rw [hp]

example (J : JointDistribution Key) (key : Key) (n : ℤ) (h : ∀ r ∈ J.distJoint.sample key n.toNat, J.dimX ≤ r.length) :
    monteCarloMiEstimate key (transform J (some doubling) (some doubling)) n = monteCarloMiEstimate key J n :=
  (transform_estimate J doubling doubling key n fun r hr => ⟨h r hr, doubling_undoes _, doubling_undoes _⟩).2.1

/-- **C22**, products: the pointwise mutual information of a product distribution is zero wherever the densities are
positive and finite. -/
theorem product_pmiAt (T : Tfp Key) (D E : Dist Key) (J : JointDistribution Key) (hJ : productDistribution T D E = .ok J)
    (x y : List ℝ) (hx : x.length = J.dimX) (hD : D.logProb x ≠ ⊥ ∧ D.logProb x ≠ ⊤) (hE : E.logProb y ≠ ⊥ ∧ E.logProb y ≠ ⊤) :
    J.pmiAt x y = 0 := by
  unfold productDistribution at hJ
  simp only at hJ
  split_ifs at hJ with h1 h2
  obtain rfl := Except.ok.inj hJ
  obtain ⟨d, hd⟩ := List.length_eq_one_iff.1 (not_not.1 h1)
  have hx' : x.length = D.eventShape.prod := by
    rw [hx, hd]
    simp
  show D.logProb ((x ++ y).take D.eventShape.prod) + E.logProb ((x ++ y).drop D.eventShape.prod)
    - (D.logProb x + E.logProb y) = 0
  rw [List.take_left' hx', List.drop_left' hx']
  obtain ⟨u, hu⟩ : ∃ u : ℝ, D.logProb x = u := ⟨_, (EReal.coe_toReal hD.2 hD.1).symm⟩
  obtain ⟨v, hv⟩ : ∃ v : ℝ, E.logProb y = v := ⟨_, (EReal.coe_toReal hE.2 hE.1).symm⟩
  rw [hu, hv]
  norm_cast
  simp

example (T : Tfp Key) : ∃ J, productDistribution T (constructNormal T 1 [0] [[1]]) (constructStudent T 2 [0, 0] [[1, 0], [0, 1]] 3) = .ok J ∧
    J.pmiAt [5] [6, 7] = 0 := by
  obtain ⟨J, hJ⟩ : ∃ J, productDistribution T (constructNormal T 1 [0] [[1]]) (constructStudent T 2 [0, 0] [[1, 0], [0, 1]] 3) = .ok J :=
    ⟨_, rfl⟩
  have hd : J.dimX = 1 := by
    obtain rfl := Except.ok.inj hJ
    rfl
  exact ⟨J, hJ, product_pmiAt T _ _ J hJ [5] [6, 7] (by rw [hd]; rfl) ⟨EReal.coe_ne_bot _, EReal.coe_ne_top _⟩
    ⟨EReal.coe_ne_bot _, EReal.coe_ne_top _⟩⟩

/-- `ProductDistribution` accepts exactly distributions over vectors; otherwise an assertion fails. -/
theorem product_accepts_iff (T : Tfp Key) (D E : Dist Key) :
    ((∃ J, productDistribution T D E = .ok J) ↔ D.eventShape.length = 1 ∧ E.eventShape.length = 1) ∧
    ((¬ ∃ J, productDistribution T D E = .ok J) → productDistribution T D E = .error .assertionError) := by
  unfold productDistribution
  simp only
  split_ifs with h1 h2
  · exact ⟨⟨(fun ⟨_, h⟩ => by cases h), fun h => absurd h.1 h1⟩, fun _ => rfl⟩
  · exact ⟨⟨(fun ⟨_, h⟩ => by cases h), fun h => absurd h.2 h2⟩, fun _ => rfl⟩
  · exact ⟨⟨fun _ => ⟨not_not.1 h1, not_not.1 h2⟩, fun _ => ⟨_, rfl⟩⟩, fun h => absurd ⟨_, rfl⟩ h⟩

example (T : Tfp Key) (D : Dist Key) (h : D.eventShape = [2, 2]) : productDistribution T D D = .error .assertionError :=
  (product_accepts_iff T D D).2 fun hJ => by
    have := ((product_accepts_iff T D D).1.1 hJ).1
    rw [h] at this
    simp at this

/-! ## Laws -/

variable [MeasurableSpace Key] {κ : Measure Key}

theorem identity_diffeo {d : ℕ} (S : Set (Fin d → ℝ)) :
    Diffeo .identity S id fun _ => ContinuousLinearMap.id ℝ (Fin d → ℝ) where
  measurable := measurable_id
  forward _ := rfl
  inverse _ _ := rfl
  deriv v _ := hasFDerivWithinAt_id v S
  det v _ := by
    simp [ContinuousLinearMap.det]
  ildj v _ := by
    simp [ContinuousLinearMap.det, Bijector.identity]

theorem OptDiffeo.diffeo {o : Option Bijector} {d : ℕ} {S : Set (Fin d → ℝ)} {f : (Fin d → ℝ) → Fin d → ℝ}
    (h : OptDiffeo o S f) : ∃ f', Diffeo (o.getD .identity) S f f' := by
  rcases h with ⟨rfl, rfl⟩ | ⟨b, f', rfl, hb⟩
  · exact ⟨_, identity_diffeo S⟩
  · exact ⟨f', hb⟩

/-- **C22**, laws: if a joint distribution stands for the law of `(X, Y)` and the bijectors are diffeomorphisms `f` and `g`
of the supports, then the transformed distribution stands for the law of `(f(X), g(Y))`, with its marginals and its mutual
information. -/
theorem transform_consistent {J : JointDistribution Key} {dx dy : ℕ} {Sx : Set (Fin dx → ℝ)} {Sy : Set (Fin dy → ℝ)}
    {P : Measure ((Fin dx → ℝ) × (Fin dy → ℝ))} (hJ : Consistent κ J Sx Sy P) {b c : Option Bijector}
    {f : (Fin dx → ℝ) → Fin dx → ℝ} {g : (Fin dy → ℝ) → Fin dy → ℝ} (hb : OptDiffeo b Sx f) (hc : OptDiffeo c Sy g) :
    Consistent κ (transform J b c) (f '' Sx) (g '' Sy) (P.map (Prod.map f g)) := by
  haveI := hJ.prob
  obtain ⟨f', hb⟩ := hb.diffeo
  obtain ⟨g', hc⟩ := hc.diffeo
  have hfm := hb.measurable
  have hgm := hc.measurable
  have hfi : Set.InjOn f Sx := fun v hv w hw h => by
    apply List.ofFn_injective
    rw [← hb.inverse v hv, ← hb.inverse w hw, h]
  have hgi : Set.InjOn g Sy := fun v hv w hw h => by
    apply List.ofFn_injective
    rw [← hc.inverse v hv, ← hc.inverse w hw, h]
  have hP1 : ∀ᵐ x ∂P.fst, x ∈ Sx := by
    rw [ae_iff]
    show P.fst Sxᶜ = 0
    rw [hJ.x.density, withDensity_apply _ hJ.setX.compl, Measure.restrict_restrict hJ.setX.compl]
    simp
  have hP2 : ∀ᵐ y ∂P.snd, y ∈ Sy := by
    rw [ae_iff]
    show P.snd Syᶜ = 0
    rw [hJ.y.density, withDensity_apply _ hJ.setY.compl, Measure.restrict_restrict hJ.setY.compl]
    simp
  have hd : J.dimX = dx := hJ.dimX
  refine ⟨hJ.dimX, hJ.dimY, measurable_image_of_fderivWithin hJ.setX hb.deriv hfi,
    measurable_image_of_fderivWithin hJ.setY hc.deriv hgi, Measure.isProbabilityMeasure_map (hfm.prodMap hgm).aemeasurable,
    ?_, ?_, ?_, fun v hv => ?_⟩
  · have := blockwise_represents hJ.setX hJ.setY hJ.joint hb hc
    have e : (transform J b c).distJoint
        = transformedDistribution J.distJoint (Bijector.blockwise (b.getD .identity) (c.getD .identity) dx) := by
      rw [← hd]
      rfl
    rw [e]
    exact this
  · rw [map_fst_prodMap P hfm hgm]
    exact transformed_represents volume hJ.setX hJ.x hb.measurable hb.forward hb.inverse List.ofFn_injective hb.deriv
      hb.det hb.ildj
  · rw [map_snd_prodMap P hfm hgm]
    exact transformed_represents volume hJ.setY hJ.y hc.measurable hc.forward hc.inverse List.ofFn_injective hc.deriv
      hc.det hc.ildj
  · obtain ⟨h0, h1⟩ := hJ.analytic v hv
    refine ⟨h0, ?_⟩
    rw [← h1]
    exact mutualInfo_map_eq_of_injOn P hfm hgm hJ.setX hJ.setY hP1 hP2 hfi hgi

theorem doubling_diffeo {d : ℕ} : Diffeo doubling Set.univ (fun v : Fin d → ℝ => (2 : ℝ) • v)
    fun _ => (2 : ℝ) • ContinuousLinearMap.id ℝ (Fin d → ℝ) where
  measurable := by fun_prop
  forward v := by
    show (List.ofFn v).map (2 * ·) = _
    rw [List.map_ofFn]
    rfl
  inverse v _ := by
    show (List.ofFn ((2 : ℝ) • v)).map (· / 2) = _
    rw [List.map_ofFn]
    congr 1
    funext i
    simp
  deriv v _ := ((hasFDerivAt_id v).const_smul (2 : ℝ)).hasFDerivWithinAt
  det v _ := by
    simp [ContinuousLinearMap.det]
  ildj v _ := by
    simp [ContinuousLinearMap.det, doubling, abs_of_pos]

/-- A bent normal distribution: `(2 X, Y)`. -/
example (R : JaxRandom PathKey) : ∃ J, multivariateNormalDistribution R path 1 1 (rowsOf (bivariateCov 0.5 1 1))
    (some (List.ofFn ![1, 2])) = .ok J ∧
    ∃ P, Consistent (dx := 1) (dy := 1) pathLaw (transform J (some doubling) none) ((fun v => (2 : ℝ) • v) '' Set.univ)
      (id '' Set.univ) P := by
  obtain ⟨J, h1, h2, h3⟩ := multivariateNormal_consistent path_ideal R 1 1 one_pos one_pos ![1, 2] (bivariateCov 0.5 1 1)
    (bivariateCov_posDef _ _ _ one_pos one_pos (by norm_num) (by norm_num))
  exact ⟨J, h1, _, transform_consistent h3 (.inr ⟨doubling, _, rfl, doubling_diffeo⟩) (.inl ⟨rfl, rfl⟩)⟩

end BMI.Bmm
