import Verif.Spec.SamplerFigure
import Verif.Props.Registry
import Verif.Props.Bimodal

/-! The figure of transformed samplers shows one cloud of points in five ways, with the same shades (C92). -/

namespace BMI.SamplerFigure

open MeasureTheory ProbabilityTheory BMI.Samplers BMI.Search BMI.Student BMI.TaskIds BMI.Registry

variable {Key State : Type}

/-! ## Samples of transformed samplers -/

theorem transformed_sample {base s : Sampler Key} {tx ty : Transform} {ax ay : ℤ} (h : transformed base tx ty ax ay = .ok s) {n : ℕ}
    {rng : Rng Key} {x y : Arr} (hb : base.sample n rng = .ok (x, y)) : s.sample n rng = .ok (tx.vectorized x, ty.vectorized y) := by
  obtain ⟨-, -, dx, dy, -, -, -, -, rfl⟩ := transformed_inv h
  simp [hb, bind, Except.bind]

/-- The array with one column. -/
def single {n : ℕ} (v : Fin n → ℝ) : Arr := List.ofFn fun i => [v i]

theorem ravel_single {n : ℕ} (v : Fin n → ℝ) : ravel (single v) = List.ofFn v := by
  unfold ravel single
  induction n with
  | zero => simp
  | succ n ih => simp [List.ofFn_succ, ih]

theorem single_map {n : ℕ} (v : Fin n → ℝ) (g : ℝ → ℝ) :
    (Transform.row (List.map g)).vectorized (single v) = single fun i => g (v i) := by
  simp [Transform.vectorized, single, List.map_ofFn, Function.comp_def]

theorem rowsOf_single {n : ℕ} (v : Fin n → Fin 1 → ℝ) : rowsOf v = single fun i => v i 0 := by
  simp [rowsOf, single, List.ofFn_succ]

theorem column_ofFn {n : ℕ} (v : Fin n → List ℝ) (w : Fin n → ℝ) (j : ℕ) (h : ∀ i, (v i)[j]? = some (w i)) :
    column (List.ofFn v) j = .ok (List.ofFn w) := by
  unfold column
  induction n with
  | zero => simp [pure, Except.pure]
  | succ n ih =>
    rw [List.ofFn_succ, List.ofFn_succ, List.mapM_cons, ih _ (fun i => w i.succ) fun i => h i.succ, h 0]
    rfl

/-! ## Shades -/

theorem foldr_min (l : List ℝ) (a : ℝ) : (l.foldr min a ∈ a :: l) ∧ ∀ v ∈ a :: l, l.foldr min a ≤ v := by
  induction l with
  | nil => simp
  | cons b l ih =>
    obtain ⟨h1, h2⟩ := ih
    rw [List.foldr_cons]
    constructor
    · rcases min_choice b (l.foldr min a) with h | h <;> rw [h]
      · simp
      · rcases List.mem_cons.1 h1 with h | h
        · rw [h]; simp
        · simp [h]
    · intro v hv
      rcases List.mem_cons.1 hv with rfl | hv
      · exact (min_le_right _ _).trans (h2 _ (by simp))
      · rcases List.mem_cons.1 hv with rfl | hv
        · exact min_le_left _ _
        · exact (min_le_right _ _).trans (h2 _ (by simp [hv]))

theorem foldr_max (l : List ℝ) (a : ℝ) : (l.foldr max a ∈ a :: l) ∧ ∀ v ∈ a :: l, v ≤ l.foldr max a := by
  induction l with
  | nil => simp
  | cons b l ih =>
    obtain ⟨h1, h2⟩ := ih
    rw [List.foldr_cons]
    constructor
    · rcases max_choice b (l.foldr max a) with h | h <;> rw [h]
      · simp
      · rcases List.mem_cons.1 h1 with h | h
        · rw [h]; simp
        · simp [h]
    · intro v hv
      rcases List.mem_cons.1 hv with rfl | hv
      · exact (h2 _ (by simp)).trans (le_max_right _ _)
      · rcases List.mem_cons.1 hv with rfl | hv
        · exact le_max_left _ _
        · exact (h2 _ (by simp [hv])).trans (le_max_right _ _)

theorem places_ofFn {n : ℕ} (hn : 0 < n) (y : Fin n → ℝ) : ∃ s, places (List.ofFn y) = List.ofFn s ∧ ShadesOf y s := by
  obtain ⟨m, rfl⟩ : ∃ m, n = m + 1 := ⟨n - 1, by omega⟩
  have hh : (List.ofFn y).headD 0 = y 0 := by simp [List.ofFn_succ]
  have hmem : ∀ v, v ∈ y 0 :: List.ofFn y ↔ ∃ i, y i = v := fun v => by
    rw [List.mem_cons, List.mem_ofFn]
    exact ⟨fun h => h.elim (fun h => ⟨0, h.symm⟩) id, Or.inr⟩
  obtain ⟨a1, a2⟩ := foldr_min (List.ofFn y) (y 0)
  obtain ⟨b1, b2⟩ := foldr_max (List.ofFn y) (y 0)
  refine ⟨_, by rw [places, List.map_ofFn], (List.ofFn y).foldr min (y 0), (List.ofFn y).foldr max (y 0), (hmem _).1 a1,
    (hmem _).1 b1, fun i => ⟨a2 _ ((hmem _).2 ⟨i, rfl⟩), b2 _ ((hmem _).2 ⟨i, rfl⟩)⟩, fun h i => ?_, fun h i => ?_⟩
  · simp only [Function.comp, limits, hh]
    rw [if_neg h.ne]
  · simp only [Function.comp, limits, hh]
    rw [if_pos h]

example : ShadesOf ![1, 3, 2] ![0, 1, 1 / 2] :=
  ⟨1, 3, ⟨0, rfl⟩, ⟨1, rfl⟩, fun i => by fin_cases i <;> norm_num, fun _ i => by fin_cases i <;> norm_num, fun h => by norm_num at h⟩

/-- Shades are in the order of the heights. -/
theorem shades_mono {n : ℕ} {y s : Fin n → ℝ} (h : ShadesOf y s) {i j : Fin n} (hij : y i ≤ y j) : s i ≤ s j := by
  obtain ⟨lo, hi, -, -, hb, h1, h2⟩ := h
  rcases ((hb i).1.trans (hb i).2).lt_or_eq with h | h
  · rw [h1 h, h1 h]
    exact div_le_div_of_nonneg_right (by linarith) (by linarith)
  · rw [h2 h, h2 h]

/-- Points with different heights have different shades. -/
theorem shades_strict {n : ℕ} {y s : Fin n → ℝ} (h : ShadesOf y s) {i j : Fin n} (hij : y i < y j) : s i < s j := by
  obtain ⟨lo, hi, -, -, hb, h1, h2⟩ := h
  have hlt : lo < hi := ((hb i).1.trans_lt hij).trans_le (hb j).2
  rw [h1 hlt, h1 hlt]
  exact div_lt_div_of_pos_right (by linarith) (by linarith)

/-! ## The five panels -/

theorem plane_ok {n : ℕ} (title : String) (labels : List String) (u v c : Fin n → ℝ) {s : Fin n → ℝ}
    (hs : places (List.ofFn c) = List.ofFn s) :
    plane title labels (single u, single v) (List.ofFn c) = .ok ⟨title, labels, [List.ofFn u, List.ofFn v], List.ofFn s⟩ := by
  unfold plane scatter
  simp [ravel_single, hs]

theorem bimodal_level {F : ℝ → ℝ} {ν : Measure ℝ} (hF : NiceCdf F) (hν : ∀ t, ENNReal.ofReal (F t) = ν (Set.Iic t)) (x : ℝ) :
    SameLevel ν x ((invertCdf F (Samplers.normalCdf x)).getD 0) := by
  obtain ⟨t, ht⟩ := hF.surj (normalCdf_mem x).1 (normalCdf_mem x).2
  obtain ⟨v, e, hv⟩ := invertCdf_accurate F hF.mono t
  refine ⟨t, by rw [← hν, ht, normalCdf_eq_cdf, ofReal_cdf], ?_⟩
  rw [← ht, e]
  exact hv.trans (by norm_num)

theorem invert_mono (F : ℝ → ℝ) : Monotone fun u => (invertCdf F u).getD 0 := fun u v huv => by
  obtain ⟨x, hx⟩ := invertMono_terminates_real F (-10) 10 1e-12 u (by norm_num)
  obtain ⟨y, hy⟩ := invertMono_terminates_real F (-10) 10 1e-12 v (by norm_num)
  have := invertMono_mono F (-10) 10 1e-12 u v x y (by norm_num) (by norm_num) huv hx hy
  unfold invertCdf
  dsimp only
  rw [hx, hy]
  exact this

theorem panels_of (R : JaxRandom Key) (N : NpRandom State) (other : Call RegF → Except Err (Built Key State)) {n : ℕ} (hn : 0 < n)
    (seed : ℤ) {g : Sampler Key} (hg : bivariateNormal R 0.75 1 1 0 0 = .ok g) (z : Fin n → ℝ × ℝ)
    (hz : g.sample n (.seed seed) = .ok (single fun i => (z i).1, single fun i => (z i).2)) :
    ∃ fig, panels R N other n seed = .ok fig ∧ Shows z fig := by
  have hw := bivariateNormal_wellShaped R _ _ _ _ _ g hg
  obtain ⟨-, -, hdx, hdy, -⟩ := hw
  have task : ∀ {b : Sampler Key} (f h : ℝ → ℝ), b.dimX = .ok 1 → b.dimY = .ok 1 → ∀ x y : Fin n → ℝ,
      b.sample n (.seed seed) = .ok (single x, single y) → ∃ s, transformed b (.row (List.map f)) (.row (List.map h)) 0 0 = .ok s ∧
        s.dimX = .ok 1 ∧ s.dimY = .ok 1 ∧ s.sample n (.seed seed) = .ok (single fun i => f (x i), single fun i => h (y i)) := by
    intro b f h h1 h2 x y hb
    have e := transformed_of (tx := .row (List.map f)) (ty := .row (List.map h)) (le_refl 0) (le_refl 0) h1 h2 one_pos one_pos
    refine ⟨_, e, rfl, rfl, ?_⟩
    rw [transformed_sample e hb, single_map, single_map]
  obtain ⟨u, u1, u2, u3, u4⟩ := task Samplers.normalCdf Samplers.normalCdf hdx hdy _ _ hz
  obtain ⟨h, h1, -, -, h4⟩ := task Samplers.halfCube Samplers.halfCube hdx hdy _ _ hz
  obtain ⟨b, b1, -, -, b4⟩ := task (fun v => (invertCdf bimodalCdfX v).getD 0) (fun v => (invertCdf bimodalCdfY v).getD 0) u2 u3 _ _ u4
  have r1 := transformed_of (tx := .row swissroll2d) (ty := .none) (zero_le_one (α := ℤ)) (le_refl 0) u2 u3 one_pos one_pos
  have r4 := transformed_sample r1 u4
  generalize hr : Sampler.mk _ _ _ _ = r at r1 r4
  obtain ⟨s, hs, hsh⟩ := places_ofFn hn fun i => (z i).2
  have c0 : column ((Transform.row swissroll2d).vectorized (single fun i => Samplers.normalCdf (z i).1)) 0
      = .ok (List.ofFn fun i => (rollPoint (Samplers.normalCdf (z i).1)).1) := by
    rw [single, Transform.vectorized, List.map_ofFn]
    refine column_ofFn _ _ _ fun i => ?_
    simp only [Function.comp, swissroll2d, rollPoint, List.getD_cons_zero, List.getElem?_cons_zero]
    norm_num
  have c1 : column ((Transform.row swissroll2d).vectorized (single fun i => Samplers.normalCdf (z i).1)) 1
      = .ok (List.ofFn fun i => (rollPoint (Samplers.normalCdf (z i).1)).2) := by
    rw [single, Transform.vectorized, List.map_ofFn]
    refine column_ofFn _ _ _ fun i => ?_
    simp only [Function.comp, swissroll2d, rollPoint, List.getD_cons_zero, List.getElem?_cons_zero, List.getElem?_cons_succ]
    norm_num
  have hbn : bimodalTask R 0.75 = .ok b := by
    simp only [bimodalTask, bimodalWith, hg, normalCdfTask, u1, b1, bind, Except.bind]
  have p1 := plane_ok "Bivariate Gaussian" ["$X$", "$Y$"] (fun i => (z i).1) (fun i => (z i).2) (fun i => (z i).2) hs
  have p2 := plane_ok "Correlated uniform" ["CDF$(X)$", "CDF$(Y)$"] (fun i => Samplers.normalCdf (z i).1)
    (fun i => Samplers.normalCdf (z i).2) (fun i => (z i).2) hs
  have p3 := plane_ok "Half-cube mapping" ["$h(X)$", "$h(Y)$"] (fun i => Samplers.halfCube (z i).1)
    (fun i => Samplers.halfCube (z i).2) (fun i => (z i).2) hs
  have p4 := plane_ok "Making margins bimodal" ["bimodal$(X)$", "bimodal$(Y)$"]
    (fun i => (invertCdf bimodalCdfX (Samplers.normalCdf (z i).1)).getD 0)
    (fun i => (invertCdf bimodalCdfY (Samplers.normalCdf (z i).2)).getD 0) (fun i => (z i).2) hs
  have p5 : scatter "Swiss roll mapping" [] [List.ofFn fun i => (rollPoint (Samplers.normalCdf (z i).1)).1,
      List.ofFn fun i => (rollPoint (Samplers.normalCdf (z i).1)).2, List.ofFn fun i => Samplers.normalCdf (z i).2]
      (List.ofFn fun i => (z i).2) = .ok ⟨"Swiss roll mapping", [], [List.ofFn fun i => (rollPoint (Samplers.normalCdf (z i).1)).1,
      List.ofFn fun i => (rollPoint (Samplers.normalCdf (z i).1)).2, List.ofFn fun i => Samplers.normalCdf (z i).2], List.ofFn s⟩ := by
    unfold scatter
    simp [hs]
  refine ⟨[⟨"Bivariate Gaussian", ["$X$", "$Y$"], _, List.ofFn s⟩, ⟨"Correlated uniform", ["CDF$(X)$", "CDF$(Y)$"], _, List.ofFn s⟩,
    ⟨"Half-cube mapping", ["$h(X)$", "$h(Y)$"], _, List.ofFn s⟩,
    ⟨"Making margins bimodal", ["bimodal$(X)$", "bimodal$(Y)$"], _, List.ofFn s⟩, ⟨"Swiss roll mapping", [], _, List.ofFn s⟩],
    ?_, s, fun i => ((invertCdf bimodalCdfX (Samplers.normalCdf (z i).1)).getD 0,
    (invertCdf bimodalCdfY (Samplers.normalCdf (z i).2)).getD 0), hsh, fun i => ⟨?_, ?_⟩, fun i j hij => ?_, fun i j hij => ?_, rfl⟩
  rotate_left
  · refine bimodal_level niceCdf_x (fun t => ?_) _
    rw [(bimodalCdf_spec t).1, twoBumps]
    norm_num
  · refine bimodal_level niceCdf_y (fun t => ?_) _
    rw [(bimodalCdf_spec t).2, twoBumps]
    norm_num
  · exact invert_mono _ (normalCdf_strictMono.monotone hij)
  · exact invert_mono _ (normalCdf_strictMono.monotone hij)
  have hh : ∀ v : ℝ, SignType.sign v * |v| ^ (3 / 2 : ℝ) = Samplers.halfCube v := fun v => by
    rw [halfCube_eq, signedPow]
    norm_num
  simp only [← normalCdf_eq_cdf, hh]
  simp only [Transform.vectorized] at c0 c1 r4
  simp only [panels, embeddings, swissroll, Registry.normalCdf, Registry.halfCube, Registry.bimodal, bivariate, build, regVal, hg,
    normalCdfTask, halfCubeTask, swissrollTask, u1, h1, r1, hbn, u2, Built.wrap, Built.sample, Except.map, bind, Except.bind, hz, u4, h4,
    b4, r4, ravel_single, p1, p2, p3, p4, c0, c1, p5, ne_eq, not_true_eq_false, if_false]

/-! ## The random generator -/

theorem bivariateNormal_keys (R : JaxRandom Key) (pk : ℤ → Key) {g : Sampler Key} (hg : bivariateNormal R 0.75 1 1 0 0 = .ok g) :
    ∃ g', bivariateNormal { R with prngKey := pk } 0.75 1 1 0 0 = .ok g' ∧
      ∀ n seed, g'.sample n (.seed seed) = g.sample n (.key (pk seed)) := by
  have h1 : (-1 : ℝ) < 0.75 := by norm_num
  have h2 : (0.75 : ℝ) < 1 := by norm_num
  obtain ⟨s, e1, e2⟩ := bivariateNormal_eq R 0.75 1 1 0 0 one_pos one_pos h1 h2
  obtain ⟨s', e1', e2'⟩ := bivariateNormal_eq { R with prngKey := pk } 0.75 1 1 0 0 one_pos one_pos h1 h2
  refine ⟨_, e2', fun n seed => ?_⟩
  rw [e2] at hg
  obtain rfl := Except.ok.inj hg
  have hpos := bivariateCov_posDef 0.75 1 1 one_pos one_pos h1 h2
  have hs := fun R : JaxRandom Key => splitMultinormal_of R 1 1 one_pos one_pos (rowsOf (bivariateCov 0.75 1 1)) (some (List.ofFn ![0, 0]))
    (by simp) (hasShape_rowsOf _) (by rw [toMatrix_rowsOf]; exact hpos)
  have a := hs R
  have a' := hs { R with prngKey := pk }
  norm_cast at a a'
  norm_cast at e1 e1'
  rw [e1] at a
  rw [e1'] at a'
  obtain rfl := Except.ok.inj a
  obtain rfl := Except.ok.inj a'
  rfl

/-- **C92**: whatever `PRNGKey` returns, the figure shows 5000 points made from the key of seed 0; for a random key they are independent
draws of the normal law with correlation 3/4. -/
theorem figure [MeasurableSpace Key] (R : JaxRandom Key) (κ : Measure Key) (hR : IdealRandom R κ) (N : NpRandom State)
    (other : Call RegF → Except Err (Built Key State)) :
    ∃ z : Key → Fin 5000 → ℝ × ℝ, MeasurePreserving z κ (Measure.pi fun _ => cloudLaw) ∧
      ∀ pk : ℤ → Key, ∃ fig, main { R with prngKey := pk } N other = .ok fig ∧ Shows (z (pk 0)) fig := by
  haveI := hR.prob
  obtain ⟨g, hg, hc⟩ := bivariateNormal_correct R κ hR 0.75 1 1 0 0 one_pos one_pos (by norm_num) (by norm_num)
  have := hc.prob
  obtain ⟨draw, d1, d2, d3⟩ := hc.law 5000
  have hm : Measurable fun v : (Fin 1 → ℝ) × (Fin 1 → ℝ) => (v.1 0, v.2 0) := by fun_prop
  refine ⟨fun k i => ((draw k i).1 0, (draw k i).2 0), ⟨?_, ?_⟩, fun pk => ?_⟩
  · exact measurable_pi_lambda _ fun i => hm.comp ((measurable_pi_apply i).comp d1)
  · have hm' : Measurable fun (w : Fin 5000 → (Fin 1 → ℝ) × (Fin 1 → ℝ)) i => ((w i).1 0, (w i).2 0) :=
      measurable_pi_lambda _ fun i => hm.comp (measurable_pi_apply i)
    have e : (fun k i => ((draw k i).1 0, (draw k i).2 0)) = (fun (w : Fin 5000 → _) i => ((w i).1 0, (w i).2 0)) ∘ draw := rfl
    rw [e, ← Measure.map_map (f := draw) hm' d1, d3,
      Measure.pi_map_pi fun i => hm.aemeasurable]
    congr 1
    funext i
    rw [Measure.map_map hm (by fun_prop), cloudLaw]
    congr 1
    congr 1
    · ext i; fin_cases i <;> simp
    · ext i j; fin_cases i <;> fin_cases j <;> norm_num
  · obtain ⟨g', hg', hk⟩ := bivariateNormal_keys R pk hg
    refine panels_of _ N other (by norm_num) 0 hg' _ ?_
    rw [hk, d2, rowsOf_single, rowsOf_single]

example : ∃ z : (_ → _) → Fin 5000 → ℝ × ℝ, MeasurePreserving z treeLaw (Measure.pi fun _ => cloudLaw) ∧
    ∀ pk, ∃ fig, main (State := Unit) { tree with prngKey := pk } ⟨fun _ => (), fun _ _ _ _ _ _ _ _ => 0⟩ (fun _ => .error .keyError) = .ok fig ∧ Shows (z (pk 0)) fig :=
  figure tree treeLaw tree_ideal _ _

/-! ## What can be read off -/

theorem signPow_strictMono : StrictMono fun v : ℝ => (SignType.sign v : ℝ) * |v| ^ (3 / 2 : ℝ) := by
  intro x y hxy
  dsimp only
  rcases lt_trichotomy x 0 with hx | rfl | hx
  · rw [sign_neg hx, abs_of_neg hx]
    rcases lt_trichotomy y 0 with hy | rfl | hy
    · rw [sign_neg hy, abs_of_neg hy]
      have := Real.rpow_lt_rpow (by linarith) (neg_lt_neg hxy) (by norm_num : (0 : ℝ) < 3 / 2)
      simpa using this
    · have := Real.rpow_pos_of_pos (neg_pos.2 hx) (3 / 2 : ℝ)
      simpa using this
    · rw [sign_pos hy, abs_of_pos hy]
      have h1 := Real.rpow_pos_of_pos (neg_pos.2 hx) (3 / 2 : ℝ)
      have h2 := Real.rpow_pos_of_pos hy (3 / 2 : ℝ)
      simp only [SignType.coe_neg, SignType.coe_one]
      linarith
  · rw [sign_pos hxy, abs_of_pos hxy]
    have h2 := Real.rpow_pos_of_pos hxy (3 / 2 : ℝ)
    simpa using h2
  · rw [sign_pos hx, sign_pos (hx.trans hxy), abs_of_pos hx, abs_of_pos (hx.trans hxy)]
    simpa using Real.rpow_lt_rpow hx.le hxy (by norm_num : (0 : ℝ) < 3 / 2)

/-- **C92**: in every panel a higher point has at least the shade of a lower one. -/
theorem heights_are_shades {n : ℕ} {z : Fin n → ℝ × ℝ} {fig : List Panel} (h : Shows z fig) : ∀ p ∈ fig, HeightsAreShades p := by
  obtain ⟨s, b, hs, -, -, hb, rfl⟩ := h
  have key : ∀ (v : Fin n → ℝ), (∀ i j, (z i).2 ≤ (z j).2 → v i ≤ v j) → ∀ title labels l, HeightsAreShades ⟨title, labels, l ++ [List.ofFn v], List.ofFn s⟩ := by
    intro v hv title labels l w hw i j h1 h2 h3 h4 hij
    simp only [List.getLast?_append, List.getLast?_singleton, Option.some_or, Option.mem_def, Option.some.injEq] at hw
    subst hw
    simp only [List.getElem_ofFn] at hij ⊢
    refine shades_mono hs (le_of_lt ?_)
    by_contra hle
    exact absurd (hv _ _ (not_lt.1 hle)) (not_le.2 hij)
  have hc : ∀ i j, (z i).2 ≤ (z j).2 → cdf (gaussianReal 0 1) (z i).2 ≤ cdf (gaussianReal 0 1) (z j).2 := fun i j h => monotone_cdf _ h
  intro p hp
  simp only [List.mem_cons, List.not_mem_nil, or_false] at hp
  rcases hp with rfl | rfl | rfl | rfl | rfl
  · exact key (fun i => (z i).2) (fun i j h => h) _ _ [_]
  · exact key _ hc _ _ [_]
  · refine key _ (fun i j h => ?_) _ _ [_]
    exact signPow_strictMono.monotone h
  · exact key _ hb _ _ [_]
  · exact key _ hc _ _ [_, _]

/-- **C92**: two points at the same place of one of the panels, other than the one with two bumps, are at the same place of the first. -/
theorem points_apart {n : ℕ} {z : Fin n → ℝ × ℝ} {fig : List Panel} (h : Shows z fig) {p : Panel} (hp : p ∈ fig)
    (ht : p.title ≠ "Making margins bimodal") {i j : Fin n} (hij : ∀ a ∈ p.axes, a[(i : ℕ)]? = a[(j : ℕ)]?) : z i = z j := by
  obtain ⟨s, b, -, -, -, -, rfl⟩ := h
  have key : ∀ (v : Fin n → ℝ), (List.ofFn v)[(i : ℕ)]? = (List.ofFn v)[(j : ℕ)]? → v i = v j := fun v hv => by
    simpa [List.getElem?_ofFn] using hv
  have hc : StrictMono (cdf (gaussianReal 0 1)) := by
    have : ⇑(cdf (gaussianReal 0 1)) = Samplers.normalCdf := funext fun x => (normalCdf_eq_cdf x).symm
    rw [this]
    exact normalCdf_strictMono
  simp only [List.mem_cons, List.not_mem_nil, or_false] at hp
  rcases hp with rfl | rfl | rfl | rfl | rfl
  · exact Prod.ext (key _ (hij _ (.head _))) (key _ (hij _ (.tail _ (.head _))))
  · exact Prod.ext (hc.injective (key _ (hij _ (.head _)))) (hc.injective (key _ (hij _ (.tail _ (.head _)))))
  · exact Prod.ext (signPow_strictMono.injective (key _ (hij _ (.head _)))) (signPow_strictMono.injective (key _ (hij _ (.tail _ (.head _)))))
  · exact absurd rfl ht
  · have h1 := key _ (hij _ (.head _))
    have h2 := key _ (hij _ (.tail _ (.head _)))
    refine Prod.ext (hc.injective ?_) (hc.injective (key _ (hij _ (.tail _ (.tail _ (.head _))))))
    refine swissroll_injective _ _ (by linarith [cdf_nonneg (gaussianReal 0 1) (z i).1]) (by linarith [cdf_nonneg (gaussianReal 0 1) (z j).1]) ?_
    simp only [rollPoint] at h1 h2
    norm_num [swissroll2d]
    exact ⟨by linarith, by linarith⟩

/-- For example, in the figure made with the ideal generator. -/
example : ∃ (z : Fin 5000 → ℝ × ℝ) (fig : List Panel), Shows z fig ∧ (∀ p ∈ fig, HeightsAreShades p) ∧
    ∃ p ∈ fig, p.title = "Swiss roll mapping" ∧ ∀ i j : Fin 5000, (∀ a ∈ p.axes, a[(i : ℕ)]? = a[(j : ℕ)]?) → z i = z j := by
  obtain ⟨z, -, h⟩ := figure tree treeLaw tree_ideal (State := Unit) ⟨fun _ => (), fun _ _ _ _ _ _ _ _ => 0⟩ fun _ => .error .keyError
  obtain ⟨fig, -, hf⟩ := h tree.prngKey
  have hf' := hf
  obtain ⟨s, b, -, -, -, -, rfl⟩ := hf'
  exact ⟨_, _, hf, heights_are_shades hf, _, .tail _ (.tail _ (.tail _ (.tail _ (.head _)))), rfl, fun i j hij =>
    points_apart hf (.tail _ (.tail _ (.tail _ (.tail _ (.head _))))) (show "Swiss roll mapping" ≠ "Making margins bimodal" by decide) hij⟩

end BMI.SamplerFigure
