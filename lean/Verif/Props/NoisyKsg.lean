import Verif.Props.AddNoise
import Verif.Props.KSG

/-! C97: noise on one of the two variables makes all predictions of the KSG estimators finite. -/

namespace BMI.AddNoise

open MeasureTheory ProbabilityTheory BMI.PSpace BMI.AddNoise.Spec BMI.KSG BMI.KSG.Spec

variable {State : Type} [MeasurableSpace State] {G : Normals State} {κ : Measure State} [IsProbabilityMeasure κ]

/-- Both estimators return, for each of the neighbourhoods in turn, a number which is not negative. -/
def FiniteFit (ε : ℝ) (s s' : (n : ℕ) → (Fin n → ℝ) → Fin n → Fin n) (p : KSG.Params) (c : ℤ) (mx my : Mat) : Prop :=
  ∃ preds : List (ℕ × ℝ), preds.map Prod.fst = p.neighborhoods ∧ (∀ kv ∈ preds, 0 ≤ kv.2) ∧
    fastFit ε s p c mx my = .ok (preds.map fun kv => (kv.1, (kv.2 : EReal))) ∧
    slowFit ε s' p mx my = .ok (preds.map fun kv => (kv.1, (kv.2 : EReal)))

theorem keys_nodup {l : List ℕ} (h : l.Nodup) : keys l = l := by
  suffices H : ∀ (l acc : List ℕ), (acc ++ l).Nodup → l.foldl (fun acc k => if k ∈ acc then acc else acc ++ [k]) acc = acc ++ l by
    exact H l [] h
  intro l
  induction l with
  | nil => intro acc _; simp
  | cons k l ih =>
    intro acc h
    have hk : k ∉ acc := fun hk => (List.nodup_append.1 h).2.2 k hk k List.mem_cons_self rfl
    rw [List.foldl_cons, if_neg hk, ih _ (by simpa using h)]
    simp

/-- Data without repeated samples. -/
theorem finite_of_distinct {ε : ℝ} (hε : 0 ≤ ε) {s s' : (n : ℕ) → (Fin n → ℝ) → Fin n → Fin n} (hs : ∀ n, IsArgsort (s n))
    (hs' : ∀ n, IsArgsort (s' n)) {p : KSG.Params} (hp : p.neighborhoods.Nodup) (hp1 : ∀ k ∈ p.neighborhoods, 1 ≤ k) {c : ℤ}
    (hc : 0 < c) {n d e : ℕ} (hn : ∀ k ∈ p.neighborhoods, k < n) (h0 : 0 < n) (hd : 0 < d) (he : 0 < e) (v : Fin n → Fin d → ℝ)
    (w : Fin n → Fin e → ℝ) (hvw : ∀ i j, v i = v j → w i = w j → i = j) :
    FiniteFit ε s s' p c ⟨n, d, v⟩ ⟨n, e, w⟩ := by
  have hb : ¬ bad p n d e := by
    rintro (⟨-, h⟩ | h)
    · omega
    · have : maxNbh p.neighborhoods < n := by
        unfold maxNbh
        have H : ∀ (l : List ℕ) (a : ℕ), a < n → (∀ k ∈ l, k < n) → l.foldl max a < n := by
          intro l
          induction l with
          | nil => intro a ha _; exact ha
          | cons k l ih =>
            intro a ha hl
            exact ih _ (max_lt ha (hl k List.mem_cons_self)) fun k' hk' => hl k' (List.mem_cons_of_mem _ hk')
        exact H _ _ h0 hn
      omega
  have hfast := fastFit_good ε s p c hc v w hb
  rw [keys_nodup hp] at hfast
  set f : ℕ → EReal := fun k => max 0 (dig k - p.neighborhoods.count k •
        (total (s n) (dtab p.metricX (stdv ε p.standardize v)) (dtab p.metricY (stdv ε p.standardize w)) k
          / (n : EReal)) + dig n) with hf
  have hreal : ∀ k ∈ p.neighborhoods, ∃ r : ℝ, 0 ≤ r ∧ f k = r := by
    intro k hk
    have hm : (k, f k) ∈ p.neighborhoods.map fun k => (k, f k) := List.mem_map.2 ⟨k, hk, rfl⟩
    obtain ⟨h1, h2⟩ := prediction_infinite_iff_partial ε hε s hs p hp hp1 c v w _ hfast k (f k) hm
    have hne : f k ≠ ⊤ := by
      intro ht
      obtain ⟨i, hi⟩ := h1.1 ht
      have hcop : copies v w i = 1 := by
        classical
        unfold copies
        rw [Finset.card_eq_one]
        refine ⟨i, Finset.ext fun j => ?_⟩
        simp only [Finset.mem_filter, Finset.mem_univ, true_and, Finset.mem_singleton]
        exact ⟨fun h => hvw j i h.1 h.2, fun h => h ▸ ⟨rfl, rfl⟩⟩
      have := hp1 k hk
      omega
    obtain ⟨v', -, h3⟩ := h2 hne
    exact ⟨_, le_max_left _ _, h3⟩
  choose! r hr0 hr using hreal
  refine ⟨p.neighborhoods.map fun k => (k, r k), ?_, ?_, ?_, ?_⟩
  · rw [List.map_map]
    exact List.map_id _
  · intro kv hkv
    obtain ⟨k, hk, rfl⟩ := List.mem_map.1 hkv
    exact hr0 k hk
  · rw [hfast, List.map_map]
    exact congrArg Except.ok (List.map_congr_left fun k hk => congrArg (Prod.mk k) (hr k hk))
  · rw [← fast_eq_slow_partial ε s s' hs hs' p hp c hc, hfast, List.map_map]
    exact congrArg Except.ok (List.map_congr_left fun k hk => congrArg (Prod.mk k) (hr k hk))

/-- **C97** Whatever the points, after noise with a positive standard deviation on X both KSG estimators almost surely give finite
predictions, one for each neighbourhood, whatever Y; the same for noise on Y.  (Y may depend on the noise.) -/
theorem ksg_finite (hG : Ideal G κ) {σ : ℝ} (hσ : 0 < σ) {ε : ℝ} (hε : 0 ≤ ε) {s s' : (n : ℕ) → (Fin n → ℝ) → Fin n → Fin n}
    (hs : ∀ n, IsArgsort (s n)) (hs' : ∀ n, IsArgsort (s' n)) {n d : ℕ} (h0 : 0 < n) (hd : 0 < d) (v : Fin n → Fin d → ℝ) :
    ∀ᵐ st ∂κ, ∀ (p : KSG.Params) (c : ℤ) (e : ℕ) (w : Fin n → Fin e → ℝ), p.neighborhoods.Nodup →
      (∀ k ∈ p.neighborhoods, 1 ≤ k ∧ k < n) → 0 < c → 0 < e →
      FiniteFit ε s s' p c ⟨n, d, fun i => noisyRow G σ i st (v i)⟩ ⟨n, e, w⟩ ∧
      FiniteFit ε s s' p c ⟨n, e, w⟩ ⟨n, d, fun i => noisyRow G σ i st (v i)⟩ := by
  filter_upwards [no_ties hG v hσ] with st hst p c e w hp hk hc he
  have hinj : ∀ i j : Fin n, noisyRow G σ i st (v i) = noisyRow G σ j st (v j) → i = j := by
    intro i j hij
    by_contra hne
    exact hst (i, ⟨0, hd⟩) (j, ⟨0, hd⟩) (fun h => hne (congrArg Prod.fst h)) (congrFun hij ⟨0, hd⟩)
  exact ⟨finite_of_distinct hε hs hs' hp (fun k h => (hk k h).1) hc (fun k h => (hk k h).2) h0 hd he _ _ fun i j h _ => hinj i j h,
    finite_of_distinct hε hs hs' hp (fun k h => (hk k h).1) hc (fun k h => (hk k h).2) h0 he hd _ _ fun i j _ h => hinj i j h⟩

/-- **C97** Without noise the prediction can be infinite: two equal points.  With noise it is almost surely finite. -/
theorem ksg_needs_noise {ε : ℝ} (hε : 0 ≤ ε) {s s' : (n : ℕ) → (Fin n → ℝ) → Fin n → Fin n}
    (hs : ∀ n, IsArgsort (s n)) (hs' : ∀ n, IsArgsort (s' n)) :
    fastFit ε s ⟨[1], true, .euclidean, .euclidean⟩ 10 (col fun _ : Fin 2 => (7 : ℝ)) (col fun _ : Fin 2 => (7 : ℝ)) = .ok [(1, ⊤)] ∧
    ∀ᵐ st ∂exampleStates, FiniteFit ε s s' ⟨[1], true, .euclidean, .euclidean⟩ 10
      ⟨2, 1, fun i => noisyRow exampleNormals 1e-5 i st fun _ => 7⟩ ⟨2, 1, fun i => noisyRow exampleNormals 1e-5 i st fun _ => 7⟩ := by
  refine ⟨prediction_can_be_infinite ε hε s hs 10 (by norm_num), ?_⟩
  filter_upwards [ksg_finite example_ideal (σ := 1e-5) (by norm_num) hε hs hs' (n := 2) (d := 1) (by norm_num) one_pos
    fun _ _ => 7] with st hst
  exact (hst _ 10 1 _ (by simp) (by simp) (by norm_num) one_pos).1

end BMI.AddNoise
