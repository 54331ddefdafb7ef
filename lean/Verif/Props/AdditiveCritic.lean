import Verif.Props.Critic
import Verif.Props.NeuralEstimator
import Verif.Props.Losses

/-!
C61: a critic that is a sum of a function of `x` and a function of `y` (in particular an MLP without hidden layers)
never reports a positive amount of information.
-/

namespace BMI.Additive

open BMI.Neural

variable {X Y : Type} {n : ℕ}

/-- On the given points the critic is a sum of a function of `x` and a function of `y`. -/
def IsAdditive (f : X → Y → ℝ) (xs : List X) (ys : List Y) : Prop :=
  ∃ (a : X → ℝ) (b : Y → ℝ), ∀ x ∈ xs, ∀ y ∈ ys, f x y = a x + b y

theorem IsAdditive.ofFn {f : X → Y → ℝ} {x : Fin n → X} {y : Fin n → Y}
    (h : IsAdditive f (List.ofFn x) (List.ofFn y)) :
    ∃ (a : X → ℝ) (b : Y → ℝ), ∀ i j, f (x i) (y j) = a (x i) + b (y j) := by
  obtain ⟨a, b, hab⟩ := h
  exact ⟨a, b, fun i j => hab _ ((List.mem_ofFn' x _).2 ⟨i, rfl⟩) _ ((List.mem_ofFn' y _).2 ⟨j, rfl⟩)⟩

/-- Jensen's inequality for a finite average. -/
theorem exp_mean_le {ι : Type} (s : Finset ι) (g : ι → ℝ) (hs : s.Nonempty) :
    Real.exp ((∑ i ∈ s, g i) / s.card) ≤ (∑ i ∈ s, Real.exp (g i)) / s.card := by
  have hc : (0 : ℝ) < s.card := by exact_mod_cast hs.card_pos
  set m := (∑ i ∈ s, g i) / s.card with hm
  have h1 : ∀ i ∈ s, Real.exp m * (g i - m + 1) ≤ Real.exp (g i) := by
    intro i _
    calc Real.exp m * (g i - m + 1) ≤ Real.exp m * Real.exp (g i - m) :=
          mul_le_mul_of_nonneg_left (Real.add_one_le_exp _) (Real.exp_pos m).le
      _ = Real.exp (g i) := by rw [← Real.exp_add]; congr 1; ring
  have h2 := Finset.sum_le_sum h1
  rw [← Finset.mul_sum, Finset.sum_add_distrib, Finset.sum_sub_distrib, Finset.sum_const, Finset.sum_const,
    nsmul_eq_mul, nsmul_eq_mul, mul_one] at h2
  have h3 : ∑ i ∈ s, g i = s.card * m := by rw [hm]; field_simp
  rw [h3] at h2
  rw [le_div_iff₀ hc]
  calc Real.exp m * s.card = Real.exp m * (s.card * m - s.card * m + s.card) := by ring
    _ ≤ _ := h2

theorem mean_le_log {ι : Type} (s : Finset ι) (g : ι → ℝ) (hs : s.Nonempty) :
    (∑ i ∈ s, g i) / s.card ≤ Real.log ((∑ i ∈ s, Real.exp (g i)) / s.card) := by
  have := Real.log_le_log (Real.exp_pos _) (exp_mean_le s g hs)
  rwa [Real.log_exp] at this

/-- For an additive critic the average over the pairs of the batch is at most the logarithm of the average
exponential over the other pairs. -/
theorem positive_le_log_negative (f : X → Y → ℝ) (x : Fin n → X) (y : Fin n → Y)
    (hf : IsAdditive f (List.ofFn x) (List.ofFn y)) (hn : 2 ≤ n) :
    Spec.positive f x y ≤ Real.log (Spec.negative f x y) := by
  obtain ⟨a, b, hab⟩ := hf.ofFn
  have hn0 : (n : ℝ) ≠ 0 := by exact_mod_cast (by omega : n ≠ 0)
  have hn1 : (n : ℝ) - 1 ≠ 0 := by
    have : (2 : ℝ) ≤ n := by exact_mod_cast hn
    linarith
  have hcard : (((Finset.univ : Finset (Fin n)).offDiag.card : ℕ) : ℝ) = n * (n - 1) := by
    rw [Finset.offDiag_card, Finset.card_univ, Fintype.card_fin, Nat.cast_sub (by nlinarith)]
    push_cast
    ring
  have hne : (Finset.univ : Finset (Fin n)).offDiag.Nonempty :=
    ⟨(⟨0, by omega⟩, ⟨1, by omega⟩), by simp [Finset.mem_offDiag]⟩
  have hsum : ∀ g : Fin n → Fin n → ℝ, ∑ p ∈ (Finset.univ : Finset (Fin n)).offDiag, g p.1 p.2 =
      ∑ i, ∑ j, if i = j then 0 else g i j := by
    intro g
    have : (Finset.univ : Finset (Fin n)).offDiag = Finset.univ.filter (fun p : Fin n × Fin n => p.1 ≠ p.2) := by
      ext p; simp [Finset.mem_offDiag]
    rw [this, Finset.sum_filter, ← Finset.univ_product_univ, Finset.sum_product]
    refine Finset.sum_congr rfl fun i _ => Finset.sum_congr rfl fun j _ => ?_
    by_cases h : i = j <;> simp [h]
  have h := mean_le_log _ (fun p : Fin n × Fin n => f (x p.1) (y p.2)) hne
  rw [hcard, hsum fun i j => Real.exp (f (x i) (y j)), hsum fun i j => f (x i) (y j)] at h
  refine le_trans (le_of_eq ?_) h
  have h2 : ∀ i, (∑ j, if i = j then 0 else f (x i) (y j)) =
      (n * a (x i) + ∑ j, b (y j)) - f (x i) (y i) := by
    intro i
    have : ∀ j, (if i = j then 0 else f (x i) (y j)) = f (x i) (y j) - if i = j then f (x i) (y j) else 0 := by
      intro j; split_ifs <;> simp
    simp only [this, Finset.sum_sub_distrib, Finset.sum_ite_eq, Finset.mem_univ, if_true]
    simp only [hab, Finset.sum_add_distrib, Finset.sum_const, Finset.card_univ, Fintype.card_fin, nsmul_eq_mul]
  simp only [h2, Spec.positive]
  simp only [hab, Finset.sum_sub_distrib, Finset.sum_add_distrib, Finset.sum_const, Finset.card_univ,
    Fintype.card_fin, nsmul_eq_mul, ← Finset.mul_sum]
  field_simp

/-- C61: the three objectives of the estimators are at most zero for an additive critic, on every batch. -/
theorem objectives_nonpos (f : X → Y → ℝ) (xs : List X) (ys : List Y) (hf : IsAdditive f xs ys)
    (h : xs.length = ys.length) (hn : 2 ≤ xs.length) :
    Linear.donskerVaradhan f xs ys ≤ 0 ∧ Linear.nwj f xs ys ≤ 0 ∧ Linear.infonce f xs ys ≤ 0 := by
  have hdv : Linear.donskerVaradhan f xs ys ≤ 0 := by
    obtain ⟨n, x, y, hl, rfl, rfl⟩ := exists_ofFn xs ys h
    rw [hl] at hn
    rw [Linear.donskerVaradhan_eq hn, ← EReal.coe_zero, EReal.coe_le_coe_iff]
    have := positive_le_log_negative f x y hf hn
    unfold Spec.donskerVaradhan
    linarith
  refine ⟨hdv, (nwj_le_donskerVaradhan f xs ys h hn).trans hdv, ?_⟩
  obtain ⟨n, x, y, hl, rfl, rfl⟩ := exists_ofFn xs ys h
  rw [hl] at hn
  obtain ⟨a, b, hab⟩ := hf.ofFn
  have hn0 : (0 : ℝ) < n := by exact_mod_cast (by omega : 0 < n)
  have hne : (Finset.univ : Finset (Fin n)).Nonempty := ⟨⟨0, by omega⟩, Finset.mem_univ _⟩
  rw [Linear.infonce_eq (by omega), ← EReal.coe_zero, EReal.coe_le_coe_iff]
  unfold Spec.infonce
  have hS : 0 < (∑ j, Real.exp (b (y j))) / n := div_pos (Finset.sum_pos (fun j _ => Real.exp_pos _) hne) hn0
  have h1 : ∀ i, Real.log (Real.exp (f (x i) (y i)) / ((∑ j, Real.exp (f (x i) (y j))) / n)) =
      b (y i) - Real.log ((∑ j, Real.exp (b (y j))) / n) := by
    intro i
    have : (∑ j, Real.exp (f (x i) (y j))) / n = Real.exp (a (x i)) * ((∑ j, Real.exp (b (y j))) / n) := by
      simp only [hab, Real.exp_add, ← Finset.mul_sum]
      ring
    rw [this, Real.log_div (Real.exp_ne_zero _) (mul_pos (Real.exp_pos _) hS).ne', Real.log_exp,
      Real.log_mul (Real.exp_ne_zero _) hS.ne', Real.log_exp, hab]
    ring
  simp only [h1, Finset.sum_sub_distrib, Finset.sum_const, Finset.card_univ, Fintype.card_fin, nsmul_eq_mul]
  have := mean_le_log Finset.univ (fun j => b (y j)) hne
  rw [Finset.card_univ, Fintype.card_fin] at this
  rw [sub_div, mul_div_cancel_left₀ _ hn0.ne']
  linarith

/-- C61 for MINE: the value is at most zero for an additive critic, whatever rearrangement of `ys` is drawn. -/
theorem mineValue_nonpos (f : X → Y → ℝ) (xs : List X) (ys yu : List Y) (hf : IsAdditive f xs ys)
    (h : xs.length = ys.length) (hn : xs ≠ []) (hp : yu.Perm ys) : Mine.mineValue f xs ys yu ≤ 0 := by
  obtain ⟨a, b, hab⟩ := hf
  have hlen : xs.length = yu.length := by rw [h, hp.length_eq]
  have hz : ∀ zs : List Y, xs.length = zs.length → (∀ z ∈ zs, z ∈ ys) →
      (List.zipWith f xs zs).sum = (xs.map a).sum + (zs.map b).sum := by
    intro zs
    clear hn h hlen
    induction xs generalizing zs with
    | nil => intro hz _; cases zs with
      | nil => simp
      | cons z zs => simp at hz
    | cons x xs ih =>
      intro hz hm
      cases zs with
      | nil => simp at hz
      | cons z zs =>
        simp only [List.zipWith_cons_cons, List.sum_cons, List.map_cons, ih (fun x hx => hab x (by simp [hx])) zs (by simpa using hz)
          fun w hw => hm w (by simp [hw]), hab x (by simp) z (hm z (by simp))]
        ring
  have hsum : (List.zipWith f xs ys).sum = (List.zipWith f xs yu).sum := by
    rw [hz ys h fun _ hz => hz, hz yu hlen fun _ hz => hp.mem_iff.1 hz, (hp.map b).sum_eq]
  set vs := List.zipWith f xs yu with hvs
  have hvl : vs.length = xs.length := by rw [hvs, List.length_zipWith]; omega
  have hyl : (List.zipWith f xs ys).length = xs.length := by rw [List.length_zipWith]; omega
  have hpos : 0 < vs.length := by rw [hvl]; exact List.length_pos_of_ne_nil hn
  haveI : NeZero vs.length := ⟨hpos.ne'⟩
  have := mean_le_log (Finset.univ : Finset (Fin vs.length)) (fun i => vs[i]) ⟨0, Finset.mem_univ _⟩
  have e1 : ∑ i : Fin vs.length, vs[i] = vs.sum := by
    rw [← List.sum_ofFn]; congr 1; exact List.ofFn_getElem
  have e2 : ∑ i : Fin vs.length, Real.exp vs[i] = (vs.map Real.exp).sum := by
    rw [← List.sum_ofFn]; congr 1
    conv_rhs => rw [← List.ofFn_getElem (xs := vs)]
    rw [List.map_ofFn]; rfl
  rw [e1, e2, Finset.card_univ, Fintype.card_fin] at this
  have hexp : 0 < (vs.map Real.exp).sum := by
    rw [← e2]
    exact Finset.sum_pos (fun j _ => Real.exp_pos _) ⟨0, Finset.mem_univ _⟩
  rw [Real.log_div hexp.ne' (by exact_mod_cast hpos.ne')] at this
  unfold Mine.mineValue Mine.mean Mine.logmeanexp Mine.scores
  rw [← hvs, hsum, hyl, ← hvl]
  linarith

/-! ### Networks without hidden layers -/

/-- Whatever its weights are, also after training, a network consisting of one layer is additive on points of the
declared dimensions. -/
theorem single_layer_additive (l : Critic.Linear) (hl : l.WellShaped) (ho : l.outF = 1) (dimX dimY : ℕ)
    (hi : l.inF = dimX + dimY) : ∃ a b : List ℝ → ℝ, ∀ x y : List ℝ, x.length = dimX → y.length = dimY →
      Critic.mlpCall [l] x y = .ok (a x + b y) := by
  obtain ⟨w, hw⟩ := List.length_eq_one_iff.1 (hl.1.trans ho)
  obtain ⟨c, hc⟩ := List.length_eq_one_iff.1 (hl.2.1.trans ho)
  have hwl : w.length = dimX + dimY := (hl.2.2 w (by rw [hw]; simp)).trans hi
  refine ⟨fun x => (List.zipWith (· * ·) (w.take dimX) x).sum,
    fun y => (List.zipWith (· * ·) (w.drop dimX) y).sum + c, fun x y hx hy => ?_⟩
  have h1 : l.call (x ++ y) = .ok [(List.zipWith (· * ·) w (x ++ y)).sum + c] := by
    unfold Critic.Linear.call
    rw [if_pos (by simp [hx, hy, hi]), hw, hc]
    rfl
  have h2 : List.zipWith (· * ·) w (x ++ y) =
      List.zipWith (· * ·) (w.take dimX) x ++ List.zipWith (· * ·) (w.drop dimX) y := by
    conv_lhs => rw [← List.take_append_drop dimX w]
    rw [List.zipWith_append]
    rw [List.length_take, hx, hwl]
    omega
  simp only [Critic.mlpCall, List.dropLast_singleton, Critic.hiddenPass, List.getLast?_singleton, h1, bind,
    Except.bind]
  rw [h2, List.sum_append, add_assoc]

end BMI.Additive

namespace BMI.NeuralEstimator

open BMI.NeuralData BMI.Training BMI.Mine BMI.PSpace BMI.Additive BMI.Neural

variable {Θ Key O : Type} [NormedAddCommGroup Θ] [NormedSpace ℝ Θ]

/-- On points of dimensions `m` and `n` every critic of the family is additive. -/
def AdditiveFamily (lib : Lib Key Θ O) (m n : ℕ) : Prop := ∀ θ, ∃ a b : Point → ℝ, ∀ x y : Point,
  x.length = m → y.length = n → lib.call θ x y = a x + b y

theorem mem_xRows_length (ε : ℝ) (p : Params) (x : Mat) (v : Point) (h : v ∈ xRows ε p x) : v.length = x.d := by
  unfold xRows rows at h
  obtain ⟨i, rfl⟩ := (List.mem_ofFn' _ _).1 h
  rw [List.length_ofFn, stored_d]

theorem SplitOf.test_mem {xs ys xTr yTr xTe yTe : List Point} {f : Option ℝ} (h : SplitOf xs ys xTr yTr xTe yTe f)
    (e : xs.length = ys.length) : (∀ v ∈ xTe, v ∈ xs) ∧ ∀ v ∈ yTe, v ∈ ys := by
  cases f with
  | none => obtain ⟨-, -, -, -, rfl, rfl⟩ := h; exact ⟨fun _ h => h, fun _ h => h⟩
  | some f =>
    obtain ⟨-, h2, h3, -⟩ := h
    refine ⟨fun v hv => ?_, fun v hv => ?_⟩
    · obtain ⟨i, hi, rfl⟩ := List.getElem_of_mem hv
      have : (xTe[i], yTe[i]) ∈ xTe.zip yTe := by
        rw [← List.getElem_zip (h := by rw [List.length_zip]; omega)]; exact List.getElem_mem _
      exact (List.of_mem_zip (h3.mem_iff.1 (List.mem_append_right _ this))).1
    · obtain ⟨i, hi, rfl⟩ := List.getElem_of_mem hv
      have : (xTe[i], yTe[i]) ∈ xTe.zip yTe := by
        rw [← List.getElem_zip (h := by rw [List.length_zip]; omega)]; exact List.getElem_mem _
      exact (List.of_mem_zip (h3.mem_iff.1 (List.mem_append_right _ this))).2

theorem additive_on_test {lib : Lib Key Θ O} (ε : ℝ) (p : Params) {x y : Mat} (hn : x.n = y.n)
    (ha : AdditiveFamily lib x.d y.d) {xTr yTr xTe yTe : List Point} {f : Option ℝ}
    (h : SplitOf (xRows ε p x) (xRows ε p y) xTr yTr xTe yTe f) (θ : Θ) : IsAdditive (lib.call θ) xTe yTe := by
  obtain ⟨a, b, hab⟩ := ha θ
  obtain ⟨h1, h2⟩ := h.test_mem (by rw [xRows_length, xRows_length, hn])
  exact ⟨a, b, fun v hv w hw => hab v w (mem_xRows_length ε p x v (h1 v hv)) (mem_xRows_length ε p y w (h2 w hw))⟩

/-- C61 for MINE: with critics without hidden layers the reported number is never positive, however strongly the
variables depend on each other. -/
theorem mine_additive_nonpos {lib : Lib Key Θ O} (hr : IdealRng lib.rng) (ε α : ℝ) (p : Params) (est : Estimator Θ)
    (hv : mkMine p α = .ok est) (x y : Mat) (hn : x.n = y.n) (hne : 0 < x.n ∧ 0 < x.d ∧ 0 < y.d)
    (hf : ∀ g, p.trainTestSplit = some g → 1 ≤ g * x.n) (hfac : ∀ k, ∃ θ, lib.factory k x.d y.d = .ok θ)
    (ha : AdditiveFamily lib x.d y.d) :
    ∃ res est', mineEstimateWithInfo lib ε α est x y = .ok (res, est') ∧ ∀ v, res.mi = .num v → v ≤ 0 := by
  obtain ⟨res, est', h1, -, -, h4⟩ := mine_estimate_total hr ε α p est hv x y hn hne hf hfac
  refine ⟨res, est', h1, fun v hv' => ?_⟩
  obtain ⟨xTr, xTe, yTr, yTe, log, h5, -, h7, h8⟩ := h4 v hv'
  obtain ⟨θ, yu, hp, rfl⟩ := h8 v h7.1
  by_cases hx : xTe = []
  · subst hx
    have : Mine.mineValue (lib.call θ) [] yTe yu = 0 := by simp [mineValue, Mine.mean, logmeanexp, scores]
    rw [this]
  · exact mineValue_nonpos _ _ _ _ (additive_on_test ε p hn ha h5 θ) h5.2.1 hx hp

/-- C61 for the other neural estimators: if the test objective never exceeds zero for additive critics (as
Donsker–Varadhan, NWJ and InfoNCE, see `objectives_nonpos`), the reported number is never positive. -/
theorem estimate_additive_nonpos {lib : Lib Key Θ O} (hr : IdealRng lib.rng) (ε : ℝ) (F FT : Formula Point Point)
    (est : Estimator Θ) (x y : Mat) (hn : x.n = y.n) (hne : 0 < x.n ∧ 0 < x.d ∧ 0 < y.d)
    (hf : ∀ g, est.params.trainTestSplit = some g → 0 < g ∧ g < 1 ∧ 1 ≤ g * x.n)
    (hb : 0 ≤ est.params.batchSize ∧ est.params.batchSize ≤ trainSize est.params.trainTestSplit x.n)
    (ht : est.params.testEvery ≠ 0) (hfac : ∀ k, ∃ θ, lib.factory k x.d y.d = .ok θ)
    (ha : AdditiveFamily lib x.d y.d)
    (hFT : ∀ f xs ys, IsAdditive f xs ys → xs.length = ys.length → ∀ v, FT f xs ys = .num v → v ≤ 0) :
    ∃ res est', estimateWithInfo lib ε F FT est x y = .ok (res, est') ∧ ∀ v, res.mi = .num v → v ≤ 0 := by
  obtain ⟨xTr, xTe, yTr, yTe, θ, log, bs, h1, -, h3, -, -, -, h7, h8, -⟩ :=
    estimate_spec hr ε F FT est x y hn hne hf hb ht hfac
  refine ⟨_, _, h3, fun v hv => ?_⟩
  have hall : ∀ w, Fl.num w ∈ log.testHist.map Prod.snd → w ≤ 0 := by
    intro w hw
    rw [h7, List.map_map] at hw
    obtain ⟨i, -, hi⟩ := List.mem_map.1 hw
    exact hFT _ _ _ (additive_on_test ε est.params hn ha h1 _) h1.2.1 w hi
  exact hall v (finalMI_mem_of_inv h8 hv)

/-! ### The hypotheses can be met -/

example : Linear.infonce (fun x y : ℝ => x + 3 * y) [0, 1, 2] [0, 1, 2] ≤ 0 :=
  (objectives_nonpos _ _ _ ⟨fun x => x, fun y => 3 * y, fun _ _ _ _ => rfl⟩ rfl (by simp)).2.2

/-- A library whose critics are networks without hidden layers. -/
noncomputable def flatLib : Lib Unit ℝ Unit := { plainLib with call := fun t x y => t * x.sum + y.sum }

example : ∃ res est', mineEstimateWithInfo flatLib 0 0.9 ⟨smallParams 2, none⟩ line line = .ok (res, est') ∧
    ∀ v, res.mi = .num v → v ≤ 0 := by
  have hv : mkMine (Θ := ℝ) (smallParams 2) 0.9 = .ok ⟨smallParams 2, none⟩ := by
    unfold mkMine validateMine
    rw [if_pos (by simp [smallParams]; norm_num)]
    rfl
  exact mine_additive_nonpos (lib := flatLib) plainRng_ideal 0 0.9 (smallParams 2) _ hv line line rfl
    (by simp [line]) (by simp [smallParams, line]; norm_num) (fun _ => ⟨0, rfl⟩)
    fun t => ⟨fun x => t * x.sum, fun y => y.sum, fun _ _ _ _ => rfl⟩

end BMI.NeuralEstimator
