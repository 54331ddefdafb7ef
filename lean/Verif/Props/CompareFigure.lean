import Verif.Spec.CompareFigure
import Verif.Props.GmmBenchmark
import Verif.Props.NormalTasks

/-! C79: the figure which compares the mixture model with other estimators. -/

namespace BMI.CompareFigure

open BMI.Training (Fl)
open BMI.Task (Task)
open BMI.Run (Dict)
open BMI.Workflow (Line Setup setupV2 cfgFormat)
open BMI.GmmBenchmark (Row Summary summary)

/-! ## Heights -/

theorem linspace_length (a b : ℝ) (n : ℕ) : (linspace a b n).length = n := by simp [linspace]

theorem linspace_inside {a b : ℝ} (h : a ≤ b) {n : ℕ} {y : ℝ} (hy : y ∈ linspace a b n) : a ≤ y ∧ y ≤ b := by
  obtain ⟨i, hi, rfl⟩ := List.mem_map.1 hy
  have hi' : i < n := List.mem_range.1 hi
  rcases Nat.eq_zero_or_pos i with h0 | h0
  · subst h0
    simpa using h
  have hn : (0 : ℝ) < (n : ℝ) - 1 := by
    have : (2 : ℝ) ≤ n := by exact_mod_cast (by omega : 2 ≤ n)
    linarith
  have hin : (i : ℝ) ≤ (n : ℝ) - 1 := by
    have : ((i + 1 : ℕ) : ℝ) ≤ n := by exact_mod_cast hi'
    push_cast at this
    linarith
  have h1 : (0 : ℝ) ≤ (i : ℝ) / ((n : ℝ) - 1) := by positivity
  have h2 : (i : ℝ) / ((n : ℝ) - 1) ≤ 1 := (div_le_one hn).2 hin
  have e : (i : ℝ) * ((b - a) / ((n : ℝ) - 1)) = (i : ℝ) / ((n : ℝ) - 1) * (b - a) := by ring
  rw [e]
  constructor <;> nlinarith

theorem linspace_increasing {a b : ℝ} (h : a < b) (n : ℕ) : (linspace a b n).Pairwise (· < ·) := by
  unfold linspace
  rw [List.pairwise_map]
  refine (List.pairwise_lt_range (n := n)).imp_of_mem fun {i j} hi hj hij => ?_
  have hj' : j < n := List.mem_range.1 hj
  have hn : (0 : ℝ) < (n : ℝ) - 1 := by
    have : (2 : ℝ) ≤ n := by exact_mod_cast (by omega : 2 ≤ n)
    linarith
  have hij' : (i : ℝ) < j := by exact_mod_cast hij
  have := mul_lt_mul_of_pos_right hij' (div_pos (sub_pos.2 h) hn)
  linarith

theorem linspace_sum (a b : ℝ) {n : ℕ} (hn : n ≠ 1) : (linspace a b n).sum = n * ((a + b) / 2) := by
  unfold linspace
  have e : ((List.range n).map fun i : ℕ => a + (i : ℝ) * ((b - a) / ((n : ℝ) - 1))).sum
      = ∑ i ∈ Finset.range n, (a + (i : ℝ) * ((b - a) / ((n : ℝ) - 1))) := rfl
  have g : (∑ i ∈ Finset.range n, (i : ℝ)) * 2 = n * ((n : ℝ) - 1) := by
    rcases Nat.eq_zero_or_pos n with h | h
    · simp [h]
    have := Finset.sum_range_id_mul_two n
    have h2 : ((n - 1 : ℕ) : ℝ) = (n : ℝ) - 1 := by rw [Nat.cast_sub h, Nat.cast_one]
    rw [← h2, ← Nat.cast_mul, ← this, Nat.cast_mul, Nat.cast_sum]
    norm_num
  rw [e, Finset.sum_add_distrib, ← Finset.sum_mul, Finset.sum_const, Finset.card_range, nsmul_eq_mul]
  have hne : (n : ℝ) - 1 ≠ 0 := by
    rw [sub_ne_zero]
    exact_mod_cast hn
  have g' : ∑ i ∈ Finset.range n, (i : ℝ) = n * ((n : ℝ) - 1) / 2 := by linarith
  rw [g']
  field_simp
  ring

/-- **C79**: the constructor takes the identifiers and the margin as they are, and refuses margins which are not positive. -/
theorem yScaler_spec (ids : List String) (eps : ℝ) : (0 < eps → ∃ s, yScaler ids eps = .ok s ∧ s.n = ids.length ∧ s.eps = eps ∧
      ∀ id m, id ∉ ids → s.getY id m = .error .valueError) ∧ (eps ≤ 0 → yScaler ids eps = .error .assertionError) := by
  refine ⟨fun h => ⟨⟨ids, eps⟩, by rw [yScaler, if_pos h], rfl, rfl, fun id m hm => ?_⟩, fun h => by rw [yScaler, if_neg (not_lt.2 h)]⟩
  have : ids.idxOf? id = none := List.idxOf?_eq_none_iff.2 hm
  simp only [YScaler.getY, this]

example : ∃ s, yScaler ["BMM", "KSG-10"] 0.1 = .ok s ∧ s.getY "CCA" 10 = .error .valueError := by
  obtain ⟨s, h, -, -, h4⟩ := (yScaler_spec ["BMM", "KSG-10"] 0.1).1 (by norm_num)
  exact ⟨s, h, h4 _ _ (by decide)⟩

/-- **C79**, heights: for different estimators and a margin below half of the height of a strip, the dots of estimator `i` are in its
strip, whose middle is its tick; strips of different estimators do not meet, and everything is between 0 and 1. -/
theorem getY_spec (s : YScaler) (hn : s.ids.Nodup) (h0 : 0 < s.eps) (h1 : s.eps * s.n < 1 / 2) {i : ℕ} (hi : i < s.ids.length) (m : ℕ) :
    (∃ ys, s.getY s.ids[i] m = .ok ys ∧ ys.length = m ∧ InStrip s.n i s.eps ys ∧ ∀ y ∈ ys, 0 < y ∧ y < 1) ∧
    s.ticks[i]? = some (((i : ℝ) + 1 / 2) / s.n) := by
  have hpos : (0 : ℝ) < s.n := by exact_mod_cast (by unfold YScaler.n; omega : 0 < s.n)
  have hidx : s.ids.idxOf? s.ids[i] = some i := by
    rw [List.idxOf?_eq_some_iff]
    exact ⟨hi, rfl, fun j hj h => absurd ((List.Nodup.getElem_inj_iff hn).1 h) (by omega)⟩
  have hlt : (i : ℝ) / s.n + s.eps < ((i : ℝ) + 1) / s.n - s.eps := by
    rw [div_add' _ _ _ hpos.ne', div_sub' hpos.ne']
    refine div_lt_div_of_pos_right ?_ hpos
    nlinarith
  have hle : ((i : ℝ) + 1) / s.n ≤ 1 := by
    rw [div_le_one hpos]
    exact_mod_cast hi
  have hge : (0 : ℝ) ≤ (i : ℝ) / s.n := by positivity
  refine ⟨⟨_, by unfold YScaler.getY; rw [hidx], linspace_length _ _ _, ⟨fun y hy => linspace_inside hlt.le hy, linspace_increasing hlt m,
    fun hm => ?_⟩, fun y hy => ?_⟩, ?_⟩
  · rw [linspace_length] at hm ⊢
    rw [linspace_sum _ _ hm]
    ring
  · obtain ⟨a, b⟩ := linspace_inside hlt.le hy
    exact ⟨by linarith, by linarith⟩
  · unfold YScaler.ticks
    rw [List.getElem?_map, List.getElem?_range (show i < s.n from hi)]
    norm_num

/-- Strips of different estimators do not meet. -/
theorem strips_disjoint {n i j : ℕ} {eps : ℝ} (h0 : 0 < eps) {ys zs : List ℝ} (hy : InStrip n i eps ys) (hz : InStrip n j eps zs) (hij : i < j)
    {y z : ℝ} (h1 : y ∈ ys) (h2 : z ∈ zs) : y < z := by
  have a := (hy.inside y h1).2
  have b := (hz.inside z h2).1
  have : ((i : ℝ) + 1) / n ≤ (j : ℝ) / n := by
    refine div_le_div_of_nonneg_right ?_ (Nat.cast_nonneg n)
    exact_mod_cast hij
  linarith

/-! ## One panel -/

variable {V P Q : Type}

/-- The scaler of the figure. -/
noncomputable def scaler : YScaler := ⟨["BMM", "KSG-10", "InfoNCE"], 0.12⟩

theorem scaler_getY (i : Fin 3) (m : ℕ) : ∃ ys, scaler.getY (["BMM", "KSG-10", "InfoNCE"][i]) m = .ok ys ∧ ys.length = m ∧
    InStrip 3 i (3 / 25) ys := by
  obtain ⟨⟨ys, a, b, c, -⟩, -⟩ := getY_spec scaler (by decide) (by norm_num [scaler]) (by norm_num [scaler, YScaler.n]) (i := i) i.2 m
  refine ⟨ys, a, b, ?_⟩
  have e : scaler.eps = 3 / 25 := by norm_num [scaler]
  rw [e] at c
  exact c

theorem meanOf_const {l : List (Fl ℝ)} (hl : l ≠ []) {v : ℝ} (h : ∀ a ∈ l, a = .num v) : meanOf l = .ok (.num v) := by
  have e : l.filterMap number = List.replicate l.length v := by
    clear hl
    induction l with
    | nil => rfl
    | cons a l ih =>
      rw [h a (by simp), List.filterMap_cons_some (f := number) (b := v) rfl, ih fun b hb => h b (by simp [hb])]
      rfl
  unfold meanOf
  rw [if_neg (by simpa using hl), e]
  obtain ⟨a, l, rfl⟩ := List.exists_cons_of_ne_nil hl
  rw [List.length_cons, List.replicate_succ]
  simp only [← List.replicate_succ, List.sum_replicate, List.length_replicate, nsmul_eq_mul]
  congr 2
  field_simp

/-- Missing values are left out, wherever they are: the mean is over the numbers, and NaN if there are none. -/
theorem meanOf_missing {l : List (Fl ℝ)} {nums : List ℝ} {m : ℕ} (hl : l.Perm (nums.map .num ++ List.replicate m .nan)) (hm : l ≠ []) :
    meanOf l = .ok (if nums = [] then .nan else .num (nums.sum / nums.length)) := by
  have h1 : (l.filterMap number).Perm nums := by
    have := hl.filterMap number
    rw [List.filterMap_append, List.filterMap_map] at this
    have e1 : List.filterMap (number ∘ Fl.num) nums = nums := by
      have : (number ∘ Fl.num) = (some : ℝ → Option ℝ) := rfl
      rw [this, List.filterMap_some]
    have e2 : List.filterMap number (List.replicate m Fl.nan) = [] := by
      rw [List.filterMap_eq_nil_iff]
      intro a ha
      rw [(List.mem_replicate.1 ha).2]
      rfl
    rwa [e1, e2, List.append_nil] at this
  unfold meanOf
  rw [if_neg (by simpa using hm)]
  cases h : l.filterMap number with
  | nil =>
    rw [h] at h1
    rw [if_pos h1.nil_eq.symm]
  | cons a t =>
    rw [h] at h1
    have hne : nums ≠ [] := fun h0 => by rw [h0] at h1; simpa using h1.length_eq
    rw [if_neg hne, ← h1.sum_eq, ← h1.length_eq]

example : meanOf [.num 1, .nan, .num 4] = .ok (.num (5 / 2)) := by
  rw [meanOf_missing (l := [.num 1, .nan, .num 4]) (nums := [1, 4]) (m := 1) ((List.Perm.swap _ _ _).cons _) (by simp), if_neg (by simp)]
  norm_num

theorem meanOf_ok {l : List (Fl ℝ)} : (∃ v, meanOf l = .ok v) ↔ l ≠ [] := by
  unfold meanOf
  cases l with
  | nil => simp
  | cons a l =>
    simp only [List.isEmpty_cons, Bool.false_eq_true, if_false, ne_eq, reduceCtorEq, not_false_eq_true, iff_true]
    split <;> exact ⟨_, rfl⟩

theorem zip_fst {A B : Type} {l : List A} {m : List B} (h : m.length = l.length) : (l.zip m).map Prod.fst = l := by
  rw [List.map_fst_zip (by omega)]

theorem zip_snd {A B : Type} {l : List A} {m : List B} (h : m.length = l.length) : (l.zip m).map Prod.snd = m := by
  rw [List.map_snd_zip (by omega)]

theorem bars_spec (sub : List (Row Q)) : ∀ ys : List ℝ, ys.length = sub.length →
    List.Forall₂ (fun (r : Row Q) (b : Bar) => b.x = r.summary.mean ∧ b.left = r.summary.qLow ∧ b.right = r.summary.qHigh) sub
      (List.zipWith (fun (p : ℝ × ℝ) (q : ℝ × ℝ) => (⟨p.1, p.2, p.1 - q.1, p.1 + q.2⟩ : Bar)) ((sub.map fun r => r.summary.mean).zip ys)
        ((sub.map fun r => r.summary.mean - r.summary.qLow).zip (sub.map fun r => r.summary.qHigh - r.summary.mean))) ∧
    (List.zipWith (fun (p : ℝ × ℝ) (q : ℝ × ℝ) => (⟨p.1, p.2, p.1 - q.1, p.1 + q.2⟩ : Bar)) ((sub.map fun r => r.summary.mean).zip ys)
        ((sub.map fun r => r.summary.mean - r.summary.qLow).zip (sub.map fun r => r.summary.qHigh - r.summary.mean))).map Bar.y = ys := by
  induction sub with
  | nil =>
    intro ys h
    rw [List.length_nil, List.length_eq_zero_iff] at h
    subst h
    exact ⟨.nil, rfl⟩
  | cons r sub ih =>
    intro ys h
    cases ys with
    | nil => simp at h
    | cons y ys =>
      obtain ⟨a, b⟩ := ih ys (by simpa using h)
      refine ⟨.cons ⟨rfl, ?_, ?_⟩ a, ?_⟩
      · simp
      · simp
      · simp only [List.map_cons, List.zip_cons_cons, List.zipWith_cons_cons]
        rw [b]

open Classical in
/-- A panel is made exactly if there is a line about the task and all intervals contain their means. -/
theorem panel_spec (v2 : List (Line ℝ (Fl ℝ) V P)) (bmm : List (Row Q)) (t : String × (ℝ × ℝ)) :
    ((∃ l ∈ v2, l.result.taskId = t.1) →
      (∀ r ∈ bmm, r.taskId = t.1 → r.summary.qLow ≤ r.summary.mean ∧ r.summary.mean ≤ r.summary.qHigh) →
      ∃ p, panel scaler v2 bmm t = .ok p ∧ IsPanel v2 bmm t p) ∧
    ((¬ ∃ l ∈ v2, l.result.taskId = t.1) → panel scaler v2 bmm t = .error .keyError) ∧
    ((∃ l ∈ v2, l.result.taskId = t.1) →
      (∃ r ∈ bmm, r.taskId = t.1 ∧ (r.summary.mean < r.summary.qLow ∨ r.summary.qHigh < r.summary.mean)) →
      panel scaler v2 bmm t = .error .valueError) := by
  set miTrues := (v2.filter fun l => l.result.taskId == t.1).map fun l => l.miTrue with hmt
  set sub := bmm.filter fun r => r.taskId == t.1 with hsub
  obtain ⟨ys, y1, y2, y3⟩ := scaler_getY 0 sub.length
  have hne : (∃ l ∈ v2, l.result.taskId = t.1) → miTrues ≠ [] := by
    rintro ⟨l, h1, h2⟩ h
    have : l.miTrue ∈ miTrues := List.mem_map.2 ⟨l, List.mem_filter.2 ⟨h1, by simpa using h2⟩, rfl⟩
    rw [h] at this
    simp at this
  refine ⟨fun h1 h2 => ?_, fun h1 => ?_, fun h1 h2 => ?_⟩
  · obtain ⟨v, hv⟩ := meanOf_ok.2 (hne h1)
    obtain ⟨b1, b2⟩ := bars_spec sub ys y2
    set bars := List.zipWith (fun (p : ℝ × ℝ) (q : ℝ × ℝ) => (⟨p.1, p.2, p.1 - q.1, p.1 + q.2⟩ : Bar)) ((sub.map fun r => r.summary.mean).zip ys)
        ((sub.map fun r => r.summary.mean - r.summary.qLow).zip (sub.map fun r => r.summary.qHigh - r.summary.mean)) with hb
    have hbars : errorbar (sub.map fun r => r.summary.mean) ys (sub.map fun r => r.summary.mean - r.summary.qLow)
        (sub.map fun r => r.summary.qHigh - r.summary.mean) = .ok bars := by
      unfold errorbar
      rw [if_neg]
      rintro (⟨a, ha, h⟩ | ⟨a, ha, h⟩)
      all_goals
        obtain ⟨r, hr, rfl⟩ := List.mem_map.1 ha
        rw [hsub, List.mem_filter] at hr
        have := h2 r hr.1 (by simpa using hr.2)
        linarith
    set e1 := (v2.filter fun l => l.result.taskId == t.1 && l.result.estimatorId == "KSG-10" &&
      l.result.nSamples == nSamples).map fun l => l.result.mi with he1
    obtain ⟨z1, k1, k2, k3⟩ := scaler_getY 1 e1.length
    set e2 := (v2.filter fun l => l.result.taskId == t.1 && l.result.estimatorId == "InfoNCE" &&
      l.result.nSamples == nSamples).map fun l => l.result.mi with he2
    obtain ⟨z2, i1, i2, i3⟩ := scaler_getY 2 e2.length
    have y1' : scaler.getY "BMM" sub.length = .ok ys := y1
    have k1' : scaler.getY "KSG-10" _ = .ok z1 := k1
    have i1' : scaler.getY "InfoNCE" _ = .ok z2 := i1
    refine ⟨⟨t.2, (-0.05, 1.01), v, bars, [("KSG-10", e1.zip z1), ("InfoNCE", e2.zip z2)]⟩, ?_, rfl, fun w hw => ?_, ?_, ?_,
      ⟨_, rfl, ?_, ?_⟩, ⟨_, rfl, ?_, ?_⟩⟩
    rotate_left
    · have := meanOf_const (hne h1) (v := w) (by
        intro a ha
        obtain ⟨l, hl, rfl⟩ := List.mem_map.1 ha
        rw [List.mem_filter] at hl
        exact hw l hl.1 (by simpa using hl.2))
      rw [hv] at this
      exact Except.ok.inj this
    · exact b1
    · rw [b2]
      exact y3
    rotate_left 4
    · unfold panel
      rw [← hmt, hv]
      simp only [bind, Except.bind]
      rw [← hsub, y1']
      dsimp only
      rw [hbars]
      dsimp only
      simp only [pointEstimators, List.mapM_cons, List.mapM_nil, bind, Except.bind, pure, Except.pure]
      rw [← he1, k1']
      dsimp only
      rw [← he2, i1']
    · rw [zip_snd k2]
      exact k3
    · rw [zip_fst k2, he1]
      congr 1
      refine List.filter_congr fun l _ => ?_
      simp [nSamples, Bool.and_assoc, Bool.beq_eq_decide_eq]
    · rw [zip_snd i2]
      exact i3
    · rw [zip_fst i2, he2]
      congr 1
      refine List.filter_congr fun l _ => ?_
      simp [nSamples, Bool.and_assoc, Bool.beq_eq_decide_eq]
  · have : miTrues = [] := by
      rw [hmt, List.map_eq_nil_iff, List.filter_eq_nil_iff]
      intro l hl h
      exact h1 ⟨l, hl, by simpa using h⟩
    unfold panel
    rw [← hmt, this]
    rfl
  · obtain ⟨v, hv⟩ := meanOf_ok.2 (hne h1)
    have y1' : scaler.getY "BMM" sub.length = .ok ys := y1
    unfold panel
    rw [← hmt, hv]
    simp only [bind, Except.bind]
    rw [← hsub, y1']
    dsimp only
    have : errorbar (sub.map fun r => r.summary.mean) ys (sub.map fun r => r.summary.mean - r.summary.qLow)
        (sub.map fun r => r.summary.qHigh - r.summary.mean) = .error .valueError := by
      unfold errorbar
      rw [if_pos]
      obtain ⟨r, a, b, c⟩ := h2
      have hr : r ∈ sub := List.mem_filter.2 ⟨a, by simpa using b⟩
      rcases c with c | c
      · exact .inl ⟨_, List.mem_map.2 ⟨r, hr, rfl⟩, by linarith⟩
      · exact .inr ⟨_, List.mem_map.2 ⟨r, hr, rfl⟩, by linarith⟩
    rw [this]

/-! ## The figure -/

theorem scaler_eq : yScaler ("BMM" :: pointEstimators.map Prod.fst) 0.12 = .ok scaler := by
  unfold yScaler
  rw [if_pos (by norm_num)]
  rfl

theorem ticks_eq : scaler.ticks.zip ("BMM" :: pointEstimators.map Prod.snd) = [(1 / 6, "BMM"), (1 / 2, "KSG"), (5 / 6, "InfoNCE")] := by
  have : scaler.ticks = [1 / 6, 1 / 2, 5 / 6] := by
    simp only [YScaler.ticks, YScaler.n, scaler, List.length_cons, List.length_nil, List.range_succ, List.range_zero, List.nil_append,
      List.cons_append, List.map_cons, List.map_nil]
    norm_num
  rw [this]
  rfl

theorem mapM_error {A B E : Type} (f : A → Except E B) (err : E) (h : ∀ a, (∃ b, f a = .ok b) ∨ f a = .error err) :
    ∀ l : List A, (∃ a ∈ l, f a = .error err) → l.mapM f = .error err := by
  intro l
  induction l with
  | nil => simp
  | cons a l ih =>
    rintro ⟨b, hb, e⟩
    rw [List.mapM_cons]
    rcases h a with ⟨c, hc⟩ | hc
    · have hbl : b ∈ l := by
        rcases List.mem_cons.1 hb with rfl | h'
        · rw [e] at hc
          cases hc
        · exact h'
      simp only [hc, bind, Except.bind]
      rw [ih ⟨b, hbl, e⟩]
    · simp only [hc, bind, Except.bind]

/-- **C79** (partial: it is false without the hypothesis that intervals contain their means, see `skewed`): if the benchmark has results
for each of the four tasks, the figure has a panel for each of them, which shows the true mutual information, the intervals and means of
the mixture model, and the estimates of KSG and InfoNCE, each in its own strip; the strips have the names of the estimators. -/
theorem figure_spec_partial (v2 : List (Line ℝ (Fl ℝ) V P)) (bmm : List (Row Q)) (h1 : ∀ t ∈ tasks, ∃ l ∈ v2, l.result.taskId = t.1)
    (h2 : ∀ t ∈ tasks, ∀ r ∈ bmm, r.taskId = t.1 → r.summary.qLow ≤ r.summary.mean ∧ r.summary.mean ≤ r.summary.qHigh) :
    ∃ panels, figure v2 bmm = .ok (panels, [(1 / 6, "BMM"), (1 / 2, "KSG"), (5 / 6, "InfoNCE")]) ∧
      List.Forall₂ (IsPanel v2 bmm) tasks panels := by
  obtain ⟨panels, a, b⟩ := Workflow.mapM_forall2 (IsPanel v2 bmm) (panel scaler v2 bmm) tasks
    fun t ht => (panel_spec v2 bmm t).1 (h1 t ht) (h2 t ht)
  refine ⟨panels, ?_, b⟩
  unfold figure
  rw [scaler_eq]
  simp only [bind, Except.bind]
  rw [a]
  dsimp only
  rw [ticks_eq]

/-- **C79**: an interval that does not contain its mean stops the figure. -/
theorem figure_raises (v2 : List (Line ℝ (Fl ℝ) V P)) (bmm : List (Row Q)) (h1 : ∀ t ∈ tasks, ∃ l ∈ v2, l.result.taskId = t.1)
    (h2 : ∃ t ∈ tasks, ∃ r ∈ bmm, r.taskId = t.1 ∧ (r.summary.mean < r.summary.qLow ∨ r.summary.qHigh < r.summary.mean)) :
    figure v2 bmm = .error .valueError := by
  obtain ⟨t, ht, r, hr⟩ := h2
  have hm : tasks.mapM (panel scaler v2 bmm) = .error .valueError := by
    have hgen : ∀ l : Dict (ℝ × ℝ), (∀ t ∈ l, ∃ l ∈ v2, l.result.taskId = t.1) → t ∈ l → l.mapM (panel scaler v2 bmm) = .error .valueError := by
      intro l
      induction l with
      | nil => simp
      | cons a l ih =>
        intro g1 g2
        rw [List.mapM_cons]
        by_cases c : ∀ r ∈ bmm, r.taskId = a.1 → r.summary.qLow ≤ r.summary.mean ∧ r.summary.mean ≤ r.summary.qHigh
        · obtain ⟨p, hp, -⟩ := (panel_spec v2 bmm a).1 (g1 a (by simp)) c
          simp only [hp, bind, Except.bind]
          rcases List.mem_cons.1 g2 with rfl | g3
          · obtain ⟨x1, x2, x3⟩ := hr
            have := c r x1 x2
            rcases x3 with x3 | x3 <;> linarith
          · rw [ih (fun t ht => g1 t (by simp [ht])) g3]
        · push Not at c
          obtain ⟨r', y1, y2, y3⟩ := c
          rw [(panel_spec v2 bmm a).2.2 (g1 a (by simp)) ⟨r', y1, y2, ?_⟩]
          · rfl
          · by_cases hq : r'.summary.mean < r'.summary.qLow
            · exact .inl hq
            · exact .inr (y3 (not_lt.1 hq))
    exact hgen tasks h1 ht
  unfold figure
  rw [scaler_eq]
  simp only [bind, Except.bind]
  rw [hm]

/-- **C79**: without results for one of the tasks there is no figure. -/
theorem figure_missing (v2 : List (Line ℝ (Fl ℝ) V P)) (bmm : List (Row Q)) (h1 : ∃ t ∈ tasks, ∀ l ∈ v2, l.result.taskId ≠ t.1) :
    ∃ e, figure v2 bmm = .error e := by
  obtain ⟨t, ht, h⟩ := h1
  have hgen : ∀ l : Dict (ℝ × ℝ), t ∈ l → ∃ e, l.mapM (panel scaler v2 bmm) = .error e := by
    intro l
    induction l with
    | nil => simp
    | cons a l ih =>
      intro g
      rw [List.mapM_cons]
      rcases List.mem_cons.1 g with rfl | g
      · rw [(panel_spec v2 bmm t).2.1 (by push Not; exact h)]
        exact ⟨_, rfl⟩
      · cases hp : panel scaler v2 bmm a with
        | error e => exact ⟨e, rfl⟩
        | ok p =>
          obtain ⟨e, he⟩ := ih g
          simp only [bind, Except.bind, he]
          exact ⟨e, rfl⟩
  obtain ⟨e, he⟩ := hgen tasks ht
  unfold figure
  rw [scaler_eq]
  simp only [bind, Except.bind]
  rw [he]
  exact ⟨e, rfl⟩

/-! ## What the two benchmarks provide -/

/-- **C79**: the four tasks are among those of both benchmarks, and the two point estimators among those of the benchmark, which has
samples of 5000 points. -/
theorem ids_present : (∀ t ∈ tasks, t.1 ∈ setupV2.tasks.map fun c => String.ofList (c.id cfgFormat)) ∧
    (∀ t ∈ tasks, t.1 ∈ GmmBenchmark.calls.map fun c => String.ofList (c.id cfgFormat)) ∧
    (∀ e ∈ pointEstimators, e.1 ∈ setupV2.estimators.map String.ofList) ∧ nSamples ∈ setupV2.ns := by
  have e : tasks.map Prod.fst = ["1v1-AI", "mult-sparse-w-inliers-5-5-2-2.0-0.2", "5v1-concentric_gaussians-5",
    "multinormal-sparse-5-5-2-2.0"] := rfl
  refine ⟨fun t ht => ?_, fun t ht => ?_, by decide +kernel, by decide +kernel⟩
  all_goals
    have h1 : t.1 ∈ tasks.map Prod.fst := List.mem_map_of_mem ht
    rw [e] at h1
    generalize t.1 = k at h1
    revert k
    decide +kernel

theorem filter_product_and {A B K : Type} [DecidableEq K] (key : A → K) {a : A} (q : B → Bool) : ∀ {l : List A}, a ∈ l → (l.map key).Nodup →
    ∀ m : List B, ((l ×ˢ m).filter fun c => decide (key c.1 = key a) && q c.2) = (m.filter q).map fun b => (a, b) := by
  intro l
  induction l with
  | nil => simp
  | cons c l ih =>
    intro ha hn m
    rw [List.map_cons, List.nodup_cons] at hn
    rw [List.product_cons, List.filter_append, List.filter_map]
    rcases List.mem_cons.1 ha with rfl | ha
    · have h1 : ((l ×ˢ m).filter fun c => decide (key c.1 = key a) && q c.2) = [] := by
        rw [List.filter_eq_nil_iff]
        rintro ⟨x, y⟩ hx h
        rw [List.mem_product] at hx
        rw [Bool.and_eq_true, decide_eq_true_eq] at h
        exact hn.1 (List.mem_map.2 ⟨x, hx.1, h.1⟩)
      rw [h1, List.append_nil]
      congr 1
      refine List.filter_congr fun b _ => ?_
      simp
    · have hne : key c ≠ key a := fun h => hn.1 (h ▸ List.mem_map_of_mem ha)
      rw [ih ha hn.2]
      simp [hne, Function.comp_def]

theorem filter_product {A B K : Type} [DecidableEq K] (key : A → K) {a : A} {l : List A} (ha : a ∈ l) (hn : (l.map key).Nodup) (m : List B) :
    ((l ×ˢ m).filter fun c => decide (key c.1 = key a)) = m.map fun b => (a, b) := by
  have := filter_product_and key (fun _ => true) ha hn m
  simpa using this

theorem forall2_filter {A B : Type} {R : A → B → Prop} {p : A → Bool} {q : B → Bool} (hpq : ∀ a b, R a b → p a = q b) {l : List A} {m : List B}
    (h : List.Forall₂ R l m) : List.Forall₂ R (l.filter p) (m.filter q) := by
  induction h with
  | nil => exact .nil
  | @cons a b l m hab _ ih =>
    rw [List.filter_cons, List.filter_cons, hpq a b hab]
    split
    · exact .cons hab ih
    · exact ih

/-- The benchmark of one mixture model has one row for each seed about each task. -/
theorem rows_of_task {C : Type} (cfg : GmmBenchmark.Config C P) (h : GmmBenchmark.Ready cfg) (h1 : cfg.estimators.length = 1) :
    ∃ rows, GmmBenchmark.results cfg = .ok rows ∧ ∀ t ∈ cfg.tasks,
      (rows.filter fun r => r.taskId = t.taskId).map (fun r => r.seed) = cfg.seeds ∧
      ∀ r ∈ rows, r.taskId = t.taskId → t.sampler.mi = .ok r.miTrue := by
  obtain ⟨rows, a, b⟩ := GmmBenchmark.results_spec cfg h
  refine ⟨rows, a, fun t ht => ⟨?_, fun r hr hid => ?_⟩⟩
  · obtain ⟨e, he⟩ := List.length_eq_one_iff.1 h1
    rw [he, List.product_cons, List.nil_product, List.append_nil, List.forall₂_map_left_iff] at b
    have c := forall2_filter (p := fun c => decide (c.1.taskId = t.taskId)) (q := fun r => decide (r.taskId = t.taskId))
      (fun x r hx => by rw [hx.ids.1]) b
    rw [filter_product Task.taskId ht h.task_nodup, List.forall₂_map_left_iff] at c
    rw [← GmmBenchmark.forall2_map_eq c (fun s => s) (fun r => r.seed) fun s r hx => hx.ids.2.2.symm, List.map_id']
  · obtain ⟨⟨e, t', s⟩, hc, hx⟩ := GmmBenchmark.forall2_right b r hr
    simp only [List.mem_product] at hc
    have : t' = t := List.inj_on_of_nodup_map h.task_nodup hc.2.1 ht (hx.ids.1.symm.trans hid)
    rw [← this]
    exact hx.true_mi

/-- The benchmark has one line for each seed about each estimator, task and number of points. -/
theorem lines_of_task {C : Type} (cfg : Workflow.Config ℝ (Fl ℝ) V C P) (h : Workflow.Ready cfg) (hns : cfg.ns.Nodup)
    (hsize : ∀ t ∈ cfg.tasks, ∀ n ∈ cfg.ns, ∀ s ∈ cfg.seeds, ∀ (m dx dy : ℕ) (x : Fin m → Fin dx → C)
      (y : Fin m → Fin dy → C), t.sampler.sample n s = .ok (.mat m dx x, .mat m dy y) → m = n) :
    ∃ lines, Workflow.results cfg = .ok lines ∧ ∀ t ∈ cfg.tasks,
      (∀ e ∈ cfg.estimators, ∀ n ∈ cfg.ns, (lines.filter fun l => l.result.taskId = t.taskId ∧ l.result.estimatorId = e.1 ∧
        l.result.nSamples = n).map (fun l => l.result.seed) = cfg.seeds.map some) ∧
      ∀ l ∈ lines, l.result.taskId = t.taskId → t.sampler.mi = .ok l.miTrue := by
  obtain ⟨lines, a, b⟩ := Workflow.results_spec cfg h
  have key : List.Forall₂ (fun (c : (String × Workflow.Est (Fl ℝ) V C) × Task ℝ C P × ℕ × ℤ) (l : Line ℝ (Fl ℝ) V P) =>
      (l.result.estimatorId = c.1.1 ∧ l.result.taskId = c.2.1.taskId ∧ l.result.nSamples = c.2.2.1 ∧ l.result.seed = some c.2.2.2) ∧
      c.2.1.sampler.mi = .ok l.miTrue) (Workflow.combinations cfg) lines := by
    refine GmmBenchmark.forall2_mem b ?_
    rintro ⟨e, t, n, s⟩ hc l hl
    simp only [Workflow.combinations, List.mem_product] at hc
    obtain ⟨he, ht, hn, hs⟩ := hc
    dsimp only at hl
    obtain ⟨m, dx, dy, x, y, _, hsam⟩ := h.sample t ht n hn s hs
    obtain ⟨file, r, _, hrep, _, hr⟩ := hl.run m dx dy x y hsam
    have hm := hsize t ht n hn s hs m dx dy x y hsam
    obtain ⟨i1, i2, i3, i4⟩ := hrep.ids
    rw [hr]
    exact ⟨⟨i1, i2, i4.trans hm, i3⟩, hl.true_mi⟩
  refine ⟨lines, a, fun t ht => ⟨fun e he n hn => ?_, fun l hl hid => ?_⟩⟩
  · have c := forall2_filter (p := fun c => decide (c.1.1 = e.1) && (decide (c.2.1.taskId = t.taskId) && decide (c.2.2.1 = n)))
      (q := fun l => decide (l.result.taskId = t.taskId ∧ l.result.estimatorId = e.1 ∧ l.result.nSamples = n))
      (fun x r hx => by
        rw [hx.1.1, hx.1.2.1, hx.1.2.2.1]
        simp only [Bool.decide_and]
        cases decide (x.1.1 = e.1) <;> cases decide (x.2.1.taskId = t.taskId) <;> rfl) key
    have f1 := filter_product_and Prod.fst (fun c : Task ℝ C P × ℕ × ℤ => decide (c.1.taskId = t.taskId) && decide (c.2.1 = n)) he h.est_nodup
      (cfg.tasks ×ˢ (cfg.ns ×ˢ cfg.seeds))
    have f2 := filter_product_and Task.taskId (fun c : ℕ × ℤ => decide (c.1 = n)) ht h.task_nodup (cfg.ns ×ˢ cfg.seeds)
    have f3 := filter_product id hn (by simpa using hns) cfg.seeds
    simp only [id] at f3
    rw [f3] at f2
    rw [f2] at f1
    rw [Workflow.combinations, f1, List.map_map, List.map_map, List.forall₂_map_left_iff] at c
    rw [← GmmBenchmark.forall2_map_eq c some (fun l => l.result.seed) fun s l hx => hx.1.2.2.2.symm]
  · obtain ⟨⟨e, t', n, s⟩, hc, hx⟩ := GmmBenchmark.forall2_right key l hl
    simp only [Workflow.combinations, List.mem_product] at hc
    have : t' = t := List.inj_on_of_nodup_map h.task_nodup hc.2.1 ht (hx.1.2.1.symm.trans hid)
    rw [← this]
    exact hx.2

/-- **C79** (partial, as before): the figure made from the results of two runs of the workflows which include the four tasks, the two
estimators and samples of 5000 points: the dotted line is at the mutual information that the task advertises, there is one bar for each
seed of the benchmark of the mixture model, and one dot of each estimator for each seed of the benchmark. -/
theorem benchmarks_figure_partial {C C' : Type} (cfg : Workflow.Config ℝ (Fl ℝ) V C P) (h : Workflow.Ready cfg) (hns : cfg.ns.Nodup)
    (hsize : ∀ t ∈ cfg.tasks, ∀ n ∈ cfg.ns, ∀ s ∈ cfg.seeds, ∀ (m dx dy : ℕ) (x : Fin m → Fin dx → C)
      (y : Fin m → Fin dy → C), t.sampler.sample n s = .ok (.mat m dx x, .mat m dy y) → m = n)
    (h5 : 5000 ∈ cfg.ns) (hseeds : cfg.seeds ≠ []) (hk : ∃ e ∈ cfg.estimators, e.1 = "KSG-10") (hi : ∃ e ∈ cfg.estimators, e.1 = "InfoNCE")
    (ht : ∀ t ∈ tasks, ∃ u ∈ cfg.tasks, u.taskId = t.1)
    (gmm : GmmBenchmark.Config C' Q) (g : GmmBenchmark.Ready gmm) (g1 : gmm.estimators.length = 1)
    (gt : ∀ t ∈ tasks, ∃ u ∈ gmm.tasks, u.taskId = t.1) :
    ∃ lines rows, Workflow.results cfg = .ok lines ∧ GmmBenchmark.results gmm = .ok rows ∧
      ((∀ r ∈ rows, r.summary.qLow ≤ r.summary.mean ∧ r.summary.mean ≤ r.summary.qHigh) →
        ∃ panels, figure lines rows = .ok (panels, [(1 / 6, "BMM"), (1 / 2, "KSG"), (5 / 6, "InfoNCE")]) ∧
          List.Forall₂ (fun t p => IsPanel lines rows t p ∧ (∀ u ∈ cfg.tasks, u.taskId = t.1 → ∀ v, u.sampler.mi = .ok (.num v) → p.line = .num v) ∧
            p.bars.length = gmm.seeds.length ∧ (∃ d, p.dots.get "KSG-10" = some d ∧ d.length = cfg.seeds.length) ∧
            ∃ d, p.dots.get "InfoNCE" = some d ∧ d.length = cfg.seeds.length) tasks panels) := by
  obtain ⟨lines, a, b⟩ := lines_of_task cfg h hns hsize
  obtain ⟨rows, c, d⟩ := rows_of_task gmm g g1
  refine ⟨lines, rows, a, c, fun hint => ?_⟩
  obtain ⟨eK, heK, hK⟩ := hk
  obtain ⟨eI, heI, hI⟩ := hi
  obtain ⟨panels, p1, p2⟩ := figure_spec_partial lines rows (fun t hts => by
    obtain ⟨u, hu, e⟩ := ht t hts
    have := (b u hu).1 eK heK 5000 h5
    obtain ⟨l, hl⟩ : ∃ l, l ∈ lines.filter fun l => l.result.taskId = u.taskId ∧ l.result.estimatorId = eK.1 ∧ l.result.nSamples = 5000 := by
      by_contra hno
      push Not at hno
      rw [List.eq_nil_iff_forall_not_mem.2 hno, List.map_nil, eq_comm, List.map_eq_nil_iff] at this
      exact hseeds this
    rw [List.mem_filter, decide_eq_true_eq] at hl
    exact ⟨l, hl.1, hl.2.1.trans e⟩) fun t _ r hr _ => hint r hr
  refine ⟨panels, p1, GmmBenchmark.forall2_mem p2 fun t hts p hp => ?_⟩
  obtain ⟨u, hu, e⟩ := ht t hts
  obtain ⟨w, hw, e'⟩ := gt t hts
  refine ⟨hp, fun u' hu' e'' v hv => hp.line v fun l hl hid => ?_, ?_, ?_, ?_⟩
  · have := (b u' hu').2 l hl (hid.trans e''.symm)
    rw [hv] at this
    exact (Except.ok.inj this).symm
  · rw [← hp.bars.length_eq]
    have := congrArg List.length (d w hw).1
    rwa [List.length_map, e'] at this
  · obtain ⟨dd, d1, -, d3⟩ := hp.ksg
    refine ⟨dd, d1, ?_⟩
    have x := congrArg List.length ((b u hu).1 eK heK 5000 h5)
    have y := congrArg List.length d3
    rw [List.length_map, List.length_map] at x y
    rw [y, ← x, e, hK]
  · obtain ⟨dd, d1, -, d3⟩ := hp.infonce
    refine ⟨dd, d1, ?_⟩
    have x := congrArg List.length ((b u hu).1 eI heI 5000 h5)
    have y := congrArg List.length d3
    rw [List.length_map, List.length_map] at x y
    rw [y, ← x, e, hI]

/-! ## Intervals that do not contain the mean -/

/-- The posterior with ten zeros and one 11. -/
noncomputable def skew : List (Fl EReal) := (List.replicate 10 (0 : ℝ) ++ [(11 : ℝ)]).map fun a : ℝ => .num (a : EReal)

open Classical in
theorem skew_summary : (GmmBenchmark.summary skew).qHigh < (GmmBenchmark.summary skew).mean := by
  have hf : skew.filterMap GmmBenchmark.finite = List.replicate 10 (0 : ℝ) ++ [11] := by
    unfold skew
    rw [List.filterMap_map]
    have : GmmBenchmark.finite ∘ (fun a : ℝ => (Fl.num (a : EReal))) = some := rfl
    rw [this, List.filterMap_some]
  obtain ⟨l, -, h1, -, -, -, h5⟩ := (GmmBenchmark.summary_spec skew).split
  have hp : l.Perm (List.replicate 10 (0 : ℝ) ++ [11]) := by
    rw [List.perm_iff_count]
    intro a
    rw [← hf, GmmBenchmark.filter_count]
    exact h1 a
  have hl : l.length = 11 := hp.length_eq
  obtain ⟨c0, -, -, -, -, -, c1, -⟩ := h5 (List.ne_nil_of_length_pos (by omega))
  have hc : ⌈9 * ((l.length : ℝ) - 1) / 10⌉₊ = 9 := by
    rw [hl, Nat.ceil_eq_iff (by norm_num)]
    norm_num
  rw [hp.sum_eq, hl] at c0
  have hm : (GmmBenchmark.summary skew).mean = 1 := by
    simp only [List.sum_append, List.sum_replicate, smul_zero, List.sum_singleton, zero_add] at c0
    push_cast at c0
    linarith
  rw [hm]
  by_contra hq
  rw [hc, hp.countP_eq, List.countP_append, List.countP_replicate, if_pos (by simp only [decide_eq_true_eq]; linarith)] at c1
  omega

/-- **C79**: the negation of the full claim. The summary that the benchmark of the mixture model makes of a skewed posterior has an
interval that does not contain the mean; whatever else the results are, the figure is not made. -/
theorem skewed (v2 : List (Line ℝ (Fl ℝ) V P)) (bmm : List (Row Q)) (h1 : ∀ t ∈ tasks, ∃ l ∈ v2, l.result.taskId = t.1) (r : Row Q) (hr : r ∈ bmm)
    (ht : ∃ t ∈ tasks, r.taskId = t.1) (hs : r.summary = GmmBenchmark.summary skew) : figure v2 bmm = .error .valueError := by
  obtain ⟨t, ht, e⟩ := ht
  refine figure_raises v2 bmm h1 ⟨t, ht, r, hr, e, .inr ?_⟩
  rw [hs]
  exact skew_summary

open Classical in
/-- **C79**: if all finite numbers of a posterior are the same, or there is none, the interval does contain the mean. -/
theorem constant_interval {p : List (Fl EReal)} {s : GmmBenchmark.Summary} (h : GmmBenchmark.IsSummary p s) (v : ℝ)
    (hv : ∀ a : ℝ, Fl.num (a : EReal) ∈ p → a = v) : s.qLow ≤ s.mean ∧ s.mean ≤ s.qHigh := by
  obtain ⟨l, -, h1, -, -, h4, h5⟩ := h.split
  by_cases hl : l = []
  · obtain ⟨a, b, c⟩ := h4 hl
    rw [a, b, c]
    exact ⟨le_rfl, le_rfl⟩
  have hpos : 0 < l.length := List.length_pos_of_ne_nil hl
  have hall : ∀ a ∈ l, a = v := by
    intro a ha
    have : 0 < l.count a := List.count_pos_iff.2 ha
    rw [h1, List.countP_pos_iff] at this
    obtain ⟨f, hf, e⟩ := this
    rw [decide_eq_true_eq] at e
    exact hv a (by rw [← e]; exact hf)
  obtain ⟨c0, -, -, -, c1, -, -, c2⟩ := h5 hl
  have hceil : ⌈((l.length : ℝ) - 1) / 10⌉₊ < l.length := by
    have : ⌈((l.length : ℝ) - 1) / 10⌉₊ ≤ l.length - 1 := by
      rw [Nat.ceil_le, Nat.cast_sub hpos, Nat.cast_one]
      have : (1 : ℝ) ≤ l.length := by exact_mod_cast hpos
      linarith
    omega
  have hrep : l = List.replicate l.length v := List.eq_replicate_iff.2 ⟨rfl, hall⟩
  have hm : s.mean = v := by
    have h6 : l.sum = l.length * v := by
      conv_lhs => rw [hrep]
      rw [List.sum_replicate, nsmul_eq_mul]
    rw [h6, mul_comm] at c0
    exact mul_left_cancel₀ (by exact_mod_cast hpos.ne') c0
  rw [hm]
  constructor
  · by_contra hq
    have : l.countP (fun a => decide (a < s.qLow)) = l.length :=
      List.countP_eq_length.2 fun a ha => by rw [hall a ha, decide_eq_true_eq]; exact not_le.1 hq
    omega
  · by_contra hq
    have : l.countP (fun a => decide (s.qHigh < a)) = l.length :=
      List.countP_eq_length.2 fun a ha => by rw [hall a ha, decide_eq_true_eq]; exact not_le.1 hq
    omega

/-! ## The axes -/

open BMI.Samplers BMI.Student in
/-- **C79**: the dotted line of the last panel is inside of its axis: the mutual information is `2 log (5 / 3)`. -/
theorem normal_on_axis {Key : Type} [MeasurableSpace Key] (R : JaxRandom Key) (κ : MeasureTheory.Measure Key) (hR : IdealRandom R κ) :
    ∃ s lo hi, taskMultinormalSparse R 5 5 2 2 = .ok s ∧ s.mi = 2 * Real.log (5 / 3) ∧
      tasks.get "multinormal-sparse-5-5-2-2.0" = some (lo, hi) ∧ lo < s.mi ∧ s.mi < hi := by
  obtain ⟨s, h1, -, h3⟩ := taskMultinormalSparse_correct R κ hR 5 5 2 (by norm_num) (by norm_num) (by norm_num) (by norm_num) 2
  have h4 : s.mi = 2 * Real.log (5 / 3) := by
    rw [h3]
    have : (1 : ℝ) - (2 ^ 2 / (1 + 2 ^ 2)) ^ 2 = ((5 / 3) ^ 2)⁻¹ := by norm_num
    rw [this, Real.log_inv, Real.log_pow]
    push_cast
    ring
  refine ⟨s, 0.65, 1.15, h1, h4, rfl, ?_, ?_⟩
  · rw [h4]
    have : (0.4 : ℝ) ≤ Real.log (5 / 3) := by
      have := Real.one_sub_inv_le_log_of_pos (x := 5 / 3) (by norm_num)
      norm_num at this ⊢
      linarith
    linarith
  · rw [h4]
    have e : Real.log (5 / 3) ≤ Real.log (1.137 ^ 4) := Real.log_le_log (by norm_num) (by norm_num)
    rw [Real.log_pow] at e
    have h6 := Real.log_le_sub_one_of_pos (show (0 : ℝ) < 1.137 by norm_num)
    push_cast at e
    linarith

/-! ### Examples -/

/-- Five dots of three estimators with margin 0.12. -/
example : ∃ ys, scaler.getY "KSG-10" 5 = .ok ys ∧ ys.length = 5 ∧ InStrip 3 1 (3 / 25) ys := scaler_getY 1 5

/-- A task with the given identifier. -/
noncomputable def exampleTask (k : String) : Task ℝ ℤ ℕ :=
  ⟨⟨.ok 1, .ok 1, .ok (.num 3), fun n s => .ok (.mat n 1 fun i _ => (i : ℤ) + s, .mat n 1 fun i _ => (i : ℤ))⟩, k, "T", none⟩

/-- The benchmark with the four tasks, two estimators and two seeds. -/
noncomputable def exampleV2 : Workflow.Config ℝ (Fl ℝ) String ℤ ℕ where
  estimators := [("KSG-10", ⟨false, fun _ => .exc "" none, fun x _ => .ret ⟨.num x.length, none, []⟩⟩),
    ("InfoNCE", ⟨false, fun _ => .exc "" none, fun _ _ => .ret ⟨.nan, none, []⟩⟩)]
  tasks := (tasks.map Prod.fst).map exampleTask
  ns := [1000, 5000]
  seeds := [0, 7]
  nan := .nan
  str := id
  csv := id
  yaml := .ok
  measured := fun _ => .num 0

/-- The benchmark of the mixture model with the four tasks; half of each posterior is infinite. -/
noncomputable def exampleBmm : GmmBenchmark.Config ℤ ℕ where
  estimators := [("GMM", fun _ _ => .ok [.num ((1 : ℝ) : EReal), .num ⊤])]
  tasks := (tasks.map Prod.fst).map exampleTask
  nSamples := 5000
  seeds := [0, 1, 2]
  csv := id

theorem exampleTask_id (k : String) : (exampleTask k).id = .ok (exampleTask k).taskId :=
  (Task.id_ok_iff _).2 ⟨⟨1, rfl⟩, ⟨1, rfl⟩, 3, rfl, by norm_num⟩

theorem exampleTask_nodup : (((tasks.map Prod.fst).map exampleTask).map Task.taskId).Nodup := by
  have : ((tasks.map Prod.fst).map exampleTask).map Task.taskId = ["1v1-AI", "mult-sparse-w-inliers-5-5-2-2.0-0.2",
    "5v1-concentric_gaussians-5", "multinormal-sparse-5-5-2-2.0"] := rfl
  rw [this]
  decide

theorem exampleTask_name : ∀ t ∈ (tasks.map Prod.fst).map exampleTask,
    t.taskId.toList ≠ [] ∧ '\n' ∉ t.taskId.toList ∧ '/' ∉ t.taskId.toList := by
  intro t ht
  obtain ⟨k, hk, rfl⟩ := List.mem_map.1 ht
  have h1 : k ∈ ["1v1-AI", "mult-sparse-w-inliers-5-5-2-2.0-0.2", "5v1-concentric_gaussians-5", "multinormal-sparse-5-5-2-2.0"] := hk
  change k.toList ≠ [] ∧ '\n' ∉ k.toList ∧ '/' ∉ k.toList
  clear hk ht
  revert k
  decide +kernel

theorem exampleV2_ready : Workflow.Ready exampleV2 where
  est_nodup := by simp [exampleV2]
  est_name := by
    intro e he
    have h1 : e.1 ∈ ["KSG-10", "InfoNCE"] := List.mem_map_of_mem (f := Prod.fst) he
    generalize e.1 = k at h1
    revert k
    decide
  est_alive := by simp [exampleV2]
  task_nodup := exampleTask_nodup
  task_name := exampleTask_name
  task_id := by
    intro t ht
    obtain ⟨k, -, rfl⟩ := List.mem_map.1 ht
    exact exampleTask_id k
  seeds := by simp [exampleV2]
  sample := by
    intro t ht n hn s hs
    obtain ⟨k, -, rfl⟩ := List.mem_map.1 ht
    exact ⟨n, 1, 1, _, _, by omega, rfl⟩
  yaml := fun d => ⟨d, rfl⟩

theorem exampleBmm_ready : GmmBenchmark.Ready exampleBmm where
  est_nodup := by simp [exampleBmm]
  est_name := by
    intro e he
    simp only [exampleBmm, List.mem_singleton] at he
    subst he
    dsimp only
    decide
  task_nodup := exampleTask_nodup
  task_name := exampleTask_name
  task_id := by
    intro t ht
    obtain ⟨k, -, rfl⟩ := List.mem_map.1 ht
    exact exampleTask_id k
  seeds := by simp [exampleBmm]
  sample := by
    intro t ht s hs
    obtain ⟨k, -, rfl⟩ := List.mem_map.1 ht
    exact ⟨_, 1, 1, _, _, by omega, rfl⟩
  posterior := by
    intro e he x y
    simp only [exampleBmm, List.mem_singleton] at he
    subst he
    exact ⟨_, rfl⟩

/-- Both benchmarks run, and the figure has four panels with the line at 3. -/
example : ∃ lines rows panels ticks, Workflow.results exampleV2 = .ok lines ∧ GmmBenchmark.results exampleBmm = .ok rows ∧
    figure lines rows = .ok (panels, ticks) ∧ panels.length = 4 ∧ ∀ p ∈ panels, p.line = .num 3 ∧ p.bars.length = 3 := by
  have ht : ∀ t ∈ tasks, ∃ u ∈ (tasks.map Prod.fst).map exampleTask, u.taskId = t.1 := fun t ht =>
    ⟨exampleTask t.1, List.mem_map_of_mem (List.mem_map_of_mem ht), rfl⟩
  obtain ⟨lines, rows, h1, h2, h3⟩ := benchmarks_figure_partial exampleV2 exampleV2_ready (by simp [exampleV2]) (by
      intro t ht n hn s hs m dx dy x y h
      obtain ⟨k, -, rfl⟩ := List.mem_map.1 ht
      simp only [exampleTask, Except.ok.injEq, Prod.mk.injEq, SampleIO.NdArr.mat.injEq] at h
      exact h.1.1.symm) (by simp [exampleV2]) (by simp [exampleV2]) ⟨_, List.mem_cons_self, rfl⟩ ⟨_, List.mem_cons_of_mem _ List.mem_cons_self, rfl⟩ ht
    exampleBmm exampleBmm_ready rfl ht
  obtain ⟨rows', g1, g2⟩ := GmmBenchmark.results_spec exampleBmm exampleBmm_ready
  have e : rows' = rows := Except.ok.inj (g1.symm.trans h2)
  obtain ⟨panels, p1, p2⟩ := h3 (by
    intro r hr
    obtain ⟨⟨e, t, s⟩, hc, hx⟩ := GmmBenchmark.forall2_right g2 r (e ▸ hr)
    obtain ⟨m, dx, dy, x, y, p, -, hp, hs⟩ := hx.run
    simp only [List.mem_product] at hc
    obtain ⟨rfl⟩ := List.mem_singleton.1 hc.1
    have hp' := Except.ok.inj hp
    refine constant_interval hs 1 fun a ha => ?_
    rw [← hp'] at ha
    simpa using ha)
  refine ⟨lines, rows, panels, _, h1, h2, p1, p2.length_eq.symm, fun p hp => ?_⟩
  obtain ⟨t, htt, -, q1, q2, -⟩ := GmmBenchmark.forall2_right p2 p hp
  obtain ⟨u, hu, e⟩ := ht t htt
  obtain ⟨k, -, rfl⟩ := List.mem_map.1 hu
  exact ⟨q1 _ hu e 3 rfl, q2⟩

/-- One skewed posterior is enough for no figure at all. -/
example : figure (V := String) (P := ℕ) (Q := ℕ)
    (tasks.map fun t => { miTrue := .num 1, taskName := "", taskParams := [], result := ⟨.num 1, .num 1, true, "KSG-10", t.1, 5000, none, []⟩ })
    [⟨.num 1, "1v1-AI", "GMM", 0, "", [], GmmBenchmark.summary skew⟩] = .error .valueError :=
  skewed _ _ (fun t ht => ⟨_, List.mem_map_of_mem ht, rfl⟩) _ (List.mem_singleton_self _) ⟨_, List.mem_cons_self, rfl⟩ rfl

end BMI.CompareFigure
