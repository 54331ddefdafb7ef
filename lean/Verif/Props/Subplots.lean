import Verif.Model.Subplots
import Mathlib.Tactic.Linarith
import Mathlib.Tactic.Ring
import Mathlib.Tactic.NormNum
import Mathlib.Algebra.BigOperators.Group.List.Basic
import Mathlib.Algebra.Order.BigOperators.Group.List

/-! C49: what `subplots_from_axsize` draws. -/

namespace BMI.Subplots

/-- The list of lengths handed to the divider. -/
def lens (start : ℝ) (axs : List ℝ) (stop : ℝ) (spaces : List ℝ) (l : ℝ) : List ℝ :=
  [start] ++ ((axs.zip spaces).flatMap fun p => [p.1, p.2]) ++ [l, stop]

theorem lens_spec (spaces : List ℝ) : ∀ (start : ℝ) (axs : List ℝ) (stop l : ℝ),
    axs.length = spaces.length + 1 → axs.getLast? = some l →
    (lens start axs stop spaces l).length = 2 * axs.length + 1 ∧
    (lens start axs stop spaces l).sum = start + axs.sum + spaces.sum + stop ∧
    ∀ c, c < axs.length → (lens start axs stop spaces l)[2 * c + 1]? = axs[c]? ∧
      ((lens start axs stop spaces l).take (2 * c + 1)).sum = start + (axs.take c).sum + (spaces.take c).sum := by
  induction spaces with
  | nil =>
    intro start axs stop l h1 h2
    obtain ⟨a, rfl⟩ := List.length_eq_one_iff.1 h1
    simp only [List.getLast?_singleton, Option.some.injEq] at h2
    subst h2
    refine ⟨by simp [lens], by simp [lens]; ring, fun c hc => ?_⟩
    have : c = 0 := by simpa using hc
    subst this
    exact ⟨by simp [lens], by simp [lens]⟩
  | cons s spaces ih =>
    intro start axs stop l h1 h2
    cases axs with
    | nil => simp at h1
    | cons a axs =>
      have h1' : axs.length = spaces.length + 1 := by simpa using h1
      have hne : axs ≠ [] := by intro h; simp [h] at h1'
      have h2' : axs.getLast? = some l := by
        rw [← h2]
        cases axs with
        | nil => exact absurd rfl hne
        | cons b bs => rw [List.getLast?_cons_cons]
      have hrec : lens start (a :: axs) stop (s :: spaces) l = start :: a :: lens s axs stop spaces l := by
        simp [lens]
      obtain ⟨i1, i2, i3⟩ := ih s axs stop l h1' h2'
      rw [hrec]
      refine ⟨by simp [i1]; ring, by simp only [List.sum_cons, i2]; ring, fun c hc => ?_⟩
      cases c with
      | zero => simp
      | succ c =>
        obtain ⟨j1, j2⟩ := i3 c (by simpa using hc)
        refine ⟨?_, ?_⟩
        · rw [show 2 * (c + 1) + 1 = (2 * c + 1) + 1 + 1 by ring, List.getElem?_cons_succ, List.getElem?_cons_succ,
            List.getElem?_cons_succ, j1]
        · rw [show 2 * (c + 1) + 1 = (2 * c + 1) + 1 + 1 by ring, List.take_succ_cons, List.take_succ_cons,
            List.take_succ_cons, List.take_succ_cons]
          simp only [List.sum_cons, j2]
          ring

theorem makeSizes_ok (start : ℝ) (axs : List ℝ) (stop : ℝ) (spaces : List ℝ) (h : axs.length = spaces.length + 1) :
    ∃ l, axs.getLast? = some l ∧
      makeSizes start axs stop spaces = .ok (lens start axs stop spaces l, start + axs.sum + spaces.sum + stop) := by
  cases hl : axs.getLast? with
  | none => rw [List.getLast?_eq_none_iff] at hl; simp [hl] at h
  | some l =>
    refine ⟨l, rfl, ?_⟩
    unfold makeSizes
    rw [if_pos (by rw [h]; push_cast; ring), hl]
    simp only
    rw [← (lens_spec spaces start axs stop l h hl).2.1]
    rfl

/-- The lengths an argument stands for, given how many are needed. -/
def SizeArg.expand (a : SizeArg) (n : ℕ) : List ℝ :=
  match a with
  | .one s => List.replicate n s
  | .many l => l

/-- The argument fits the number. -/
def SizeArg.Fits (a : SizeArg) (n : ℕ) : Prop :=
  match a with
  | .one _ => True
  | .many l => l.length = n

theorem SizeArg.expand_length {a : SizeArg} {n : ℕ} (h : a.Fits n) : (a.expand n).length = n := by
  cases a with
  | one s => exact List.length_replicate
  | many l => exact h

/-- A count argument that stands for `n`: given explicitly, or left out and read off the sizes. -/
def Count (a : SizeArg) (c : Option ℤ) (n : ℕ) : Prop :=
  c = some (n : ℤ) ∨ c = none ∧ match a with
    | .one _ => n = 1
    | .many l => n = l.length

theorem normalize_ok {a : SizeArg} {c : Option ℤ} {n : ℕ} (h : a.Fits n) (hc : Count a c n) :
    normalize a c = .ok (a.expand n, (n : ℤ)) := by
  cases a with
  | one s =>
    have : c.getD 1 = (n : ℤ) := by
      rcases hc with rfl | ⟨rfl, hn⟩
      · rfl
      · simp only at hn; simp [hn]
    simp only [normalize, this, SizeArg.expand, Int.toNat_natCast, List.map_const', List.length_range]
  | many l =>
    have hl : l.length = n := h
    rcases hc with rfl | ⟨rfl, -⟩
    · simp [normalize, hl, SizeArg.expand]
    · simp [normalize, hl, SizeArg.expand]

/-- Where the axes in row `r` (from the top) and column `c` (from the left) must be. -/
def Placed (axx axy : List ℝ) (top bottom left : ℝ) (hs ws : List ℝ) (r c : ℕ) (R : Rect) : Prop :=
  some R.width = axx[c]? ∧ some R.height = axy[r]? ∧
  R.x0 = left + (axx.take c).sum + (ws.take c).sum ∧
  (top + axy.sum + hs.sum + bottom) - (R.y0 + R.height) = top + (axy.take r).sum + (hs.take r).sum

theorem locate_ok {axx axy hs ws : List ℝ} {top bottom left right lx ly : ℝ} (hx : axx.length = ws.length + 1)
    (hy : axy.length = hs.length + 1) (hlx : axx.getLast? = some lx) (hly : axy.getLast? = some ly) {r c : ℕ}
    (hr : r < axy.length) (hc : c < axx.length) :
    ∃ R, locate (lens left axx right ws lx) (lens top axy bottom hs ly).reverse (2 * c + 1)
        (2 * (axy.length - 1 - r) + 1) = .ok R ∧ Placed axx axy top bottom left hs ws r c R := by
  obtain ⟨-, -, wx⟩ := lens_spec ws left axx right lx hx hlx
  obtain ⟨hl, hsum, wy⟩ := lens_spec hs top axy bottom ly hy hly
  set L := lens top axy bottom hs ly with hL
  obtain ⟨x1, x2⟩ := wx c hc
  obtain ⟨y1, y2⟩ := wy r hr
  have hidx : L.reverse[2 * (axy.length - 1 - r) + 1]? = axy[r]? := by
    rw [List.getElem?_reverse (by rw [hl]; omega), ← y1, hl]
    congr 1
    omega
  rw [List.getElem?_eq_getElem hc] at x1
  rw [List.getElem?_eq_getElem hr] at hidx y1
  refine ⟨⟨_, _, _, _⟩, by unfold locate; rw [x1, hidx], ?_⟩
  refine ⟨by simp [hc], by simp [hr], x2, ?_⟩
  have hsplit : L.sum = (L.take (2 * r + 1)).sum + axy[r] + (L.drop (2 * r + 2)).sum := by
    have h2 : 2 * r + 1 < L.length := by rw [hl]; omega
    conv_lhs => rw [← List.take_append_drop (2 * r + 2) L, List.take_succ_eq_append_getElem h2]
    rw [List.getElem?_eq_getElem h2, Option.some.injEq] at y1
    rw [List.sum_append, List.sum_append, List.sum_singleton, y1]
  have htake : (L.reverse.take (2 * (axy.length - 1 - r) + 1)).sum = (L.drop (2 * r + 2)).sum := by
    rw [List.take_reverse, List.sum_reverse, hl]
    congr 2
    omega
  simp only [htake]
  rw [← hsum, hsplit, y2]
  ring

theorem mapM_ok {α β : Type} {f : α → Except Err β} {g : α → β} (l : List α) (h : ∀ a ∈ l, f a = .ok (g a)) :
    l.mapM f = .ok (l.map g) := by
  induction l with
  | nil => rfl
  | cons a l ih =>
    rw [List.mapM_cons, h a (by simp), ih fun b hb => h b (by simp [hb])]
    rfl

/-- C49: for every number of rows and columns, all sizes and spaces, and both ways of giving them: the size of the
figure is the sum of the margins, sizes and spaces, and the axes in row `r`, column `c` have exactly the requested
width and height at exactly the requested distance from the left and the top. -/
theorem subplots_spec (axx axy hspace wspace : SizeArg) (nrows ncols : Option ℤ) (m n : ℕ) (hm : 1 ≤ m) (hn : 1 ≤ n)
    (top bottom left right : ℝ) (squeeze : Bool) (h1 : axx.Fits n) (h2 : axy.Fits m) (h3 : hspace.Fits (m - 1))
    (h4 : wspace.Fits (n - 1)) (hc : Count axx ncols n) (hr : Count axy nrows m) :
    ∃ G : ℕ → ℕ → Rect,
      subplots axx axy nrows ncols top bottom left right hspace wspace squeeze =
        .ok ((left + (axx.expand n).sum + (wspace.expand (n - 1)).sum + right,
            top + (axy.expand m).sum + (hspace.expand (m - 1)).sum + bottom),
          pack ((List.range m).map fun r => (List.range n).map (G r)) m n squeeze) ∧
      ∀ r < m, ∀ c < n, Placed (axx.expand n) (axy.expand m) top bottom left (hspace.expand (m - 1))
        (wspace.expand (n - 1)) r c (G r c) := by
  have e1 := SizeArg.expand_length h1
  have e2 := SizeArg.expand_length h2
  have e3 := SizeArg.expand_length h3
  have e4 := SizeArg.expand_length h4
  obtain ⟨lx, hlx, hw⟩ := makeSizes_ok left (axx.expand n) right (wspace.expand (n - 1)) (by omega)
  obtain ⟨ly, hly, hh⟩ := makeSizes_ok top (axy.expand m) bottom (hspace.expand (m - 1)) (by omega)
  have hloc : ∀ r c, ∃ R, r < m → c < n → locate (lens left (axx.expand n) right (wspace.expand (n - 1)) lx)
      (lens top (axy.expand m) bottom (hspace.expand (m - 1)) ly).reverse (2 * c + 1) (2 * (m - 1 - r) + 1) = .ok R ∧
      Placed (axx.expand n) (axy.expand m) top bottom left (hspace.expand (m - 1)) (wspace.expand (n - 1)) r c R := by
    intro r c
    by_cases h : r < m ∧ c < n
    · obtain ⟨R, hR⟩ := locate_ok (top := top) (bottom := bottom) (left := left) (right := right)
        (axx := axx.expand n) (axy := axy.expand m) (hs := hspace.expand (m - 1)) (ws := wspace.expand (n - 1))
        (by omega) (by omega) hlx hly (r := r) (c := c) (by omega) (by omega)
      rw [e2] at hR
      exact ⟨R, fun _ _ => hR⟩
    · exact ⟨⟨0, 0, 0, 0⟩, fun a b => absurd ⟨a, b⟩ h⟩
  choose G hG using hloc
  refine ⟨G, ?_, fun r hr' c hc' => (hG r c hr' hc').2⟩
  have hm1 : (m : ℤ) - 1 = ((m - 1 : ℕ) : ℤ) := by omega
  have hn1 : (n : ℤ) - 1 = ((n - 1 : ℕ) : ℤ) := by omega
  have hgrid : ((List.range m).reverse).mapM (fun row => (List.range n).mapM fun col =>
      locate (lens left (axx.expand n) right (wspace.expand (n - 1)) lx)
        (lens top (axy.expand m) bottom (hspace.expand (m - 1)) ly).reverse (2 * col + 1) (2 * row + 1)) =
      .ok ((List.range m).map fun r => (List.range n).map (G r)) := by
    rw [mapM_ok (g := fun row => (List.range n).map (G (m - 1 - row)))]
    · congr 1
      refine List.ext_getElem (by simp) fun i hi hi' => ?_
      simp only [List.length_map, List.length_reverse, List.length_range] at hi hi'
      simp only [List.getElem_map, List.getElem_reverse, List.length_range, List.getElem_range]
      rw [show m - 1 - (m - 1 - i) = i by omega]
    · intro row hrow
      have hrow' : row < m := by simpa using hrow
      refine mapM_ok _ fun col hcol => ?_
      have hcol' : col < n := by simpa using hcol
      have := (hG (m - 1 - row) col (by omega) hcol').1
      rwa [show m - 1 - (m - 1 - row) = row by omega] at this
  unfold subplots
  simp only [normalize_ok h1 hc, normalize_ok h2 hr, bind, Except.bind, hm1, hn1, normalize_ok h3 (.inl rfl),
    normalize_ok h4 (.inl rfl), hw, hh, Int.toNat_natCast, hgrid]

/-- With positive sizes and non-negative spaces and margins the axes lie inside the figure and do not overlap. -/
theorem placed_inside {axx axy hs ws : List ℝ} {top bottom left : ℝ} (right : ℝ) {r c : ℕ} {R : Rect}
    (h : Placed axx axy top bottom left hs ws r c R) (hx : ∀ v ∈ axx, 0 < v) (hy : ∀ v ∈ axy, 0 < v)
    (hhs : ∀ v ∈ hs, 0 ≤ v) (hws : ∀ v ∈ ws, 0 ≤ v) (hmar : 0 ≤ top ∧ 0 ≤ bottom ∧ 0 ≤ left ∧ 0 ≤ right) :
    0 < R.width ∧ 0 < R.height ∧ 0 ≤ R.x0 ∧ R.x0 + R.width ≤ left + axx.sum + ws.sum + right ∧ 0 ≤ R.y0 ∧
      R.y0 + R.height ≤ top + axy.sum + hs.sum + bottom := by
  obtain ⟨p1, p2, p3, p4⟩ := h
  obtain ⟨hc, hw⟩ := List.getElem?_eq_some_iff.1 p1.symm
  obtain ⟨hr, hh⟩ := List.getElem?_eq_some_iff.1 p2.symm
  have key : ∀ (l : List ℝ) (i : ℕ), (∀ v ∈ l, 0 ≤ v) → 0 ≤ (l.take i).sum ∧ (l.take i).sum ≤ l.sum := by
    intro l i hl
    refine ⟨List.sum_nonneg fun v hv => hl v (List.mem_of_mem_take hv), ?_⟩
    conv_rhs => rw [← List.take_append_drop i l, List.sum_append]
    linarith [List.sum_nonneg (l := l.drop i) fun v hv => hl v (List.mem_of_mem_drop hv)]
  have s1 := key axx (c + 1) fun v hv => (hx v hv).le
  have s1' := key axx c fun v hv => (hx v hv).le
  have s2 := key axy (r + 1) fun v hv => (hy v hv).le
  have s2' := key axy r fun v hv => (hy v hv).le
  have s3 := key hs r hhs
  have s4 := key ws c hws
  rw [List.take_succ_eq_append_getElem hc, List.sum_append, List.sum_singleton, hw] at s1
  rw [List.take_succ_eq_append_getElem hr, List.sum_append, List.sum_singleton, hh] at s2
  refine ⟨?_, ?_, ?_, ?_, ?_, ?_⟩
  · rw [← hw]; exact hx _ (List.getElem_mem _)
  · rw [← hh]; exact hy _ (List.getElem_mem _)
  · rw [p3]; linarith
  · rw [p3]; linarith
  · linarith
  · linarith

/-- Axes in different rows or columns do not overlap. -/
theorem placed_disjoint {axx axy hs ws : List ℝ} {top bottom left : ℝ} {r c r' c' : ℕ} {R R' : Rect}
    (h : Placed axx axy top bottom left hs ws r c R) (h' : Placed axx axy top bottom left hs ws r' c' R')
    (hx : ∀ v ∈ axx, 0 < v) (hy : ∀ v ∈ axy, 0 < v) (hhs : ∀ v ∈ hs, 0 ≤ v) (hws : ∀ v ∈ ws, 0 ≤ v) :
    (c < c' → R.x0 + R.width ≤ R'.x0) ∧ (r < r' → R'.y0 + R'.height ≤ R.y0) := by
  obtain ⟨p1, p2, p3, p4⟩ := h
  obtain ⟨-, -, q3, q4⟩ := h'
  obtain ⟨hc, hw⟩ := List.getElem?_eq_some_iff.1 p1.symm
  obtain ⟨hr, hh⟩ := List.getElem?_eq_some_iff.1 p2.symm
  have key : ∀ (l : List ℝ) (i j : ℕ), i ≤ j → (∀ v ∈ l, 0 ≤ v) → (l.take i).sum ≤ (l.take j).sum := by
    intro l i j hij hl
    have : l.take i = (l.take j).take i := by rw [List.take_take, min_eq_left hij]
    rw [this]
    conv_rhs => rw [← List.take_append_drop i (l.take j), List.sum_append]
    linarith [List.sum_nonneg (l := (l.take j).drop i) fun v hv =>
      hl v (List.mem_of_mem_take (List.mem_of_mem_drop hv))]
  refine ⟨fun hlt => ?_, fun hlt => ?_⟩
  · have s1 := key axx (c + 1) c' hlt fun v hv => (hx v hv).le
    have s2 := key ws c c' hlt.le hws
    rw [List.take_succ_eq_append_getElem hc, List.sum_append, List.sum_singleton, hw] at s1
    rw [p3, q3]; linarith
  · have s1 := key axy (r + 1) r' hlt fun v hv => (hy v hv).le
    have s2 := key hs r r' hlt.le hhs
    rw [List.take_succ_eq_append_getElem hr, List.sum_append, List.sum_singleton, hh] at s1
    linarith

/-- Lists of sizes that do not match the given numbers are refused. -/
theorem subplots_refuses (l : List ℝ) (axy hspace wspace : SizeArg) (nrows : Option ℤ) (k : ℤ) (hk : k ≠ l.length)
    (top bottom left right : ℝ) (squeeze : Bool) :
    subplots (.many l) axy nrows (some k) top bottom left right hspace wspace squeeze = .error .assertionError := by
  simp only [subplots, normalize, if_neg hk, bind, Except.bind]

/-- A number of rows or columns below one is refused. -/
theorem subplots_refuses_empty (s : ℝ) (t hv wv : ℝ) (nrows ncols : ℤ) (hk : ncols ≤ 0 ∨ nrows ≤ 0)
    (top bottom left right : ℝ) (squeeze : Bool) :
    subplots (.one s) (.one t) (some nrows) (some ncols) top bottom left right (.one hv) (.one wv) squeeze =
      .error .assertionError := by
  have hbad : ∀ (start stop v w : ℝ) (k : ℤ), k ≤ 0 → makeSizes start ((List.range k.toNat).map fun _ => v) stop
      ((List.range (k - 1).toNat).map fun _ => w) = .error .assertionError := by
    intro start stop v w k hk
    unfold makeSizes
    rw [if_neg]
    have h1 : k.toNat = 0 := by omega
    have h2 : (k - 1).toNat = 0 := by omega
    simp [h1, h2]
  simp only [subplots, normalize, bind, Except.bind, Option.getD_some]
  by_cases h : ncols ≤ 0
  · rw [hbad _ _ _ _ _ h]
  · obtain ⟨l, -, hw⟩ := makeSizes_ok left ((List.range ncols.toNat).map fun _ => s) right
      ((List.range (ncols - 1).toNat).map fun _ => wv) (by simp; omega)
    rw [hw]
    simp only
    rw [hbad _ _ _ _ _ (hk.resolve_left h)]

/-- What is returned: with `squeeze` a plain object for one axes, a vector for one row or column, otherwise an
array. -/
theorem pack_spec (G : ℕ → ℕ → Rect) (m n : ℕ) (hm : 1 ≤ m) (hn : 1 ≤ n) (squeeze : Bool) :
    pack ((List.range m).map fun r => (List.range n).map (G r)) m n squeeze =
      if m = 1 ∧ n = 1 then .single (G 0 0)
      else if squeeze = true ∧ m = 1 then .row ((List.range n).map (G 0))
      else if squeeze = true ∧ n = 1 then .row ((List.range m).map fun r => G r 0)
      else .grid ((List.range m).map fun r => (List.range n).map (G r)) := by
  set g := (List.range m).map fun r => (List.range n).map (G r) with hg
  have hlen : g.flatten.length = m * n := by
    rw [List.length_flatten, hg, List.map_map]
    have : (List.length ∘ fun r => (List.range n).map (G r)) = fun _ => n := by funext r; simp
    rw [this, List.map_const', List.sum_replicate, List.length_range, smul_eq_mul]
  have hcol : n = 1 → g.flatten = (List.range m).map fun r => G r 0 := by
    rintro rfl
    rw [hg]
    simp [List.flatten_eq_flatMap, List.flatMap_map, ← List.map_eq_flatMap]
  have hrow : m = 1 → g.flatten = (List.range n).map (G 0) := by rintro rfl; rw [hg]; simp
  have hnot : ∀ r, g.flatten = [r] → m = 1 ∧ n = 1 := by
    intro r hr
    rw [hr, List.length_singleton] at hlen
    exact ⟨Nat.eq_one_of_mul_eq_one_right hlen.symm, Nat.eq_one_of_mul_eq_one_left hlen.symm⟩
  by_cases h11 : m = 1 ∧ n = 1
  · rw [if_pos h11]
    unfold pack
    rw [hrow h11.1, h11.2]
    rfl
  · rw [if_neg h11]
    have : pack g m n squeeze = if squeeze && (m == 1 || n == 1) then .row g.flatten else .grid g := by
      unfold pack
      split
      · next r hr => exact absurd (hnot r hr) h11
      · rfl
    rw [this]
    cases squeeze
    · simp
    · by_cases h1 : m = 1
      · simp [h1, hrow h1]
      · by_cases h2 : n = 1
        · simp [h1, h2, hcol h2]
        · simp [h1, h2]

/-- Unlike `plt.subplots`, `squeeze=False` does not give an array for a single axes object. -/
theorem single_ignores_squeeze (G : ℕ → ℕ → Rect) :
    pack ((List.range 1).map fun r => (List.range 1).map (G r)) 1 1 false = .single (G 0 0) := by
  rw [pack_spec G 1 1 le_rfl le_rfl]
  simp

/-! ### The hypotheses can be met -/

example : ∃ G : ℕ → ℕ → Rect,
    subplots (.one 3) (.many [2, 1]) none none 0.1 0.5 0.5 0.1 (.one 0.5) (.one 0.5) true =
      .ok ((0.5 + 3 + 0 + 0.1, 0.1 + 3 + 0.5 + 0.5), pack [[G 0 0], [G 1 0]] 2 1 true) ∧
    (G 1 0).height = 1 ∧ (G 1 0).y0 = 0.5 := by
  obtain ⟨G, h1, h2⟩ := subplots_spec (.one 3) (.many [2, 1]) (.one 0.5) (.one 0.5) none none 2 1 (by norm_num)
    (by norm_num) 0.1 0.5 0.5 0.1 true trivial rfl trivial trivial (.inr ⟨rfl, rfl⟩) (.inr ⟨rfl, rfl⟩)
  refine ⟨G, ?_, ?_⟩
  · rw [h1]
    simp [SizeArg.expand, List.range_succ]
    norm_num
  · obtain ⟨-, p2, -, p4⟩ := h2 1 (by norm_num) 0 (by norm_num)
    simp [SizeArg.expand] at p2 p4
    refine ⟨p2, ?_⟩
    rw [p2] at p4
    linarith

end BMI.Subplots
