import Verif.Model.CorrectionFigure
import Verif.Lemmas.StudentCorrection
import Verif.Props.Student

/-! C85: the correction term of the Student-t law, and the figure of it.  Also more on C55. -/

namespace BMI.CorrectionFigure

open MeasureTheory BMI.Samplers BMI.Student

variable {Key State : Type}

/-! ## The function -/

/-- **C85** `mi_correction_function` is symmetric in the dimensions. -/
theorem correction_symm (df : ℝ) (m n : ℕ) : miCorrectionFunction realFns df m n = miCorrectionFunction realFns df n m := by
  rw [correction_real, correction_real, Nat.add_comm n m]
  ring

/-- **C85** It is the mutual information between the parts of a Student-t vector with identity dispersion, and positive. -/
theorem correction_is_mi (df : ℝ) (hdf : 0 < df) (m n : ℕ) (hm : 0 < m) (hn : 0 < n) :
    mutualInfo (splitStudent m n 0 1 df) = ENNReal.ofReal (miCorrectionFunction realFns df m n) ∧
      0 < miCorrectionFunction realFns df m n := by
  rw [correction_real]
  exact ⟨(splitStudent_mi_one m n hdf).1, studentEntropy_lt hm hn hdf⟩

/-- **C85** It decreases strictly with the degrees of freedom. -/
theorem correction_decreasing (m n : ℕ) (hm : 0 < m) (hn : 0 < n) :
    StrictAntiOn (fun df => miCorrectionFunction realFns df m n) (Set.Ioi 0) := by
  intro df hdf df' _ h
  simp only [correction_real]
  exact correction_strictAnti hm hn hdf h

/-- **C85** Coordinates added to one part add the correction with more degrees of freedom. -/
theorem correction_add (df : ℝ) (m k n : ℕ) : miCorrectionFunction realFns df (m + k) n
    = miCorrectionFunction realFns df m n + miCorrectionFunction realFns (df + m) k n := by
  simp only [correction_real]
  exact correction_chain m k n df

/-- **C85** It increases strictly with either dimension. -/
theorem correction_dims (df : ℝ) (hdf : 0 < df) (m n m' n' : ℕ) (hm : 0 < m) (hn : 0 < n) (h1 : m ≤ m') (h2 : n ≤ n')
    (hne : (m, n) ≠ (m', n')) : miCorrectionFunction realFns df m n < miCorrectionFunction realFns df m' n' := by
  have step : ∀ a k b : ℕ, 0 < b → miCorrectionFunction realFns df a b ≤ miCorrectionFunction realFns df (a + k) b ∧
      (0 < k → miCorrectionFunction realFns df a b < miCorrectionFunction realFns df (a + k) b) := by
    intro a k b hb
    have hpos : 0 < df + a := by
      have : (0 : ℝ) ≤ a := Nat.cast_nonneg a
      linarith
    rcases Nat.eq_zero_or_pos k with rfl | hk
    · exact ⟨le_rfl, fun h => absurd h (lt_irrefl 0)⟩
    · have := (correction_is_mi (df + a) hpos k b hk hb).2
      rw [correction_add]
      exact ⟨by linarith, fun _ => by linarith⟩
  obtain ⟨k, rfl⟩ := Nat.exists_eq_add_of_le h1
  obtain ⟨l, rfl⟩ := Nat.exists_eq_add_of_le h2
  obtain ⟨a1, a2⟩ := step m k n hn
  obtain ⟨b1, b2⟩ := step n l (m + k) (by omega)
  rw [correction_symm df n, correction_symm df (n + l)] at b1 b2
  rcases Nat.eq_zero_or_pos k with rfl | hk
  · rcases Nat.eq_zero_or_pos l with rfl | hl
    · exact absurd rfl hne
    · exact a1.trans_lt (b2 hl)
  · exact (a2 hk).trans_le b1

/-- **C85** It is about `m n / (2 df²)` for many degrees of freedom. -/
theorem correction_rate (df : ℝ) (hdf : 0 < df) (m n : ℕ) (hm : 0 < m) (hn : 0 < n) :
    m * n / (2 * (df + m + n) ^ 2) ≤ miCorrectionFunction realFns df m n ∧
      miCorrectionFunction realFns df m n ≤ m * n * (1 / (2 * df ^ 2) + 2 / (3 * df ^ 3)) := by
  rw [correction_real]
  exact correction_bounds hm hn hdf

example : miCorrectionFunction realFns 100 2 3 < 1 / 3000 := by
  have := (correction_rate 100 (by norm_num) 2 3 (by norm_num) (by norm_num)).2
  norm_num at this ⊢
  linarith

example : miCorrectionFunction realFns 2.5 3 2 < miCorrectionFunction realFns 2 3 2 :=
  correction_decreasing 3 2 (by norm_num) (by norm_num) (by norm_num) (by norm_num) (by norm_num)

example : miCorrectionFunction realFns 2 1 2 < miCorrectionFunction realFns 2 4 2 :=
  correction_dims 2 (by norm_num) 1 2 4 2 (by norm_num) (by norm_num) (by norm_num) le_rfl (by decide)

/-- **C85** For one dispersion the number reported for a Student-t sampler is always more than that of the Gaussian one,
decreases with the degrees of freedom, and is near to that of the Gaussian one. -/
theorem student_mi_decreasing (R : JaxRandom Key) (N : NpRandom State) (dx dy : ℕ) (hx : 0 < dx) (hy : 0 < dy)
    (loc : Fin (dx + dy) → ℝ) (S : Matrix (Fin (dx + dy)) (Fin (dx + dy)) ℝ) (hS : S.PosDef) :
    ∃ (s : Sampler Key) (t : ℝ → StudentT State), splitMultinormal R dx dy (rowsOf S) (some (List.ofFn loc)) = .ok s ∧
      (∀ df, 0 < df → splitStudentT R N dx dy df (rowsOf S) (some (List.ofFn loc)) = .ok (t df)) ∧
      (∀ df, 0 < df → s.mi < (t df).sampler.mi ∧
        (t df).sampler.mi ≤ s.mi + dx * dy * (1 / (2 * df ^ 2) + 2 / (3 * df ^ 3))) ∧
      StrictAntiOn (fun df => (t df).sampler.mi) (Set.Ioi 0) := by
  obtain ⟨s, hs, -⟩ := splitMultinormal_number R dx dy hx hy loc S hS
  have ht := fun df => splitStudentT_of R N dx dy hx hy df (rowsOf S) (some (List.ofFn loc)) (s := s) (by simpa using hs)
  refine ⟨s, _, hs, fun df hdf => (ht df).trans (if_neg (not_le.2 hdf)), fun df hdf => ?_, fun df hdf df' hdf' h => ?_⟩
  · show s.mi < s.mi + miCorrectionFunction realFns df dx dy ∧ s.mi + miCorrectionFunction realFns df dx dy ≤ _
    have h1 := (correction_is_mi df hdf dx dy hx hy).2
    have h2 := (correction_rate df hdf dx dy hx hy).2
    exact ⟨by linarith, by linarith⟩
  · show s.mi + miCorrectionFunction realFns df' dx dy < s.mi + miCorrectionFunction realFns df dx dy
    have := correction_decreasing dx dy hx hy hdf hdf' h
    simp only at this
    linarith

example : ∃ (s : Sampler TreeKey) (t : ℝ → StudentT TableState),
    splitMultinormal tree 1 1 (rowsOf (bivariateCov 0.5 1 1)) (some (List.ofFn ![0, 0])) = .ok s ∧
      (∀ df, 0 < df → splitStudentT tree table 1 1 df (rowsOf (bivariateCov 0.5 1 1)) (some (List.ofFn ![0, 0])) = .ok (t df)) ∧
      s.mi < (t 3).sampler.mi ∧ (t 3).sampler.mi < (t 2).sampler.mi := by
  obtain ⟨s, t, h1, h2, h3, h4⟩ := student_mi_decreasing tree table 1 1 one_pos one_pos ![0, 0] (bivariateCov 0.5 1 1)
    (bivariateCov_posDef _ _ _ one_pos one_pos (by norm_num) (by norm_num))
  exact ⟨s, t, h1, h2, (h3 3 (by norm_num)).1, h4 (by norm_num) (by norm_num) (by norm_num)⟩

/-! ## The figure -/

/-- For few degrees of freedom nothing overflows. -/
theorem correction_finite (df m n : ℕ) (h1 : 1 ≤ df) (h2 : df + m + n ≤ 343) :
    correction Ext.fns df m n = .fin (miCorrectionFunction realFns df m n) := by
  have h := moderate_df_is_finite_partial 0 df m n (by exact_mod_cast h1) (by exact_mod_cast h2)
  simp only [Student.mutualInformation] at h
  show miCorrectionFunction Ext.fns (.fin df) m n = _
  revert h
  generalize miCorrectionFunction Ext.fns (.fin df) m n = v
  intro h
  cases v <;> simp [Ext.fns, Ext.add, realFns] at h ⊢
  exact h

/-- The numbers of a curve are those of a law: `v df` for `df` from 1 to 29. -/
def Shows (c : Curve Ext) (v : ℕ → ℝ) : Prop :=
  c.x = (List.range 29).map (· + 1) ∧ c.y = (List.range 29).map fun i => .fin (v (i + 1))

/-- **C85** The figure, drawn with floats, has a curve for every pair of dimensions `m`, `n`, in its own colour and with a
label with `m` and `n`.  Its values are finite and are the mutual information between the parts of Student-t vectors with
the dimensions `m` and `n`; they are positive and decrease, and for more dimensions they are larger. -/
theorem figure_spec : ∃ v : ℕ → ℕ → ℕ → ℝ,
    List.Forall₂ (fun (mn : ℕ × ℕ) (c : Curve Ext) => c.label = s!"$m={mn.1}$,\t$n={mn.2}$" ∧ Shows c (v mn.1 mn.2))
      [(1, 1), (1, 2), (1, 10), (2, 2), (3, 3), (5, 5)] (main Ext.fns).curves ∧
    ((main Ext.fns).curves.map Curve.c).Nodup ∧ ((main Ext.fns).curves.map Curve.label).Nodup ∧
    ∀ m n, 0 < m → 0 < n → ∀ df : ℕ, 0 < df →
      mutualInfo (splitStudent m n 0 1 df) = ENNReal.ofReal (v m n df) ∧ 0 < v m n df ∧ v m n (df + 1) < v m n df ∧
        v m n df < v (m + 1) n df ∧ v m n df < v m (n + 1) df := by
  refine ⟨fun m n df => miCorrectionFunction realFns df m n, ?_, ?_, ?_, ?_⟩
  · have key : ∀ i m n : ℕ, m + n ≤ 11 → (curve Ext.fns i (m, n)).label = s!"$m={m}$,\t$n={n}$" ∧
        Shows (curve Ext.fns i (m, n)) fun df => miCorrectionFunction realFns df m n := by
      intro i m n h
      have e : nus = (List.range 29).map (· + 1) := by decide
      refine ⟨rfl, e, ?_⟩
      simp only [curve]
      rw [e, List.map_map]
      refine List.map_congr_left fun j hj => ?_
      have hj := List.mem_range.1 hj
      simp only [Function.comp_apply]
      rw [correction_finite (j + 1) m n (by omega) (by omega)]
    exact .cons (key 0 1 1 (by norm_num)) (.cons (key 1 1 2 (by norm_num)) (.cons (key 2 1 10 (by norm_num))
      (.cons (key 3 2 2 (by norm_num)) (.cons (key 4 3 3 (by norm_num)) (.cons (key 5 5 5 (by norm_num)) .nil)))))
  · show (["C1", "C2", "C3", "C4", "C5", "C6"] : List String).Nodup
    decide
  · show (["$m=1$,\t$n=1$", "$m=1$,\t$n=2$", "$m=1$,\t$n=10$", "$m=2$,\t$n=2$", "$m=3$,\t$n=3$", "$m=5$,\t$n=5$"]
      : List String).Nodup
    decide
  · intro m n hm hn df hdf
    have hdf' : (0 : ℝ) < df := Nat.cast_pos.2 hdf
    obtain ⟨h1, h2⟩ := correction_is_mi df hdf' m n hm hn
    refine ⟨h1, h2, ?_, ?_, ?_⟩
    · have := correction_decreasing m n hm hn (a := (df : ℝ)) hdf' (b := ((df + 1 : ℕ) : ℝ)) (by
        show (0 : ℝ) < _
        positivity) (by push_cast; linarith)
      exact this
    · exact correction_dims df hdf' m n (m + 1) n hm hn (by omega) le_rfl (by simp)
    · exact correction_dims df hdf' m n m (n + 1) hm hn le_rfl (by omega) (by simp)

/-! ## C55: between the two ranges -/

/-- **C55** fails in another way: when the gamma function overflows for both parts together but not for `df` alone and not
for the parts, the reported number is infinite. -/
theorem intermediate_df_is_infinite (miNormal df : ℝ) (dx dy : ℕ) (h1 : 1 ≤ df) (hx : df + dx ≤ 343) (hy : df + dy ≤ 343)
    (h2 : 344 ≤ df + dx + dy) : checkDf Ext.fns (.fin df) = .ok () ∧
      Student.mutualInformation Ext.fns (.fin miNormal) (.fin df) dx dy = .pinf := by
  refine ⟨if_neg (show ¬ df ≤ 0 by linarith), ?_⟩
  have p2 : (0 : ℝ) < 0.5 * df := by linarith
  have l3 := ext_log (x := df * Real.pi) (by have := Real.pi_pos; positivity)
  have hdx : (0 : ℝ) ≤ dx := Nat.cast_nonneg dx
  have hdy : (0 : ℝ) ≤ dy := Nat.cast_nonneg dy
  have g2 := ext_gamma_small (x := 0.5 * df) (by linarith) (by linarith)
  have l2 := ext_log (Real.Gamma_pos_of_pos p2)
  have hd : ∀ k : ℕ, df + k ≤ 343 → ∃ v, differentialEntropy Ext.fns k (.fin df) = .fin v := by
    intro k hk
    have hk0 : (0 : ℝ) ≤ k := Nat.cast_nonneg k
    have p1 : (0 : ℝ) < 0.5 * (df + k) := by linarith
    have g1 := ext_gamma_small (x := 0.5 * (df + k)) (by linarith) (by linarith)
    have l1 := ext_log (Real.Gamma_pos_of_pos p1)
    simp only [differentialEntropy, Ext.fns, Ext.add, Ext.mul, Ext.neg, g1, g2, l1, l2, l3, ext_digamma p1, ext_digamma p2]
    exact ⟨_, rfl⟩
  have hxy : differentialEntropy Ext.fns (dx + dy) (.fin df) = .ninf := by
    have p1 : (0 : ℝ) < 0.5 * (df + (dx + dy : ℕ)) := by push_cast; linarith
    have g1 := ext_gamma_large (x := 0.5 * (df + (dx + dy : ℕ))) (by push_cast; linarith)
    have l1 : Ext.log .pinf = .pinf := rfl
    simp only [differentialEntropy, Ext.fns, Ext.add, Ext.mul, Ext.neg, g1, g2, l1, l2, l3, ext_digamma p1, ext_digamma p2]
  obtain ⟨a, ha⟩ := hd dx hx
  obtain ⟨b, hb⟩ := hd dy hy
  simp only [Student.mutualInformation, miCorrectionFunction, ha, hb, hxy]
  simp only [Ext.fns, Ext.add, Ext.neg]

example : Student.mutualInformation Ext.fns (.fin 0.25) (.fin 342) 1 1 = .pinf :=
  (intermediate_df_is_infinite 0.25 342 1 1 (by norm_num) (by norm_num) (by norm_num) (by norm_num)).2

end BMI.CorrectionFigure
