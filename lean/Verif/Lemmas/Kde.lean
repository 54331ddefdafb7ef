import Verif.Spec.Kde
import Verif.Props.ProductSpace
import Verif.Lemmas.KSGFit

/-! Kernels and kernel densities, for C52. -/

namespace BMI.Kde

open BMI.PSpace (Mat)
open BMI.Kde.Spec

/-! ### Kernels -/

theorem profile_eq (k : Kernel) (t : ℝ) (ht : 0 ≤ t) : k.profile t = shape k t := by
  cases k
  · simp only [Kernel.profile, shape]; congr 1; ring
  · simp only [Kernel.profile, shape, Set.indicator_apply, Set.mem_Iio, Pi.one_apply]
  · simp only [Kernel.profile, shape]
    split_ifs with h
    · rw [max_eq_right]; nlinarith
    · rw [max_eq_left]; nlinarith
  · rfl
  · simp only [Kernel.profile, shape]
    split_ifs with h
    · rw [max_eq_right]; linarith
    · rw [max_eq_left]; linarith
  · simp only [Kernel.profile, shape, Set.indicator_apply, Set.mem_Iio]
    split_ifs with h
    · congr 1; ring
    · rfl

theorem shape_zero (k : Kernel) : shape k 0 = 1 := by
  cases k <;> simp [shape]

theorem shape_bounds (k : Kernel) (t : ℝ) (ht : 0 ≤ t) : 0 ≤ shape k t ∧ shape k t ≤ 1 := by
  cases k
  · exact ⟨(Real.exp_pos _).le, Real.exp_le_one_iff.2 (by nlinarith [sq_nonneg t])⟩
  · simp only [shape, Set.indicator_apply, Pi.one_apply]
    split_ifs <;> norm_num
  · exact ⟨le_max_left _ _, max_le zero_le_one (by nlinarith [sq_nonneg t])⟩
  · exact ⟨(Real.exp_pos _).le, Real.exp_le_one_iff.2 (by linarith)⟩
  · exact ⟨le_max_left _ _, max_le zero_le_one (by linarith)⟩
  · simp only [shape, Set.indicator_apply, Set.mem_Iio]
    split_ifs with h
    · exact ⟨Real.cos_nonneg_of_mem_Icc ⟨by nlinarith [Real.pi_pos], by nlinarith [Real.pi_pos]⟩, Real.cos_le_one _⟩
    · norm_num

theorem resolve_eq (b : Bandwidth) (n d : ℕ) : b.resolve n d = width n d b := by
  cases b
  · rfl
  · simp only [Bandwidth.resolve, width]
    rw [one_div, ← Real.rpow_neg (Nat.cast_nonneg n)]
    congr 1
    ring
  · simp only [Bandwidth.resolve, width]
    rw [one_div, ← Real.rpow_neg (by positivity)]
    congr 1
    ring

/-- A bandwidth that a fit accepts. -/
def Usable (b : Bandwidth) : Prop := ∀ r, b = .number r → 0 < r

theorem width_pos {b : Bandwidth} (hb : Usable b) {n : ℕ} (hn : 0 < n) (d : ℕ) : 0 < width n d b := by
  have : (0 : ℝ) < n := by exact_mod_cast hn
  cases b
  · exact hb _ rfl
  · unfold width; positivity
  · unfold width; positivity

/-- At a data point the density is positive, and bounded. -/
theorem pdf_bounds {n d : ℕ} (k : Kernel) {z h : ℝ} (hz : 0 < z) (hh : 0 < h) (data : Fin n → Fin d → ℝ) (i : Fin n) :
    1 / (n * (z * h ^ d)) ≤ pdf (shape k) z h data (data i) ∧ pdf (shape k) z h data (data i) ≤ 1 / (z * h ^ d) := by
  have hn : (0 : ℝ) < n := by exact_mod_cast i.pos
  have hzh : 0 < z * h ^ d := by positivity
  have hb : ∀ j, 0 ≤ shape k (dist (WithLp.toLp 2 (data i) : EuclideanSpace ℝ (Fin d)) (WithLp.toLp 2 (data j)) / h) ∧
      shape k (dist (WithLp.toLp 2 (data i) : EuclideanSpace ℝ (Fin d)) (WithLp.toLp 2 (data j)) / h) ≤ 1 :=
    fun j => shape_bounds k _ (by positivity)
  unfold pdf
  rw [← Finset.sum_div]
  have h1 : 1 ≤ ∑ j, shape k (dist (WithLp.toLp 2 (data i) : EuclideanSpace ℝ (Fin d)) (WithLp.toLp 2 (data j)) / h) := by
    have := Finset.single_le_sum (fun j _ => (hb j).1) (Finset.mem_univ i)
    simpa [shape_zero] using this
  have h2 : ∑ j, shape k (dist (WithLp.toLp 2 (data i) : EuclideanSpace ℝ (Fin d)) (WithLp.toLp 2 (data j)) / h) ≤ n := by
    refine (Finset.sum_le_sum fun j _ => (hb j).2).trans ?_
    simp
  constructor
  · rw [one_div_mul_eq_div, div_div, mul_comm (z * h ^ d)]
    gcongr
  · rw [one_div_mul_eq_div, div_div, mul_comm (z * h ^ d), div_le_div_iff₀ (by positivity) hzh]
    nlinarith

theorem pdf_pos {n d : ℕ} (k : Kernel) {z h : ℝ} (hz : 0 < z) (hh : 0 < h) (data : Fin n → Fin d → ℝ) (i : Fin n) :
    0 < pdf (shape k) z h data (data i) := by
  have hn : (0 : ℝ) < n := by exact_mod_cast i.pos
  exact lt_of_lt_of_le (by positivity) (pdf_bounds k hz hh data i).1

/-! ### One density -/

theorem fit_ok (k : Density) (hb : Usable k.bandwidth) (m : Mat) (hn : 0 < m.n) (hd : 0 < m.d) :
    k.fit m = .ok { k with fitted := some (m, width m.n m.d k.bandwidth) } := by
  unfold Density.fit
  have : ¬ k.bandwidth.Refused := by
    cases h : k.bandwidth with
    | number r => simpa [Bandwidth.Refused] using hb r h
    | scott => simp [Bandwidth.Refused]
    | silverman => simp [Bandwidth.Refused]
  rw [if_neg this, if_neg (by omega), resolve_eq]

theorem sum_coe (l : List ℝ) : (l.map Real.toEReal).sum = ((l.sum : ℝ) : EReal) := by
  induction l with
  | nil => rfl
  | cons a l ih => rw [List.map_cons, List.sum_cons, ih, List.sum_cons, EReal.coe_add]

theorem entropy_ok (Z : Kernel → ℕ → ℝ) (hZ : ∀ k d, 0 < Z k d) (b : Bandwidth) (k : Kernel) (h : ℝ) (hh : 0 < h)
    {n d : ℕ} (v : Fin n → Fin d → ℝ) :
    differentialEntropy Z ⟨b, k, some (⟨n, d, v⟩, h)⟩ ⟨n, d, v⟩ =
      .ok ((entropy (shape k) (Z k d) h v : ℝ) : EReal) := by
  unfold differentialEntropy Density.scoreSamples
  simp only [bind, Except.bind, dif_pos, Fin.cast_eq_self]
  have he : ∀ i : Fin n, ENNReal.log (ENNReal.ofReal
      ((∑ j, k.profile (KSG.Metric.euclidean.dist (fun c => v i c) (v j) / h)) / (Z k d * h ^ d) / n)) =
      ((Real.log (pdf (shape k) (Z k d) h v (v i)) : ℝ) : EReal) := by
    intro i
    have : (∑ j, k.profile (KSG.Metric.euclidean.dist (fun c => v i c) (v j) / h)) / (Z k d * h ^ d) / n =
        pdf (shape k) (Z k d) h v (v i) := by
      unfold pdf
      rw [Finset.sum_div, one_div_mul_eq_div]
      congr 1
      refine Finset.sum_congr rfl fun j _ => ?_
      rw [EuclideanSpace.dist_eq, profile_eq]
      · simp only [KSG.Metric.dist, Real.dist_eq, sq_abs]
      · simp only [KSG.Metric.dist]; positivity
    rw [this, ENNReal.log_ofReal_of_pos (pdf_pos k (hZ k d) hh v i)]
  simp only [he]
  congr 1
  rw [show (List.finRange n).map (fun i => ((Real.log (pdf (shape k) (Z k d) h v (v i)) : ℝ) : EReal)) =
    ((List.finRange n).map fun i => Real.log (pdf (shape k) (Z k d) h v (v i))).map Real.toEReal by
      rw [List.map_map]; rfl, sum_coe, List.length_map, List.length_map, List.length_finRange]
  unfold entropy mean
  rw [← List.sum_ofFn, List.ofFn_eq_map, EReal.coe_neg, EReal.coe_div]
  rfl

theorem fit_refuses (k : Density) (m : Mat) (h : ¬ Usable k.bandwidth ∨ m.n = 0 ∨ m.d = 0) :
    k.fit m = .error .valueError := by
  unfold Density.fit
  by_cases hr : k.bandwidth.Refused
  · rw [if_pos hr]
  · rw [if_neg hr]
    rcases h with h | h
    · exfalso
      apply h
      intro r hb
      rw [hb] at hr
      simpa [Bandwidth.Refused] using hr
    · rw [if_pos h]

theorem space_eq (ε : ℝ) (std : Bool) {n d e : ℕ} (v : Fin n → Fin d → ℝ) (w : Fin n → Fin e → ℝ) (hn : 0 < n)
    (hd : 0 < d) (he : 0 < e) : KSG.space ε std ⟨n, d, v⟩ ⟨n, e, w⟩ =
      .ok (⟨n, d, KSG.stdv ε std v⟩, ⟨n, e, KSG.stdv ε std w⟩) := by
  unfold KSG.space KSG.stdv
  cases std
  · simp
  · have : ¬ (n = 0 ∨ d = 0 ∨ e = 0) := by omega
    simp [this]

theorem info_eq {n d e : ℕ} (kx ky kxy : Kernel) {zx zy zxy hx hy hxy : ℝ} (h1 : 0 < zx) (h2 : 0 < zy) (h3 : 0 < zxy)
    (h4 : 0 < hx) (h5 : 0 < hy) (h6 : 0 < hxy) (x : Fin n → Fin d → ℝ) (y : Fin n → Fin e → ℝ) :
    entropy (shape kx) zx hx x + entropy (shape ky) zy hy y -
      entropy (shape kxy) zxy hxy (fun i => Fin.append (x i) (y i)) =
    info (shape kx) (shape ky) (shape kxy) zx zy zxy hx hy hxy x y := by
  unfold entropy info mean
  have : ∀ i, Real.log (pdf (shape kxy) zxy hxy (fun i => Fin.append (x i) (y i)) (Fin.append (x i) (y i)) /
      (pdf (shape kx) zx hx x (x i) * pdf (shape ky) zy hy y (y i))) =
      Real.log (pdf (shape kxy) zxy hxy (fun i => Fin.append (x i) (y i)) (Fin.append (x i) (y i))) -
      (Real.log (pdf (shape kx) zx hx x (x i)) + Real.log (pdf (shape ky) zy hy y (y i))) := by
    intro i
    have p1 := pdf_pos kx h1 h4 x i
    have p2 := pdf_pos ky h2 h5 y i
    have p3 := pdf_pos kxy h3 h6 (fun i => Fin.append (x i) (y i)) i
    rw [Real.log_div p3.ne' (mul_pos p1 p2).ne', Real.log_mul p1.ne' p2.ne']
  simp only [this]
  rw [Finset.sum_sub_distrib, Finset.sum_add_distrib]
  ring

/-! ### Invariances -/

theorem dist_append {d e : ℕ} (a a' : Fin d → ℝ) (b b' : Fin e → ℝ) :
    dist (WithLp.toLp 2 (Fin.append a b) : EuclideanSpace ℝ (Fin (d + e))) (WithLp.toLp 2 (Fin.append a' b')) =
      √(dist (WithLp.toLp 2 a : EuclideanSpace ℝ (Fin d)) (WithLp.toLp 2 a') ^ 2 +
        dist (WithLp.toLp 2 b : EuclideanSpace ℝ (Fin e)) (WithLp.toLp 2 b') ^ 2) := by
  rw [EuclideanSpace.dist_eq, EuclideanSpace.dist_eq, EuclideanSpace.dist_eq, Real.sq_sqrt, Real.sq_sqrt,
    Fin.sum_univ_add]
  · simp
  · positivity
  · positivity

theorem pdf_swap {n d e : ℕ} (K : ℝ → ℝ) (z h : ℝ) (x : Fin n → Fin d → ℝ) (y : Fin n → Fin e → ℝ) (i : Fin n) :
    pdf K z h (fun i => Fin.append (y i) (x i)) (Fin.append (y i) (x i)) =
      pdf K z h (fun i => Fin.append (x i) (y i)) (Fin.append (x i) (y i)) := by
  unfold pdf
  simp only [dist_append, add_comm e d, add_comm (dist (WithLp.toLp 2 (y i) : EuclideanSpace ℝ (Fin e)) _ ^ 2)]

theorem pdf_perm {n d : ℕ} (K : ℝ → ℝ) (z h : ℝ) (x : Fin n → Fin d → ℝ) (σ : Equiv.Perm (Fin n)) (u : Fin d → ℝ) :
    pdf K z h (fun i => x (σ i)) u = pdf K z h x u := by
  unfold pdf
  congr 1
  exact Equiv.sum_comp σ fun j => K (dist (WithLp.toLp 2 u : EuclideanSpace ℝ (Fin d)) (WithLp.toLp 2 (x j)) / h) / (z * h ^ d)

theorem mean_perm {n : ℕ} (f : Fin n → ℝ) (σ : Equiv.Perm (Fin n)) : mean (fun i => f (σ i)) = mean f := by
  unfold mean
  rw [Equiv.sum_comp σ f]

theorem scaleCol_perm {n : ℕ} (ε : ℝ) (c : Fin n → ℝ) (σ : Equiv.Perm (Fin n)) (i : Fin n) :
    PSpace.scaleCol ε (fun i => c (σ i)) i = PSpace.scaleCol ε c (σ i) := by
  have hm : PSpace.colMean (fun i => c (σ i)) = PSpace.colMean c := by
    unfold PSpace.colMean
    rw [Equiv.sum_comp σ c]
  have hv : PSpace.colVar (fun i => c (σ i)) = PSpace.colVar c := by
    unfold PSpace.colVar
    rw [hm, Equiv.sum_comp σ fun i => (c i - PSpace.colMean c) ^ 2]
  unfold PSpace.scaleCol PSpace.flagged
  rw [hm, hv]

end BMI.Kde
