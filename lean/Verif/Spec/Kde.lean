import Verif.Model.Kde
import Mathlib.Analysis.InnerProductSpace.PiL2

/-! Specification for C52: kernel densities and the information they assign to a sample. -/

namespace BMI.Kde.Spec

/-- The six kernels as functions of the distance in units of the bandwidth. -/
noncomputable def shape : Kernel → ℝ → ℝ
  | .gaussian, t => Real.exp (-(t ^ 2) / 2)
  | .tophat, t => Set.indicator (Set.Iio 1) 1 t
  | .epanechnikov, t => max 0 (1 - t ^ 2)
  | .exponential, t => Real.exp (-t)
  | .linear, t => max 0 (1 - t)
  | .cosine, t => Set.indicator (Set.Iio 1) (fun t => Real.cos (Real.pi * t / 2)) t

/-- The names of the kernels. -/
def Known (s : String) : Prop := s ∈ ["gaussian", "tophat", "epanechnikov", "exponential", "linear", "cosine"]

/-- A bandwidth given by a text is one of two rules. -/
def Rule (a : BandwidthArg) : Prop := ∀ s, a = .text s → s = "scott" ∨ s = "silverman"

/-- The bandwidth in dimension `d` for `n` points: a number, Scott's rule or Silverman's rule. -/
noncomputable def width (n d : ℕ) : Bandwidth → ℝ
  | .number b => b
  | .scott => 1 / (n : ℝ) ^ ((1 : ℝ) / (d + 4))
  | .silverman => 1 / ((n : ℝ) * (d + 2) / 4) ^ ((1 : ℝ) / (d + 4))

/-- The kernel density at the point `u`: the average of kernels of width `h` around the data, with normalisation `z` in
units of the bandwidth. -/
noncomputable def pdf {n d : ℕ} (K : ℝ → ℝ) (z h : ℝ) (data : Fin n → Fin d → ℝ) (u : Fin d → ℝ) : ℝ :=
  (1 / n) * ∑ j, K (dist (WithLp.toLp 2 u : EuclideanSpace ℝ (Fin d)) (WithLp.toLp 2 (data j)) / h) / (z * h ^ d)

/-- Average over the sample. -/
noncomputable def mean {n : ℕ} (f : Fin n → ℝ) : ℝ := (∑ i, f i) / n

/-- Entropy of a kernel density as estimated from its own data: minus the average logarithm of the density. -/
noncomputable def entropy {n d : ℕ} (K : ℝ → ℝ) (z h : ℝ) (data : Fin n → Fin d → ℝ) : ℝ :=
  -mean fun i => Real.log (pdf K z h data (data i))

/-- Mutual information assigned to a sample by three kernel densities: the average of `log p(x,y) / (p(x) p(y))`. -/
noncomputable def info {n d e : ℕ} (Kx Ky Kxy : ℝ → ℝ) (zx zy zxy hx hy hxy : ℝ) (x : Fin n → Fin d → ℝ)
    (y : Fin n → Fin e → ℝ) : ℝ :=
  mean fun i => Real.log (pdf Kxy zxy hxy (fun i => Fin.append (x i) (y i)) (Fin.append (x i) (y i)) /
    (pdf Kx zx hx x (x i) * pdf Ky zy hy y (y i)))

end BMI.Kde.Spec
