import Mathlib.NumberTheory.Harmonic.EulerMascheroni
import Mathlib.Data.EReal.Operations

/-! Specification of the first Kraskov–Stögbauer–Grassberger estimator (equation (8) of the paper), from
tables of distances, without sorting, chunks or dictionaries. -/

namespace BMI.KSG.Spec

/-- ψ at a positive integer: `ψ(m) = H_{m-1} - γ`. -/
noncomputable def psi (m : ℕ) : ℝ := (harmonic (m - 1) : ℝ) - Real.eulerMascheroniConstant

/-- `v` is the distance from a point to its `k`-th nearest neighbour: `f` is its row of distances (its own entry,
zero, is neighbour number 0): at most `k` entries are below `v` and more than `k` are at most `v`. -/
def IsKth {n : ℕ} (f : Fin n → ℝ) (k : ℕ) (v : ℝ) : Prop :=
  (Finset.univ.filter fun j => f j < v).card ≤ k ∧ k < (Finset.univ.filter fun j => f j ≤ v).card

/-- Number of *other* points strictly closer than `v` to point `i`. -/
noncomputable def others {n : ℕ} (D : Fin n → Fin n → ℝ) (i : Fin n) (v : ℝ) : ℕ :=
  (Finset.univ.filter fun j => j ≠ i ∧ D i j < v).card

/-- Equation (8): `ψ(k) + ψ(N) - ⟨ψ(n_x + 1) + ψ(n_y + 1)⟩`, with `v i` the distance of point `i` to its `k`-th
neighbour in the joint space. -/
noncomputable def eq8 {n : ℕ} (DX DY : Fin n → Fin n → ℝ) (k : ℕ) (v : Fin n → ℝ) : ℝ :=
  psi k + psi n - (∑ i, (psi (others DX i (v i) + 1) + psi (others DY i (v i) + 1))) / n

/-- Distance tables: zero on the diagonal, non-negative. -/
structure IsTable {n : ℕ} (D : Fin n → Fin n → ℝ) : Prop where
  diag : ∀ i, D i i = 0
  nonneg : ∀ i j, 0 ≤ D i j

/-- Joint distance. -/
def joint {n : ℕ} (DX DY : Fin n → Fin n → ℝ) (i j : Fin n) : ℝ := max (DX i j) (DY i j)

/-- A correct sorting function: positions in non-decreasing order. -/
structure IsArgsort {n : ℕ} (s : (Fin n → ℝ) → Fin n → Fin n) : Prop where
  bij : ∀ f, Function.Bijective (s f)
  mono : ∀ f, Monotone (f ∘ s f)

end BMI.KSG.Spec
