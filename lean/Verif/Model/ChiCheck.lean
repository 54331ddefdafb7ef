import Verif.Model.Bmm
import Verif.Model.MatrixUtils

/-!
Model of the script which compares the profile of the pointwise mutual information of normal distributions with a combination of
`χ²` numbers (/repo/scripts/Mixtures/validate_chi2_combination.py).

A panel is what is handed to `hist`, `axvline`, `axvspan` and to the format of the title.  Labels, colours and the rounding in the
title are left out.
-/

namespace BMI.ChiCheck

open BMI.Samplers BMI.Student BMI.Bmm BMI.MatrixUtils

variable {Key : Type}

/-- `np.log` of a number: `none` stands for `-inf` and `nan`, which NumPy returns (with a warning) where there is no logarithm
(/repo/scripts/Mixtures/validate_chi2_combination.py:25,30). -/
noncomputable def npLog (x : ℝ) : Option ℝ := if 0 < x then some (Real.log x) else none

/-- The first formula for the mutual information (/repo/scripts/Mixtures/validate_chi2_combination.py:25-29); a vanishing
determinant of `cov` gives `inf` or `nan`. -/
noncomputable def miDet {dx dy : ℕ} (cov : Matrix (Fin (dx + dy)) (Fin (dx + dy)) ℝ) : Option ℝ :=
  if cov.det = 0 then none else (npLog ((blockX cov).det * (blockY cov).det / cov.det)).map (0.5 * ·)

/-- The second formula (/repo/scripts/Mixtures/validate_chi2_combination.py:30). -/
noncomputable def miRho (rho : List ℝ) : Option ℝ := (rho.mapM fun r : ℝ => npLog (1 - r ^ 2)).map fun l => -0.5 * l.sum

/-- What is drawn on one axis (/repo/scripts/Mixtures/validate_chi2_combination.py:55-69). -/
structure Panel where
  bins : List ℝ
  profile : List ℝ
  chi2Profile : List ℝ
  varAnalytic : ℝ
  varEmpirical : ℝ
  line : ℝ
  span : ℝ × ℝ

/-- `np.linspace` (/repo/scripts/Mixtures/validate_chi2_combination.py:55). -/
noncomputable def linspace (a b : ℝ) (n : ℕ) : List ℝ := (List.range n).map fun i : ℕ => a + (i : ℝ) * ((b - a) / ((n : ℝ) - 1))

/-- `np.var` (/repo/scripts/Mixtures/validate_chi2_combination.py:52). -/
noncomputable def variance (l : List ℝ) : ℝ := (l.map fun x => (x - l.sum / l.length) ^ 2).sum / l.length

/-- The loop over the correlations (/repo/scripts/Mixtures/validate_chi2_combination.py:44-48): `chi2` has a row for each number;
`i` counts the passes. -/
noncomputable def combine {m n : ℕ} (len : ℕ) (chi2 : Fin m → Fin n → ℝ) : List ℝ → ℕ → (Fin n → ℝ) → Except Err (Fin n → ℝ)
  | [], _, acc => .ok acc
  | r :: rs, i, acc =>
    if h : i < m ∧ i + len < m then
      combine len chi2 rs (i + 1) fun s => acc s + 0.5 * r * (chi2 ⟨i, h.1⟩ s - chi2 ⟨i + len, h.2⟩ s)
    else .error .indexError

/-- `n_samples` (/repo/scripts/Mixtures/validate_chi2_combination.py:39). -/
def nSamples : ℕ := 20000

/-- `plot_samples` (/repo/scripts/Mixtures/validate_chi2_combination.py:12-69).  The assertion holds only for two finite numbers: a
comparison with `nan` is false, and the distance to an infinite number is infinite or `nan`.  `jax.random.split` and
`jax.random.normal` are those of TensorFlow Probability.  The values of the profile are finite for a normal distribution. -/
noncomputable def plotSamples (R : JaxRandom Key) (T : Tfp Key) (rho : List ℝ) (additionalY : ℤ) : Except Err Panel := do
  let cov ← canonicalCorrelation rho additionalY
  match miDet cov, miRho rho with
  | some mi1, some mi2 =>
    if |mi1 - mi2| < 0.01 then do
      let dist ← multivariateNormalDistribution R T rho.length (rho.length + additionalY) (rowsOf cov) none
      let keys := T.split (R.prngKey 21) 3
      let profile ← pmiProfile (keys 1) dist nSamples
      let chi2 : Fin (2 * rho.length) → Fin nSamples → ℝ := fun i s => T.normal (keys 2) (2 * rho.length) nSamples i s ^ 2
      let chi2Profile ← combine rho.length chi2 rho 0 fun _ => mi1
      let varAnalytic := (rho.map (· ^ 2)).sum
      .ok
        { bins := linspace (-2) 4 21
          profile := profile.map EReal.toReal
          chi2Profile := List.ofFn chi2Profile
          varAnalytic := varAnalytic
          varEmpirical := variance (profile.map EReal.toReal)
          line := mi1
          span := (mi1 - √varAnalytic, mi1 + √varAnalytic) }
    else .error .assertionError
  | _, _ => .error .assertionError

/-- `main` (/repo/scripts/Mixtures/validate_chi2_combination.py:72-83): the panels from the upper left to the lower right. -/
noncomputable def main (R : JaxRandom Key) (T : Tfp Key) : Except Err (List Panel) := do
  let p00 ← plotSamples R T [0.8, 0.5] 0
  let p01 ← plotSamples R T [0.7, 0.7, 0.7] 0
  let p10 ← plotSamples R T [0.5, 0.0, 0.0] 1
  let p11 ← plotSamples R T [0.5, 0.0, 0.0] 3
  .ok [p00, p01, p10, p11]

end BMI.ChiCheck
