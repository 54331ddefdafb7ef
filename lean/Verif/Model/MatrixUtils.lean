import Verif.Model.Samplers

/-!
# Model of the dispersion-matrix utilities (/repo/src/bmi/samplers/_matrix_utils.py)

Square arrays are matrices; assignments to single entries are checked against the bounds, and loops of assignments are
folds over the list of assignments in the order of the code.
-/

namespace BMI.MatrixUtils

open BMI.Samplers

variable {n : ℕ}

/-- `a[i, j] = v` for non-negative indices, as at /repo/src/bmi/samplers/_matrix_utils.py:60. -/
def setEntry (a : Matrix (Fin n) (Fin n) ℝ) (w : ℕ × ℕ × ℝ) : Except Err (Matrix (Fin n) (Fin n) ℝ) :=
  if w.1 < n ∧ w.2.1 < n then .ok fun p q => if p = w.1 ∧ q = w.2.1 then w.2.2 else a p q
  else .error .indexError

/-- `a[i, j] += v` for non-negative indices, as at /repo/src/bmi/samplers/_matrix_utils.py:301. -/
def addEntry (a : Matrix (Fin n) (Fin n) ℝ) (w : ℕ × ℕ × ℝ) : Except Err (Matrix (Fin n) (Fin n) ℝ) :=
  if w.1 < n ∧ w.2.1 < n then .ok fun p q => if p = w.1 ∧ q = w.2.1 then a p q + w.2.2 else a p q
  else .error .indexError

/-- `_validate` (/repo/src/bmi/samplers/_matrix_utils.py:9-22). -/
noncomputable def validate (dimX dimY k : ℤ) (correlation correlationX correlationY : ℝ) : Except Err Unit :=
  open Classical in
  if min (min dimX dimY) k < 1 then .error .valueError
  else if k > dimX ∨ k > dimY then .error .valueError
  else if min (min correlationX correlationY) correlation < -1 ∨ max (max correlationX correlationY) correlation > 1 then
    .error .valueError
  else .ok ()

/-- `parametrised_correlation_matrix` (/repo/src/bmi/samplers/_matrix_utils.py:25-73). -/
noncomputable def parametrisedCorrelationMatrix (dimX dimY k : ℤ) (correlation correlationX correlationY : ℝ) :
    Except Err (Matrix (Fin (dimX.toNat + dimY.toNat)) (Fin (dimX.toNat + dimY.toNat)) ℝ) := do
  validate dimX dimY k correlation correlationX correlationY
  let dx := dimX.toNat
  let dy := dimY.toNat
  let corr := (1 : Matrix (Fin (dx + dy)) (Fin (dx + dy)) ℝ)
  let corr ← ((List.range k.toNat).flatMap fun i => [(i, dx + i, correlation), (dx + i, i, correlation)]).foldlM setEntry corr
  let corr ← ((List.range dx).flatMap fun i => (List.range i).flatMap fun j =>
    [(i, j, correlationX), (j, i, correlationX)]).foldlM setEntry corr
  ((List.range' dx dy).flatMap fun i => (List.range' dx (i - dx)).flatMap fun j =>
    [(i, j, correlationY), (j, i, correlationY)]).foldlM setEntry corr

/-- `covariance` before the loop of `canonical_correlation` (/repo/src/bmi/samplers/_matrix_utils.py:100-102). -/
noncomputable def diagonalBlocks (dx n : ℕ) : Matrix (Fin n) (Fin n) ℝ := fun p q =>
  if (p : ℕ) < dx ∧ (q : ℕ) < dx then (if (p : ℕ) = q then 1 else 0)
  else if dx ≤ (p : ℕ) ∧ dx ≤ (q : ℕ) then (if (p : ℕ) - dx = q - dx then 1 else 0)
  else 0

/-- `canonical_correlation` (/repo/src/bmi/samplers/_matrix_utils.py:76-108).  A negative `dim_y` makes the slice
assignments or `np.eye` fail with `ValueError`; then a negative `additional_y` leaves too few columns and the loop runs
into `IndexError`. -/
noncomputable def canonicalCorrelation (rho : List ℝ) (additionalY : ℤ) :
    Except Err (Matrix (Fin (rho.length + (rho.length + additionalY).toNat))
      (Fin (rho.length + (rho.length + additionalY).toNat)) ℝ) :=
  let dx := rho.length
  if (dx : ℤ) + additionalY < 0 then .error .valueError
  else
    ((List.range dx).flatMap fun i => [(i, dx + i, rho.getD i 0), (dx + i, i, rho.getD i 0)]).foldlM setEntry
      (diagonalBlocks dx _)

/-! ## GaussianLVMParametrization -/

/-- The fields of `GaussianLVMParametrization` after `__post_init__`
(/repo/src/bmi/samplers/_matrix_utils.py:155-177).  `eta_x=None`, which the annotation allows but the code cannot
handle, is not modelled. -/
structure GaussianLVM where
  dimX : ℕ
  dimY : ℕ
  nInteracting : ℕ
  alpha : ℝ
  lambd : ℝ
  epsilonX : ℝ
  epsilonY : ℝ
  betaX : ℝ
  betaY : ℝ
  etaX : ℝ
  etaY : ℝ

/-- `GaussianLVMParametrization.__init__` and `__post_init__` (/repo/src/bmi/samplers/_matrix_utils.py:155-177). -/
def gaussianLVM (dimX dimY nInteracting : ℤ) (alpha lambd epsilonX : ℝ) (epsilonY : Option ℝ) (betaX : ℝ)
    (betaY : Option ℝ) (etaX : ℝ) (etaY : Option ℝ) : Except Err GaussianLVM :=
  if ¬ (0 ≤ nInteracting ∧ nInteracting ≤ min dimX dimY) then .error .valueError
  else
    .ok { dimX := dimX.toNat, dimY := dimY.toNat, nInteracting := nInteracting.toNat, alpha := alpha, lambd := lambd,
          epsilonX := epsilonX, epsilonY := epsilonY.getD epsilonX, betaX := betaX, betaY := betaY.getD betaX,
          etaX := etaX, etaY := etaY.getD etaX }

/-- `np.zeros(n)` (/repo/src/bmi/samplers/_matrix_utils.py:187). -/
noncomputable def zeros (n : ℕ) : List ℝ := List.replicate n 0

/-- `_z_coefficients` (/repo/src/bmi/samplers/_matrix_utils.py:179-190). -/
noncomputable def GaussianLVM.zCoefficients (m : GaussianLVM) (i : ℕ) : List ℝ :=
  let z := zeros m.nInteracting
  if i < m.nInteracting then z.set i m.lambd else z

/-- `_mixing_x` (/repo/src/bmi/samplers/_matrix_utils.py:192-221). -/
noncomputable def GaussianLVM.mixingX (m : GaussianLVM) (i : ℕ) : List ℝ :=
  let u := [m.alpha, m.betaX, 0]
  let z := m.zCoefficients i
  let e := (zeros m.dimX).set i m.epsilonX
  let f := zeros m.dimY
  let v := if i ≥ m.nInteracting then (zeros (m.dimX - m.nInteracting)).set (i - m.nInteracting) m.etaX
    else zeros (m.dimX - m.nInteracting)
  let w := zeros (m.dimY - m.nInteracting)
  u ++ z ++ e ++ f ++ v ++ w

/-- `_mixing_y` (/repo/src/bmi/samplers/_matrix_utils.py:223-252). -/
noncomputable def GaussianLVM.mixingY (m : GaussianLVM) (i : ℕ) : List ℝ :=
  let u := [m.alpha, 0, m.betaY]
  let z := m.zCoefficients i
  let e := zeros m.dimX
  let f := (zeros m.dimY).set i m.epsilonY
  let v := zeros (m.dimX - m.nInteracting)
  let w := if i ≥ m.nInteracting then (zeros (m.dimY - m.nInteracting)).set (i - m.nInteracting) m.etaY
    else zeros (m.dimY - m.nInteracting)
  u ++ z ++ e ++ f ++ v ++ w

/-- `mixing` (/repo/src/bmi/samplers/_matrix_utils.py:254-267); `np.vstack` of an empty list raises `ValueError`. -/
noncomputable def GaussianLVM.mixing (m : GaussianLVM) : Except Err Arr :=
  if m.dimX + m.dimY = 0 then .error .valueError
  else .ok ((List.range m.dimX).map m.mixingX ++ (List.range m.dimY).map m.mixingY)

/-- `n_latent` (/repo/src/bmi/samplers/_matrix_utils.py:269-278). -/
def GaussianLVM.nLatent (m : GaussianLVM) : ℕ :=
  3 + m.nInteracting + m.dimX + m.dimY + (m.dimX - m.nInteracting) + (m.dimY - m.nInteracting)

/-- The first steps of `covariance`: `alpha²` everywhere, then `beta²` in the blocks of X and of Y
(/repo/src/bmi/samplers/_matrix_utils.py:288-297). -/
noncomputable def GaussianLVM.denseCovariance (m : GaussianLVM) :
    Matrix (Fin (m.dimX + m.dimY)) (Fin (m.dimX + m.dimY)) ℝ := fun p q =>
  let dx := m.dimX
  let c := m.alpha ^ 2
  let c := if (p : ℕ) < dx ∧ (q : ℕ) < dx then c + m.betaX ^ 2 else c
  if dx ≤ (p : ℕ) ∧ dx ≤ (q : ℕ) then c + m.betaY ^ 2 else c

/-- `covariance` (/repo/src/bmi/samplers/_matrix_utils.py:280-320). -/
noncomputable def GaussianLVM.covariance (m : GaussianLVM) :
    Except Err (Matrix (Fin (m.dimX + m.dimY)) (Fin (m.dimX + m.dimY)) ℝ) := do
  let nAll := m.dimX + m.dimY
  let dx := m.dimX
  let c := m.denseCovariance
  let c ← ((List.range dx).map fun i => (i, i, m.epsilonX ^ 2)).foldlM addEntry c
  let c ← ((List.range' dx (nAll - dx)).map fun j => (j, j, m.epsilonY ^ 2)).foldlM addEntry c
  let c ← ((List.range m.nInteracting).flatMap fun i =>
    [(i, dx + i, m.lambd ^ 2), (dx + i, i, m.lambd ^ 2), (i, i, m.lambd ^ 2), (dx + i, dx + i, m.lambd ^ 2)]).foldlM addEntry c
  let c ← ((List.range' m.nInteracting (dx - m.nInteracting)).map fun i => (i, i, m.etaX ^ 2)).foldlM addEntry c
  ((List.range' (m.nInteracting + dx) (nAll - (m.nInteracting + dx))).map fun j => (j, j, m.etaY ^ 2)).foldlM addEntry c

/-- `correlation` (/repo/src/bmi/samplers/_matrix_utils.py:322-326).  A variance of zero, for which the code divides by
zero, is left to the hypotheses of the theorems. -/
noncomputable def GaussianLVM.correlation (m : GaussianLVM) :
    Except Err (Matrix (Fin (m.dimX + m.dimY)) (Fin (m.dimX + m.dimY)) ℝ) := do
  let c ← m.covariance
  .ok fun p q => c p q / √(c p p * c q q)

/-- `DenseLVMParametrization.__init__` (/repo/src/bmi/samplers/_matrix_utils.py:351-364). -/
def denseLVM (dimX dimY : ℤ) (alpha epsilon : ℝ) : Except Err GaussianLVM :=
  gaussianLVM dimX dimY 0 alpha 0 epsilon (some epsilon) 0 (some 0) 0 (some 0)

/-- `correlation_strength` (/repo/src/bmi/samplers/_matrix_utils.py:366-371). -/
noncomputable def GaussianLVM.correlationStrength (m : GaussianLVM) : ℝ :=
  m.alpha ^ 2 / (m.alpha ^ 2 + m.epsilonX ^ 2)

/-- `SparseLVMParametrization.__init__` (/repo/src/bmi/samplers/_matrix_utils.py:375-405). -/
def sparseLVM (dimX dimY nInteracting : ℤ) (beta lambd epsilon : ℝ) (eta : Option ℝ) : Except Err GaussianLVM :=
  let eta := eta.getD lambd
  gaussianLVM dimX dimY nInteracting 0 lambd epsilon (some epsilon) beta (some beta) eta (some eta)

/-- `correlation_interacting` (/repo/src/bmi/samplers/_matrix_utils.py:407-412). -/
noncomputable def GaussianLVM.correlationInteracting (m : GaussianLVM) : ℝ :=
  m.lambd ^ 2 / (m.betaX ^ 2 + m.epsilonX ^ 2 + m.lambd ^ 2)

end BMI.MatrixUtils
