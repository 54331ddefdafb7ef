import Verif.Model.KSG
import Mathlib.Analysis.SpecialFunctions.Log.ENNRealLog
import Mathlib.Analysis.SpecialFunctions.Pow.Real
import Mathlib.Analysis.SpecialFunctions.Trigonometric.Basic

/-!
Model of the kernel density estimator (/repo/src/bmi/estimators/_kde.py).

`sklearn.neighbors.KernelDensity` (third-party) is modelled from its documentation: `fit` stores the data and the
bandwidth (a number, or Scott's or Silverman's rule for the shape of the data), `score_samples` is the logarithm of the
kernel density with the Euclidean metric (its tolerances `atol` and `rtol` are zero by default).  The constant that
normalises a kernel in dimension `d` is a parameter.  Real arithmetic, `⊥` is the logarithm of zero.
-/

namespace BMI.Kde

open BMI.PSpace (Mat)

/-- `_AllowedKernel` (/repo/src/bmi/estimators/_kde.py:23). -/
inductive Kernel where
  | gaussian
  | tophat
  | epanechnikov
  | exponential
  | linear
  | cosine
  deriving DecidableEq

/-- The literals of `_AllowedKernel` (/repo/src/bmi/estimators/_kde.py:23). -/
def Kernel.ofName (s : String) : Option Kernel :=
  if s = "gaussian" then some .gaussian
  else if s = "tophat" then some .tophat
  else if s = "epanechnikov" then some .epanechnikov
  else if s = "exponential" then some .exponential
  else if s = "linear" then some .linear
  else if s = "cosine" then some .cosine
  else none

open Classical in
/-- The kernel at distance `t` in units of the bandwidth, before normalisation (`KernelDensity`,
/repo/src/bmi/estimators/_kde.py:92-94). -/
noncomputable def Kernel.profile (k : Kernel) (t : ℝ) : ℝ :=
  match k with
  | .gaussian => Real.exp (-0.5 * t ^ 2)
  | .tophat => if t < 1 then 1 else 0
  | .epanechnikov => if t < 1 then 1 - t ^ 2 else 0
  | .exponential => Real.exp (-t)
  | .linear => if t < 1 then 1 - t else 0
  | .cosine => if t < 1 then Real.cos (0.5 * Real.pi * t) else 0

/-- `_AllowedBandwith` (/repo/src/bmi/estimators/_kde.py:22). -/
inductive Bandwidth where
  | number (b : ℝ)
  | scott
  | silverman

/-- A bandwidth as passed by the caller (/repo/src/bmi/estimators/_kde.py:64-66): a number or a string. -/
inductive BandwidthArg where
  | number (b : ℝ)
  | text (s : String)

/-- Validation of a bandwidth (/repo/src/bmi/estimators/_kde.py:30-32).  Simplification: pydantic would also read a
string that spells a number. -/
def BandwidthArg.parse : BandwidthArg → Except Err Bandwidth
  | .number b => .ok (.number b)
  | .text s => if s = "scott" then .ok .scott else if s = "silverman" then .ok .silverman else .error .validationError

/-- Validation of a kernel name (/repo/src/bmi/estimators/_kde.py:27-29). -/
def parseKernel (s : String) : Except Err Kernel := (Kernel.ofName s).elim (.error .validationError) .ok

/-- `KDEParams` (/repo/src/bmi/estimators/_kde.py:26-33). -/
structure Params where
  kernelXY : Kernel
  kernelX : Kernel
  kernelY : Kernel
  bandwidthXY : Bandwidth
  bandwidthX : Bandwidth
  bandwidthY : Bandwidth
  standardize : Bool

/-- A `KernelDensity` object (/repo/src/bmi/estimators/_kde.py:92-94); `fitted` are the data and the number used as
bandwidth, once it has been fitted. -/
structure Density where
  bandwidth : Bandwidth
  kernel : Kernel
  fitted : Option (Mat × ℝ)

/-- `KDEMutualInformationEstimator` (/repo/src/bmi/estimators/_kde.py:92-106). -/
structure Estimator where
  kdeX : Density
  kdeY : Density
  kdeXY : Density
  params : Params
  standardize : Bool

/-- `kernel_x or kernel_xy` (/repo/src/bmi/estimators/_kde.py:89-90): the empty string counts as missing. -/
def orElse (k : Option String) (kxy : String) : String :=
  match k with
  | none => kxy
  | some s => if s = "" then kxy else s

/-- `KDEMutualInformationEstimator.__init__` (/repo/src/bmi/estimators/_kde.py:59-106). -/
def create (kernelXY : String) (kernelX kernelY : Option String) (bandwidthXY : BandwidthArg)
    (bandwidthX bandwidthY : Option BandwidthArg) (standardize : Bool) : Except Err Estimator := do
  let bandwidthX := bandwidthX.getD bandwidthXY
  let bandwidthY := bandwidthY.getD bandwidthXY
  let kernelX := orElse kernelX kernelXY
  let kernelY := orElse kernelY kernelXY
  let kxy ← parseKernel kernelXY
  let kx ← parseKernel kernelX
  let ky ← parseKernel kernelY
  let bxy ← bandwidthXY.parse
  let bx ← bandwidthX.parse
  let by_ ← bandwidthY.parse
  .ok { kdeX := ⟨bx, kx, none⟩
        kdeY := ⟨by_, ky, none⟩
        kdeXY := ⟨bxy, kxy, none⟩
        params := ⟨kxy, kx, ky, bxy, bx, by_, standardize⟩
        standardize := standardize }

/-- The bandwidth for data with `n` rows and `d` columns (`KernelDensity.fit`,
/repo/src/bmi/estimators/_kde.py:109-111). -/
noncomputable def Bandwidth.resolve (b : Bandwidth) (n d : ℕ) : ℝ :=
  match b with
  | .number b => b
  | .scott => (n : ℝ) ^ (-1 / ((d : ℝ) + 4))
  | .silverman => ((n : ℝ) * (d + 2) / 4) ^ (-1 / ((d : ℝ) + 4))

/-- Parameter constraint of `KernelDensity` (checked by `fit`, /repo/src/bmi/estimators/_kde.py:109-111): a number has
to be positive. -/
def Bandwidth.Refused : Bandwidth → Prop
  | .number b => b ≤ 0
  | _ => False

open Classical in
/-- `KernelDensity.fit` (/repo/src/bmi/estimators/_kde.py:109-111): bad bandwidths and empty arrays are refused. -/
noncomputable def Density.fit (k : Density) (m : Mat) : Except Err Density :=
  if k.bandwidth.Refused then .error .valueError
  else if m.n = 0 ∨ m.d = 0 then .error .valueError
  else .ok { k with fitted := some (m, k.bandwidth.resolve m.n m.d) }

/-- `KernelDensity.score_samples` (/repo/src/bmi/estimators/_kde.py:18). -/
noncomputable def Density.scoreSamples (Z : Kernel → ℕ → ℝ) (k : Density) (m : Mat) : Except Err (List EReal) :=
  match k.fitted with
  | none => .error .notFitted
  | some (a, h) =>
    if e : m.d = a.d then
      .ok ((List.finRange m.n).map fun i => ENNReal.log (ENNReal.ofReal
        ((∑ j, k.kernel.profile (KSG.Metric.euclidean.dist (fun c => m.v i (Fin.cast e.symm c)) (a.v j) / h)) /
          (Z k.kernel a.d * h ^ a.d) / a.n)))
    else .error .valueError

/-- `_differential_entropy` (/repo/src/bmi/estimators/_kde.py:14-19). -/
noncomputable def differentialEntropy (Z : Kernel → ℕ → ℝ) (k : Density) (m : Mat) : Except Err EReal := do
  let logProbs ← k.scoreSamples Z m
  .ok (-(logProbs.sum / (logProbs.length : EReal)))

/-- `DifferentialEntropies` (/repo/src/bmi/estimators/_kde.py:36-40). -/
structure Entropies where
  x : EReal
  y : EReal
  xy : EReal
  mutualInformation : EReal

/-- The computation after fitting (/repo/src/bmi/estimators/_kde.py:130-141). -/
noncomputable def combine (Z : Kernel → ℕ → ℝ) (e : Estimator) (a b c : Mat) : Except Err Entropies := do
  let hX ← differentialEntropy Z e.kdeX a
  let hY ← differentialEntropy Z e.kdeY b
  let hXY ← differentialEntropy Z e.kdeXY c
  let mutualInformation := hX + hY - hXY
  .ok ⟨hX, hY, hXY, mutualInformation⟩

/-- `estimate_entropies` with `_fit` (/repo/src/bmi/estimators/_kde.py:108-111, 119-141); the state of the object after
the call is returned too. -/
noncomputable def estimateEntropies (Z : Kernel → ℕ → ℝ) (ε : ℝ) (e : Estimator) (x y : Mat) :
    Except Err Entropies × Estimator :=
  match KSG.space ε e.standardize x y with
  | .error er => (.error er, e)
  | .ok (a, b) =>
    if h : a.n = b.n then
      let c : Mat := ⟨a.n, a.d + b.d, PSpace.xy a b h⟩
      match e.kdeX.fit a with
      | .error er => (.error er, e)
      | .ok kx =>
        match e.kdeY.fit b with
        | .error er => (.error er, { e with kdeX := kx })
        | .ok ky =>
          match e.kdeXY.fit c with
          | .error er => (.error er, { e with kdeX := kx, kdeY := ky })
          | .ok kxy =>
            let e := { e with kdeX := kx, kdeY := ky, kdeXY := kxy }
            (combine Z e a b c, e)
    else (.error .valueError, e)

/-- `estimate` (/repo/src/bmi/estimators/_kde.py:113-114). -/
noncomputable def estimate (Z : Kernel → ℕ → ℝ) (ε : ℝ) (e : Estimator) (x y : Mat) :
    Except Err EReal × Estimator :=
  let r := estimateEntropies Z ε e x y
  (r.1.map fun d => d.mutualInformation, r.2)

/-- `parameters` (/repo/src/bmi/estimators/_kde.py:116-117). -/
def Estimator.parameters (e : Estimator) : Params := e.params

end BMI.Kde
