import Verif.Model.Integration
import Verif.Model.NeuralEstimator

/-!
Model of the notebook which compares trained critics with the pointwise mutual information
(/repo/workflows/projects/Mixtures/visualizing_critics.py): the sampler, the grids, the critics and the two figures.

A figure is what is handed to `imshow` and `hist`: numbers, extents and their places.  Colours, labels, bins, limits of axes, the estimate
of KSG (which is only displayed) and the printed text are left out.  An array with two axes is the list of its rows.  Numbers are
real; the pointwise mutual information of this distribution is finite everywhere.
-/

namespace BMI.CriticPlots

open BMI.Samplers BMI.Bmm BMI.MatrixUtils BMI.Integration
open BMI.NeuralEstimator (Lib Params Estimator estimateWithInfo Point)
open BMI.Mine (Formula)
open BMI.PSpace (Mat)

variable {Key : Type}

/-- `sampler_four_balls` (/repo/workflows/projects/Mixtures/visualizing_critics.py:66-96). -/
noncomputable def samplerFourBalls (R : JaxRandom Key) (T : Tfp Key) : Except Err (BmmSampler Key) := do
  let cov ← canonicalCorrelation [0.0] 0
  let c1 ← multivariateNormalDistribution R T 1 1 (rowsOf cov) (some [-1.25, -1.25])
  let c2 ← multivariateNormalDistribution R T 1 1 (rowsOf cov) (some [1.25, 1.25])
  let c3 ← multivariateNormalDistribution R T 1 1 (rowsOf ((0.2 : ℝ) • cov)) (some [-2.5, 2.5])
  let c4 ← multivariateNormalDistribution R T 1 1 (rowsOf ((0.2 : ℝ) • cov)) (some [2.5, -2.5])
  let dist ← mixture T [0.3, 0.3, 0.2, 0.2] [c1, c2, c3, c4]
  bmmSampler dist none (.seed 0) 200000

/-- `jnp.linspace` (/repo/workflows/projects/Mixtures/visualizing_critics.py:109-110). -/
noncomputable def linspace (a b : ℝ) (n : ℕ) : List ℝ := (List.range n).map fun i : ℕ => a + (i : ℝ) * ((b - a) / ((n : ℝ) - 1))

/-- `make_grid` (/repo/workflows/projects/Mixtures/visualizing_critics.py:107-114): `meshgrid` with `indexing="ij"` gives, for each `x`, a
row in which all first numbers are `x` and a row of all `y`; `vmap` applies the function to the columns made of these two rows. -/
noncomputable def makeGrid (fn : Arr → Arr → Except Err (List ℝ)) (xrange : ℝ × ℝ) (yrange : Option (ℝ × ℝ)) (steps : ℕ) :
    Except Err (List (List ℝ)) :=
  let yrange := yrange.getD xrange
  let xs := linspace xrange.1 xrange.2 steps
  let ys := linspace yrange.1 yrange.2 steps
  xs.mapM fun x => fn (ys.map fun _ => [x]) (ys.map fun y => [y])

/-- `grid_sampler_pdf` (/repo/workflows/projects/Mixtures/visualizing_critics.py:117-124). -/
noncomputable def gridSamplerPdf (s : BmmSampler Key) : (ℝ × ℝ) → Option (ℝ × ℝ) → ℕ → Except Err (List (List ℝ)) :=
  makeGrid fun xs ys => .ok (List.zipWith (fun x y => ((s.dist.distJoint.logProb (x ++ y)).exp).toReal) xs ys)

/-- `grid_sampler_pmi` (/repo/workflows/projects/Mixtures/visualizing_critics.py:127-129). -/
noncomputable def gridSamplerPmi (s : BmmSampler Key) : (ℝ × ℝ) → Option (ℝ × ℝ) → ℕ → Except Err (List (List ℝ)) :=
  makeGrid fun xs ys => (s.dist.pmi xs ys).map (List.map EReal.toReal)

/-- `grid_critic` (/repo/workflows/projects/Mixtures/visualizing_critics.py:132-134) for a trained critic. -/
noncomputable def gridCritic (critic : Critic) : (ℝ × ℝ) → Option (ℝ × ℝ) → ℕ → Except Err (List (List ℝ)) :=
  makeGrid fun xs ys => .ok (List.zipWith critic xs ys)

/-- What `imshow` gets (/repo/workflows/projects/Mixtures/visualizing_critics.py:144-149): the rows from the bottom to the top
(`origin="lower"`), each from the left to the right, and left, right, lower and upper end of the image. -/
structure Image where
  rows : List (List ℝ)
  extent : Option ((ℝ × ℝ) × (ℝ × ℝ))

/-- `grid.T` (/repo/workflows/projects/Mixtures/visualizing_critics.py:145). -/
noncomputable def transposed (grid : List (List ℝ)) : List (List ℝ) :=
  (List.range (grid.headD []).length).map fun j => grid.map fun row => row.getD j 0

/-- `plot_grid` (/repo/workflows/projects/Mixtures/visualizing_critics.py:140-149). -/
noncomputable def plotGrid (grid : List (List ℝ)) (xrange yrange : Option (ℝ × ℝ)) : Image :=
  let yrange := yrange.or xrange
  ⟨transposed grid, xrange.bind fun a => yrange.map fun b => (a, b)⟩

/-- `.mean()` of a row (/repo/workflows/projects/Mixtures/visualizing_critics.py:161,309,311). -/
noncomputable def average (l : List ℝ) : ℝ := l.sum / l.length

/-- `remove_dv_dofs` (/repo/workflows/projects/Mixtures/visualizing_critics.py:153-155). -/
noncomputable def removeDvDofs (fs : List (List ℝ)) : List (List ℝ) := fs.map fun row => row.map (· - average fs.flatten)

/-- `remove_nce_dofs` (/repo/workflows/projects/Mixtures/visualizing_critics.py:159-161). -/
noncomputable def removeNceDofs (fs : List (List ℝ)) : List (List ℝ) := fs.map fun row => row.map (· - average row)

/-- The parameters of the three neural estimators (/repo/workflows/projects/Mixtures/visualizing_critics.py:30-38; defaults in
/repo/src/bmi/estimators/neural/_estimators.py:19-28).  The sizes of the layers are a matter of the critic factory. -/
noncomputable def params : Params := ⟨512, 10000, some 0.5, 250, 0.1, false, 42⟩

/-- An array of points as a matrix with `d` columns (`jnp.asarray`, /repo/src/bmi/estimators/neural/_estimators.py:133-134). -/
noncomputable def matOf (d : ℕ) (a : Arr) : Mat := ⟨a.length, d, fun i j => (a.getD i []).getD j 0⟩

/-- A neural estimator after `estimate` (/repo/workflows/projects/Mixtures/visualizing_critics.py:209-213) and its `trained_critic`
(/repo/src/bmi/estimators/neural/_estimators.py:116-126), which is `None` if there has been no training; then `jax.vmap` raises
`TypeError`. -/
noncomputable def trainedCritic {Θ O : Type} [NormedAddCommGroup Θ] [NormedSpace ℝ Θ] (lib : Lib Key Θ O) (ε : ℝ)
    (formula formulaTest : Formula Point Point) (xs ys : Arr) : Except Err Critic := do
  let est ← NeuralEstimator.mk (Θ := Θ) params
  let (_, est) ← estimateWithInfo lib ε formula formulaTest est (matOf 1 xs) (matOf 1 ys)
  match est.trainedCritic with
  | none => .error .typeError
  | some θ => .ok (lib.call θ)

/-- The three critics. -/
structure Critics where
  nwj : Critic
  dv : Critic
  nce : Critic

/-- `critics_four_balls.pdf` (/repo/workflows/projects/Mixtures/visualizing_critics.py:241-317): the images in the first three columns
(upper, lower), and what the histograms of the last column are made of (upper green and red, lower green and red). -/
structure Figure where
  nwj : Image × Image
  dv : Image × Image
  nce : Image × Image
  upper : List ℝ × List ℝ
  lower : List ℝ × List ℝ

/-- Grids, numbers for the histograms and the figure (/repo/workflows/projects/Mixtures/visualizing_critics.py:220-317). -/
noncomputable def criticsFigure (R : JaxRandom Key) (s : BmmSampler Key) (c : Critics) : Except Err Figure := do
  let pmi ← gridSamplerPmi s (-5, 5) none 101
  let fNwj ← gridCritic c.nwj (-5, 5) none 101
  let fDv ← gridCritic c.dv (-5, 5) none 101
  let fNce ← gridCritic c.nce (-5, 5) none 101
  let fDvMod := removeDvDofs fDv
  let pmiDvMod := removeDvDofs pmi
  let fNceMod := removeNceDofs fNce
  let pmiNceMod := removeNceDofs pmi
  let (xsHist, ysHist) ← s.sample R 25000 (.key (R.prngKey 43))
  let pmiHist ← (s.dist.pmi xsHist ysHist).map (List.map EReal.toReal)
  let fNwjM1Hist := (List.zipWith c.nwj xsHist ysHist).map (· - 1)
  let fDvHist := List.zipWith c.dv xsHist ysHist
  let plot := fun grid => plotGrid grid (some (-5, 5)) none
  .ok ⟨(plot (fNwj.map fun row => row.map (· - 1)), plot pmi), (plot fDvMod, plot pmiDvMod), (plot fNceMod, plot pmiNceMod),
    (pmiHist, fNwjM1Hist), (pmiHist.map (· - average pmiHist), fDvHist.map (· - average fDvHist))⟩

/-- The whole notebook (/repo/workflows/projects/Mixtures/visualizing_critics.py:27-317): the printed number (line 98), the image in
`dist_four_balls.pdf` (182-197), the critics (202-213) and `critics_four_balls.pdf`.  The objectives for training and testing of NWJ,
Donsker-Varadhan and InfoNCE are parameters. -/
noncomputable def notebook {Θ O : Type} [NormedAddCommGroup Θ] [NormedSpace ℝ Θ] (R : JaxRandom Key) (T : Tfp Key) (lib : Lib Key Θ O)
    (ε : ℝ) (nwj dv nce : Formula Point Point × Formula Point Point) : Except Err (EReal × Image × Critics × Figure) := do
  let sampler ← samplerFourBalls R T
  let (mi, sampler) := sampler.mutualInformation R
  let mi ← mi
  let pdfs ← gridSamplerPdf sampler (-5, 5) none 101
  let (xs, ys) ← sampler.sample R 5000 (.key (R.prngKey 42))
  let cNwj ← trainedCritic lib ε nwj.1 nwj.2 xs ys
  let cDv ← trainedCritic lib ε dv.1 dv.2 xs ys
  let cNce ← trainedCritic lib ε nce.1 nce.2 xs ys
  let critics : Critics := ⟨cNwj, cDv, cNce⟩
  let figure ← criticsFigure R sampler critics
  .ok (mi, plotGrid pdfs (some (-5, 5)) none, critics, figure)

end BMI.CriticPlots
