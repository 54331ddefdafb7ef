import Verif.Model.Registry

/-!
Model of the figure of transformed samplers (/repo/scripts/Beyond_Normal/figures/visualise_distributions.py).

A panel is what is handed to the axes: its title, the labels of the axes, the coordinates of the points axis by axis, and for
each point its place in the colour map.  Not modelled: sizes, transparency, spines, panes, ticks, the figure as a file.
-/

namespace BMI.SamplerFigure

open BMI.Samplers BMI.Student BMI.TaskIds BMI.Registry

variable {Key State : Type}

/-- A panel (e.g. /repo/scripts/Beyond_Normal/figures/visualise_distributions.py:29-36). -/
structure Panel where
  title : String
  labels : List String
  axes : List (List ℝ)
  shades : List ℝ

/-- `a.ravel()` (/repo/scripts/Beyond_Normal/figures/visualise_distributions.py:31-32,40,48,56,64). -/
def ravel (a : Arr) : List ℝ := a.flatten

/-- `a[:, j]` (/repo/scripts/Beyond_Normal/figures/visualise_distributions.py:64). -/
def column (a : Arr) (j : ℕ) : Except Err (List ℝ) :=
  a.mapM fun r => match r[j]? with
    | some v => .ok v
    | none => .error .indexError

/-- The smallest and the largest of the numbers, the limits of the colour map which Matplotlib chooses for `c`
(/repo/scripts/Beyond_Normal/figures/visualise_distributions.py:25,32). -/
noncomputable def limits (c : List ℝ) : ℝ × ℝ := (c.foldr min (c.headD 0), c.foldr max (c.headD 0))

open Classical in
/-- The places of the numbers `c` in the colour map (/repo/scripts/Beyond_Normal/figures/visualise_distributions.py:25,32): linear
between the limits, and the lower end if the limits agree. -/
noncomputable def places (c : List ℝ) : List ℝ :=
  c.map fun v => if (limits c).1 = (limits c).2 then 0 else (v - (limits c).1) / ((limits c).2 - (limits c).1)

/-- `ax.scatter(…, c=…)` (/repo/scripts/Beyond_Normal/figures/visualise_distributions.py:32,40,48,56,64): all arrays must have the
same size. -/
noncomputable def scatter (title : String) (labels : List String) (axes : List (List ℝ)) (c : List ℝ) : Except Err Panel :=
  if axes.all (fun a => a.length = c.length) then .ok ⟨title, labels, axes, places c⟩ else .error .valueError

/-- A panel of the plane (/repo/scripts/Beyond_Normal/figures/visualise_distributions.py:30-36,39-44,47-52,55-60). -/
noncomputable def plane (title : String) (labels : List String) (xy : Arr × Arr) (c : List ℝ) : Except Err Panel :=
  scatter title labels [ravel xy.1, ravel xy.2] c

/-- `main` (/repo/scripts/Beyond_Normal/figures/visualise_distributions.py:8-77) for any number of points and seed. -/
noncomputable def panels (R : JaxRandom Key) (N : NpRandom State) (other : Call RegF → Except Err (Built Key State)) (nPoints : ℕ)
    (seed : ℤ) : Except Err (List Panel) := do
  let gaussian ← build R N regVal other (bivariate .f0_75).call
  let uniform ← build R N regVal other (normalCdf (bivariate .f0_75)).call
  match embeddings with
  | [e] => do
    let swissroll ← build R N regVal other e.call
    let halfcube ← build R N regVal other (halfCube (bivariate .f0_75)).call
    let bimodal ← build R N regVal other (bimodal .f0_75).call
    let xy ← gaussian.sample nPoints seed
    let yOriginal := ravel xy.2
    let p1 ← plane "Bivariate Gaussian" ["$X$", "$Y$"] xy yOriginal
    let xy ← uniform.sample nPoints seed
    let p2 ← plane "Correlated uniform" ["CDF$(X)$", "CDF$(Y)$"] xy yOriginal
    let xy ← halfcube.sample nPoints seed
    let p3 ← plane "Half-cube mapping" ["$h(X)$", "$h(Y)$"] xy yOriginal
    let xy ← bimodal.sample nPoints seed
    let p4 ← plane "Making margins bimodal" ["bimodal$(X)$", "bimodal$(Y)$"] xy yOriginal
    let xy ← swissroll.sample nPoints seed
    let x0 ← column xy.1 0
    let x1 ← column xy.1 1
    let p5 ← scatter "Swiss roll mapping" [] [x0, x1, ravel xy.2] yOriginal
    .ok [p1, p2, p3, p4, p5]
  | _ => .error .assertionError

/-- `main` (/repo/scripts/Beyond_Normal/figures/visualise_distributions.py:9-10): 5000 points and seed 0. -/
noncomputable def main (R : JaxRandom Key) (N : NpRandom State) (other : Call RegF → Except Err (Built Key State)) :
    Except Err (List Panel) := panels R N other 5000 0

end BMI.SamplerFigure
