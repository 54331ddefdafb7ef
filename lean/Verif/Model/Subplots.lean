import Verif.Model.Basic
import Mathlib.Data.Real.Basic

/-!
Model of /repo/src/bmi/plot_utils/subplots_from_axsize.py.  Lengths are real numbers (inches).

Third-party behaviour that is assumed: an `axes_grid1.Divider` that fills the figure and has only `Size.Fixed` entries
gives the cell `(nx, ny)` the rectangle whose lower left corner is found by adding up the preceding sizes, horizontally
from the left and vertically from the bottom.  Not modelled: the default values of the arguments and drawing.
-/

namespace BMI.Subplots

/-- A length or a list of lengths (the arguments `axsize[0]`, `axsize[1]`, `hspace`, `wspace`,
/repo/src/bmi/plot_utils/subplots_from_axsize.py:48-57). -/
inductive SizeArg where
  | one (s : ℝ)
  | many (l : List ℝ)

/-- `_normalize_axsizes_and_axcounts` (/repo/src/bmi/plot_utils/subplots_from_axsize.py:19-34). -/
def normalize (axs : SizeArg) (axc : Option ℤ) : Except Err (List ℝ × ℤ) :=
  match axs with
  | .many l =>
    match axc with
    | none => .ok (l, l.length)
    | some c => if c = l.length then .ok (l, c) else .error .assertionError
  | .one s =>
    let c := axc.getD 1
    .ok ((List.range c.toNat).map fun _ => s, c)

/-- `_make_sizes` (/repo/src/bmi/plot_utils/subplots_from_axsize.py:37-44). -/
def makeSizes (start : ℝ) (axs : List ℝ) (stop : ℝ) (spaces : List ℝ) : Except Err (List ℝ × ℝ) :=
  if (spaces.length : ℤ) = (axs.length : ℤ) - 1 then
    match axs.getLast? with
    | none => .error .indexError
    | some l =>
      let lengths := [start] ++ ((axs.zip spaces).flatMap fun p => [p.1, p.2]) ++ [l, stop]
      .ok (lengths, lengths.sum)
  else .error .assertionError

/-- The rectangle of an axes object in inches, measured from the lower left corner of the figure
(what the locator at /repo/src/bmi/plot_utils/subplots_from_axsize.py:86 returns). -/
structure Rect where
  x0 : ℝ
  y0 : ℝ
  width : ℝ
  height : ℝ

/-- `divider.new_locator(nx, ny)` (/repo/src/bmi/plot_utils/subplots_from_axsize.py:80-91), third-party. -/
def locate (w h : List ℝ) (nx ny : ℕ) : Except Err Rect :=
  match w[nx]?, h[ny]? with
  | some a, some b => .ok ⟨(w.take nx).sum, (h.take ny).sum, a, b⟩
  | _, _ => .error .indexError

/-- The second component of the result (/repo/src/bmi/plot_utils/subplots_from_axsize.py:94-100): a single axes object
or an array with one or two dimensions. -/
inductive Axes where
  | single (r : Rect)
  | row (l : List Rect)
  | grid (g : List (List Rect))

/-- `np.squeeze` and the final unpacking (/repo/src/bmi/plot_utils/subplots_from_axsize.py:94-100) for an array with
`nrows` rows and `ncols` columns. -/
def pack (g : List (List Rect)) (nrows ncols : ℕ) (squeeze : Bool) : Axes :=
  match g.flatten with
  | [r] => .single r
  | l => if squeeze && (nrows == 1 || ncols == 1) then .row l else .grid g

/-- `subplots_from_axsize` (/repo/src/bmi/plot_utils/subplots_from_axsize.py:47-100): the size of the figure and the
axes. -/
def subplots (axx axy : SizeArg) (nrows ncols : Option ℤ) (top bottom left right : ℝ) (hspace wspace : SizeArg)
    (squeeze : Bool) : Except Err ((ℝ × ℝ) × Axes) := do
  let (axx, ncols) ← normalize axx ncols
  let (axy, nrows) ← normalize axy nrows
  let (hs, _) ← normalize hspace (some (nrows - 1))
  let (ws, _) ← normalize wspace (some (ncols - 1))
  let (wSizes, totalW) ← makeSizes left axx right ws
  let (hSizes, totalH) ← makeSizes top axy bottom hs
  let hRev := hSizes.reverse
  let axs ← ((List.range nrows.toNat).reverse).mapM fun row =>
    (List.range ncols.toNat).mapM fun col => locate wSizes hRev (2 * col + 1) (2 * row + 1)
  .ok ((totalW, totalH), pack axs nrows.toNat ncols.toNat squeeze)

end BMI.Subplots
