import Mathlib.Data.List.Sort
import Verif.Model.Analysis

/-!
# Model of `gwinferno/postprocess/plot.py`

Drawing calls are recorded rather than rendered: a figure is the list of curves drawn on it, and saving a figure records the file
name with those curves.  Axis limits, figure sizes, transparency, legends, `plt.show` and the image bytes are not modelled; neither
is the blank figure some interactive backends leave behind after `plt.show`.
-/

noncomputable section
open Classical
namespace GW
open F

/-- `np.sort` of an array without NaN. -/
def sortF (c : List F) : List F := c.insertionSort F.le

/-- The interpolation `a + (b - a) * t` of `np.percentile`. -/
def lerpF (a b : F) (t : ℝ) : F := a + (b - a) * fin t

/-- `np.percentile(c, q)` on one column (numpy's default, linear, method): NaN as soon as one entry is NaN; otherwise the sorted
entries are interpolated at the virtual index `q/100 * (n - 1)`.  Used by plot.py:7-8. -/
def percentileF (c : List F) (q : ℝ) : F :=
  if nan ∈ c then nan
  else
    let s := sortF c
    let v := q / 100 * ((c.length : ℝ) - 1)
    lerpF (s.getD ⌊v⌋₊ nan) (s.getD (min (⌊v⌋₊ + 1) (c.length - 1)) nan) (v - ⌊v⌋₊)

/-- `np.median(c)` on one column: NaN as soon as one entry is NaN; otherwise the middle entry, or the mean of the two middle
entries.  Used by plot.py:6. -/
def medianF (c : List F) : F :=
  if nan ∈ c then nan
  else
    let s := sortF c
    if c.length % 2 = 1 then s.getD (c.length / 2) nan
    else (s.getD (c.length / 2 - 1) nan + s.getD (c.length / 2) nan) / fin 2

/-- An array of curves: one row per posterior draw, `width` grid points. -/
structure Curves where
  rows : List (ℕ → F)
  width : ℕ

/-- `pdf[:, j]` -/
def Curves.col (p : Curves) (j : ℕ) : List F := p.rows.map fun r => r j

/-- What one call of `plot_pdf` draws. -/
structure Drawn where
  x : List ℝ
  med : List F
  low : List F
  high : List F
  label : String
  color : String
  loglog : Bool

/-- plot.py:5-15 `plot_pdf`.  Without draws `np.percentile` raises `IndexError`; matplotlib raises `ValueError` when the grid and
the curves have different lengths. -/
def plot_pdf (x : List ℝ) (pdf : Curves) (label color : String) (loglog : Bool := true) : Except PyErr Drawn :=
  if pdf.rows = [] then .error .indexError
  else if x.length ≠ pdf.width then .error .valueError
  else .ok
    { x := x
      med := (List.range pdf.width).map fun j => medianF (pdf.col j)
      low := (List.range pdf.width).map fun j => percentileF (pdf.col j) 5
      high := (List.range pdf.width).map fun j => percentileF (pdf.col j) 95
      label := label
      color := color
      loglog := loglog }

/-- `xs[i]` with a non-negative index. -/
def pyGet {α : Type} (xs : List α) (i : ℕ) : Except PyErr α :=
  match xs[i]? with
  | some a => .ok a
  | none => .error .indexError

/-- The loops `for i in range(n): plot_pdf(x, pdfs[i], names[i], color=colors[i], loglog=...)` (plot.py:21-22, 33-34, 55-56, 66-67). -/
def plotLoop (x : List ℝ) (pdfs : List Curves) (names colors : List String) (loglog : Bool) : ℕ → Except PyErr (List Drawn)
  | 0 => .ok []
  | n + 1 => do
    let ds ← plotLoop x pdfs names colors loglog n
    let p ← pyGet pdfs n
    let nm ← pyGet names n
    let c ← pyGet colors n
    let d ← plot_pdf x p nm c loglog
    .ok (ds ++ [d])

/-- plot.py:18, 46: the default `colors` -/
def defaultColors : List String := ["red", "blue", "green"]

/-- The files written, with the curves on them, and the exception that ended the call if there was one. -/
abbrev Saved := List (String × List Drawn) × Option PyErr

/-- The two-figure functions: draw the first figure, save it, draw the second, save it. -/
def twoFigures (first second : Except PyErr (List Drawn)) (file1 file2 : String) (save : Bool) : Saved :=
  match first with
  | .error e => ([], some e)
  | .ok d1 =>
    let f1 := if save then [(file1, d1)] else []
    match second with
    | .error e => (f1, some e)
    | .ok d2 => (f1 ++ if save then [(file2, d2)] else [], none)

/-- plot.py:18-43 `plot_mass_pdfs`: both loops run over `range(len(mpdfs))`. -/
def plot_mass_pdfs (mpdfs qpdfs : List Curves) (m1 q : List ℝ) (names : List String) (label result_dir : String) (save : Bool := true)
    (colors : List String := defaultColors) : Saved :=
  twoFigures (plotLoop m1 mpdfs names colors true mpdfs.length) (plotLoop q qpdfs names colors false mpdfs.length)
    (result_dir ++ ("/mass_pdf_" ++ label ++ ".png")) (result_dir ++ ("/mass_ratio_pdf_" ++ label ++ ".png")) save

/-- plot.py:46-75 `plot_spin_pdfs` -/
def plot_spin_pdfs (a_pdfs tilt_pdfs : List Curves) (aa cc : List ℝ) (names : List String) (label result_dir : String)
    (save : Bool := true) (colors : List String := defaultColors) (secondary : Bool := false) : Saved :=
  let comp := if secondary then "2" else "1"
  twoFigures (plotLoop aa a_pdfs names colors false a_pdfs.length) (plotLoop cc tilt_pdfs names colors false tilt_pdfs.length)
    (result_dir ++ ("/spin_mag" ++ comp ++ "_pdf_" ++ label ++ ".png"))
    (result_dir ++ ("/cos_tilt" ++ comp ++ "_pdf_" ++ label ++ ".png")) save

/-- plot.py:78-90 `plot_rate_of_z_pdfs` -/
def plot_rate_of_z_pdfs (z_pdfs : Curves) (z : List ℝ) (label result_dir : String) (save : Bool := true) : Saved :=
  match plot_pdf z z_pdfs "redshift" "blue" true with
  | .error e => ([], some e)
  | .ok d => (if save then [(result_dir ++ ("/redshift_pdf_" ++ label ++ ".png"), [d])] else [], none)

end GW
