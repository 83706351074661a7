/-
Plots: units, colors of complex numbers, and where and with which limits images and scan positions are drawn
(`tools/plotting/plotting.py:34-113,227-410,488-770,773-990`; keys and sliders of `plot_image`: `Model/Browse`).

Contracts: `imshow` puts the centre of pixel `(i, j)` at the point `(x, y) = (j, i)` before the transform, and `Affine2D.from_values(a, b, c, d, 0, 0)`
maps `(x, y)` to `(a x + c y, b x + d y)`; `np.linalg.lstsq` with independent columns solves the normal equations;
`hsv_to_rgb` is the usual formula. Floats are reals; NaN is the error "NaN".
-/
import Mathlib.Analysis.SpecialFunctions.Complex.Arg
import Mathlib.LinearAlgebra.Matrix.NonsingularInverse
import Verif.Model.Py
import Verif.Model.Fourier
import Verif.Model.HighNA

namespace Cdtools.Plot

/-! ### Units -/

/-- `get_units_factor`, `plotting.py:84-113`, on `units.lower()`: UnboundLocalError (`other 0`) for other names. Simplification:
lower case of ASCII. -/
noncomputable def unitsFactor (units : String) : Except PyExc ℝ :=
  let u := units.toList.map Char.toLower
  if u = "m".toList then .ok 1
  else if u = "cm".toList then .ok 1e2
  else if u = "mm".toList then .ok 1e3
  else if u = "um".toList ∨ u = "$\\mu$m".toList then .ok 1e6
  else if u = "nm".toList then .ok 1e9
  else if u = "a".toList then .ok 1e10
  else if u = "pm".toList then .ok 1e12
  else .error (.other 0)

/-! ### Colors -/

/-- `np.angle(z, deg=1)`. -/
noncomputable def angleDeg (z : ℂ) : ℝ := z.arg * 180 / Real.pi

/-- `x % 360` of floats. -/
noncomputable def mod360 (x : ℝ) : ℝ := x - 360 * ⌊x / 360⌋

/-- `matplotlib.colors.hsv_to_rgb` for one pixel. -/
noncomputable def hsvToRgb (h s v : ℝ) : ℝ × ℝ × ℝ :=
  let i := ⌊h * 6⌋
  let f := h * 6 - i
  let p := v * (1 - s)
  let q := v * (1 - s * f)
  let t := v * (1 - s * (1 - f))
  if i % 6 = 0 then (v, t, p)
  else if i % 6 = 1 then (q, v, p)
  else if i % 6 = 2 then (p, v, t)
  else if i % 6 = 3 then (p, q, v)
  else if i % 6 = 4 then (t, p, v)
  else (v, p, q)

/-- `colorize(z, use_cmocean=False)` of one pixel, given the largest modulus of the image, `plotting.py:58-60,76-81`. -/
noncomputable def colorHue (scaling : ℝ → ℝ) (top : ℝ) (z : ℂ) : ℝ × ℝ × ℝ :=
  hsvToRgb (mod360 (angleDeg z + 170) / 360) 0.85 (scaling (‖z‖ / top))

/-- `colorize(z)` of one pixel with a table of colors, interpolated by `cyc` (a function of the angle), `plotting.py:58-75`. -/
noncomputable def colorTable (cyc : ℝ → Fin 3 → ℝ) (scaling : ℝ → ℝ) (top : ℝ) (z : ℂ) : Fin 3 → ℝ := fun c =>
  cyc (mod360 (angleDeg z + 100)) c * scaling (‖z‖ / top)

open Classical in
/-- `colorize` of an image (`color` is one of the two), `plotting.py:58-81`. The quotient by a largest modulus of zero is NaN;
`np.max` of an empty array raises ValueError. -/
noncomputable def colorize {ι C : Type} [Fintype ι] (color : ℝ → ℂ → C) (im : ι → ℂ) : Except String (ι → C) :=
  if IsEmpty ι then .error "ValueError"
  else if ∀ p, im p = 0 then .error "NaN"
  else .ok fun p => color (⨆ q, ‖im q‖) (im p)

/-! ### Geometry of images -/

/-- The basis of the plot for `view_basis='ortho'`, `plotting.py:333-350`: (y', x). NaN where the columns are parallel. -/
noncomputable def orthoView (B : Matrix (Fin 3) (Fin 2) ℝ) : Vec3 × Vec3 :=
  let n0 : Vec3 := (basisCol B 0).unit
  let n1 : Vec3 := (basisCol B 1).unit
  let z := (Vec3.cross n1 n0).unit
  ((Vec3.cross z n1).unit, n1)

/-- `view_basis / norm(view_basis, axis=0)`, `plotting.py:352-361`. -/
noncomputable def givenView (V : Matrix (Fin 3) (Fin 2) ℝ) : Vec3 × Vec3 := ((basisCol V 0).unit, (basisCol V 1).unit)

/-- `np.stack([y, x], axis=1)[:, ::-1]`: the columns x, y; and `basis[:, ::-1]`. -/
def flipped (v : Vec3 × Vec3) : Matrix (Fin 3) (Fin 2) ℝ := Matrix.of fun i c => if c = 0 then v.2 i else v.1 i

/-- `transform_matrix`, `plotting.py:363-366`, with the basis in the units of the plot. -/
noncomputable def transformMatrix (view : Vec3 × Vec3) (B : Matrix (Fin 3) (Fin 2) ℝ) : Matrix (Fin 2) (Fin 2) ℝ :=
  let V := flipped view
  (V.transpose * V)⁻¹ * (V.transpose * flipped (basisCol B 0, basisCol B 1))

/-- What `plot_image` is asked for, as far as positions are concerned: `basis`, `view_basis` (`none`: 'ortho') and `units`. -/
structure Place where
  basis : Matrix (Fin 3) (Fin 2) ℝ
  view : Option (Matrix (Fin 3) (Fin 2) ℝ)
  units : String

/-- The transform set on the image, `plotting.py:319-368`. NaN or an exception of `lstsq` for dependent basis or view vectors. -/
noncomputable def Place.transform (P : Place) : Except String (Matrix (Fin 2) (Fin 2) ℝ) :=
  match unitsFactor P.units with
  | .error _ => .error "UnboundLocalError"
  | .ok f =>
    let B : Matrix (Fin 3) (Fin 2) ℝ := Matrix.of fun i c => P.basis i c * f
    match P.view with
    | none => if Vec3.cross (basisCol P.basis 0) (basisCol P.basis 1) = 0 then .error "NaN" else .ok (transformMatrix (orthoView B) B)
    | some V => if Vec3.cross (basisCol V 0) (basisCol V 1) = 0 then .error "NaN" else .ok (transformMatrix (givenView V) B)

/-- Where the point `(row, column)` of the image, pixel centres being integers, is drawn. -/
noncomputable def drawnAt (T : Matrix (Fin 2) (Fin 2) ℝ) (row column : ℝ) : Fin 2 → ℝ := T.mulVec ![column, row]

/-- The limits of one axis, `plotting.py:370-379`: least and largest coordinate of the corners. -/
noncomputable def limits (T : Matrix (Fin 2) (Fin 2) ℝ) (h w : ℕ) (c : Fin 2) : ℝ × ℝ :=
  let p := drawnAt T (-0.5) (-0.5) c
  let q := drawnAt T (-0.5) (w - 0.5) c
  let r := drawnAt T (h - 0.5) (-0.5) c
  let s := drawnAt T (h - 0.5) (w - 0.5) c
  (min (min (min p q) r) s, max (max (max p q) r) s)

/-! ### Figures over time -/

/-- What a call of `plot_image` (and `plot_real`, `plot_amplitude`, `plot_phase`, …, which fix `plot_func`) asks for: the data of
the displayed slice (identified by `α`, with its least and largest value), the place, and the color limits. -/
structure Call (α : Type) where
  data : α
  range : α → ℝ × ℝ
  place : Option Place
  vmin : Option ℝ
  vmax : Option ℝ
  updateable : Bool

/-- The image artist `fig._current_im`: data, place and limits. -/
structure Artist (α : Type) where
  data : α
  place : Option Place
  clim : ℝ × ℝ

/-- A figure: the attribute `_current_im`, and whether its axes are (still) in the figure. -/
structure Fig (α : Type) where
  artist : Option (Artist α) := none
  inFigure : Bool := false

/-- `plot_image(im, fig=fig, …)`, `plotting.py:227-262,300-318`: a figure with the attribute only gets new data and, for an
updateable colorbar, new limits. -/
def Fig.plot {α : Type} (F : Fig α) (c : Call α) : Fig α :=
  match F.artist with
  | some a => { F with artist := some { a with data := c.data, clim := if c.updateable then c.range c.data else a.clim } }
  | none => ⟨some ⟨c.data, c.place, (c.vmin.getD (c.range c.data).1, c.vmax.getD (c.range c.data).2)⟩, true⟩

/-- `fig.clear()`, also the first step of `plot_translations` and `plot_nanomap` (`plotting.py:820,920`): the axes are removed,
the attributes stay. -/
def Fig.clear {α : Type} (F : Fig α) : Fig α := { F with inFigure := false }

/-- What is on display. -/
def Fig.shown {α : Type} (F : Fig α) : Option (Artist α) := if F.inFigure then F.artist else none

/-- `plot_phase`, `plotting.py:675-690`: the color limits for the cyclic color map. -/
noncomputable def phaseLimits (cyclic : Bool) (vmin vmax : Option ℝ) : Option ℝ × Option ℝ :=
  if cyclic then (some (vmin.getD (-Real.pi)), some (vmax.getD Real.pi)) else (vmin, vmax)

/-! ### Scan positions -/

/-- The axes of a plot of positions: the points drawn (with the units of the labels) and the direction of the x axis. -/
structure PosAxes where
  points : List (ℝ × ℝ)
  inverted : Bool

/-- `plot_translations`, `plotting.py:818-878`, on a figure which has position axes or none. (`x_min <= x_max` holds iff the axis
is not inverted.) -/
noncomputable def plotTranslations (F : Option PosAxes) (clear invert : Bool) (units : String) (ts : List (ℝ × ℝ)) :
    Except String (Option PosAxes) :=
  match unitsFactor units with
  | .error _ => .error "UnboundLocalError"
  | .ok f =>
    let ax := (if clear then none else F).getD ⟨[], false⟩
    .ok (some ⟨ax.points ++ ts.map fun p => (p.1 * f, p.2 * f),
      if invert then (if ax.inverted then ax.inverted else !ax.inverted) else ax.inverted⟩)

/-- `plot_nanomap`, `plotting.py:917-990`: points with values; `convention.lower() != 'probe'` changes the sign. -/
noncomputable def plotNanomap (convention units : String) (invert : Bool) (ts : List (ℝ × ℝ)) (values : List ℝ) :
    Except String (List ((ℝ × ℝ) × ℝ) × Bool) :=
  match unitsFactor units with
  | .error _ => .error "UnboundLocalError"
  | .ok f =>
    let s : ℝ := if convention.toList.map Char.toLower ≠ "probe".toList then -1 else 1
    if ts.length ≠ values.length then .error "ValueError"
    else .ok ((ts.map fun p => (f * (p.1 * s), f * (p.2 * s))).zip values, invert)

/-- `plot_translations_and_originals`, `fancy_ptycho.py:970-994`; `corrected` is `corrected_translations(dataset)`, `originals` the
translations of the dataset or, without one, those stored in the model. -/
noncomputable def plotBoth (units : String) (originals corrected : List (ℝ × ℝ)) : Except String (Option PosAxes) :=
  (plotTranslations none true true units originals).bind fun F => plotTranslations F false true units corrected

end Cdtools.Plot
