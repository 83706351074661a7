/-
`tools/interactions/interactions.py` and the geometry helpers of `tools/initializers/initializers.py`.

Objects are shape-carrying images (`Img`), probes are functions on `ZMod n × ZMod m` (their length
along each axis is positive). Simplification: floats are real/complex numbers.
-/
import Verif.Model.ImageProc
import Verif.Model.Image
import Mathlib.Algebra.Order.Floor.Ring
import Mathlib.Data.Real.Archimedean
import Mathlib.LinearAlgebra.Matrix.NonsingularInverse

namespace Cdtools
open Finset

/-! ### Slices -/

/-- One bound of a Python/torch slice of an axis of length `N`: negative bounds count from the end,
bounds outside are clipped. -/
def sliceBound (N : ℕ) (x : ℤ) : ℕ := (if x < 0 then max 0 (x + N) else min x N).toNat

/-- The slice `a:b` of an axis of length `N`: start and length. -/
def sliceExtent (N : ℕ) (a b : ℤ) : ℕ × ℕ := (sliceBound N a, sliceBound N b - sliceBound N a)

variable {n m : ℕ} [NeZero n] [NeZero m]

/-- `obj[a : a + n, b : b + m]` for multiplication with an `n × m` probe: an error unless the slice
has the probe's shape. Simplification: a slice of length one, which torch would broadcast, is an
error too. -/
def objWindow (n m : ℕ) (obj : Img ℂ) (a b : ℤ) : Except String (Wave n m) :=
  let s0 := sliceExtent obj.h a (a + n)
  let s1 := sliceExtent obj.w b (b + m)
  if s0.2 = n ∧ s1.2 = m then .ok fun i j => obj.px (s0.1 + i.val) (s1.1 + j.val)
  else .error "RuntimeError"

/-- `torch.round`: to the nearest integer, halves to the even one. -/
noncomputable def roundHalfEven (x : ℝ) : ℤ :=
  if x - ⌊x⌋ < 1 / 2 then ⌊x⌋
  else if 1 / 2 < x - ⌊x⌋ then ⌊x⌋ + 1
  else if ⌊x⌋ % 2 = 0 then ⌊x⌋ else ⌊x⌋ + 1

/-! ### Object geometry -/

/-- `t.min(translations, dim=0)[0]` on one axis. -/
noncomputable def minList (a : ℝ) (l : List ℝ) : ℝ := l.foldl min a

/-- `t.max(translations, dim=0)[0]` on one axis. -/
noncomputable def maxList (a : ℝ) (l : List ℝ) : ℝ := l.foldl max a

/-- `calc_object_setup`, `initializers.py:86-127`, on one axis of a non-empty list of translations
`a :: l`: object length and minimum translation. -/
noncomputable def objectSetup (probe : ℕ) (a : ℝ) (l : List ℝ) (padding : ℤ) : ℤ × ℝ :=
  let minT := minList a l
  let range := maxList a l - minT
  (⌈range⌉ + probe + 2 * padding, minT - padding)

/-! ### The interaction functions -/

/-- `ptycho_2D_round`, `interactions.py:229-293` (`upsample_obj=False`), for one translation and one
mode. -/
noncomputable def roundExit (probe : Wave n m) (obj : Img ℂ) (tr : ℝ × ℝ) :
    Except String (Wave n m) :=
  (objWindow n m obj (roundHalfEven tr.1) (roundHalfEven tr.2)).map fun sel i j => probe i j * sel i j

/-- The probe moved by one pixel along axis 1 with wrap-around: `t.cat((probe[:,-1:], probe[:,:-1]))`,
`interactions.py:336`. -/
def catRoll1 (p : Wave n m) : Wave n m := fun i j => p i (j - 1)

/-- Along axis 0, `interactions.py:337`. -/
def catRoll0 (p : Wave n m) : Wave n m := fun i j => p (i - 1) j

/-- `ptycho_2D_linear`, `interactions.py:297-389`, for one translation. -/
noncomputable def linearExit (shiftProbe : Bool) (probe : Wave n m) (obj : Img ℂ) (tr : ℝ × ℝ) :
    Except String (Wave n m) :=
  let t0 := ⌊tr.1⌋
  let t1 := ⌊tr.2⌋
  let sp0 : ℂ := ((tr.1 - t0 : ℝ) : ℂ)
  let sp1 : ℂ := ((tr.2 - t1 : ℝ) : ℂ)
  if shiftProbe then
    let sel01 := catRoll1 probe
    let sel10 := catRoll0 probe
    let sel11 := catRoll0 sel01
    (objWindow n m obj t0 t1).map fun o i j =>
      (probe i j * (1 - sp0) * (1 - sp1) + sel10 i j * sp0 * (1 - sp1) +
        sel01 i j * (1 - sp0) * sp1 + sel11 i j * sp0 * sp1) * o i j
  else
    (objWindow n m obj t0 t1).bind fun sel00 =>
    (objWindow n m obj t0 (t1 + 1)).bind fun sel01 =>
    (objWindow n m obj (t0 + 1) t1).bind fun sel10 =>
    (objWindow n m obj (t0 + 1) (t1 + 1)).map fun sel11 i j =>
      probe i j * (sel00 i j * (1 - sp0) * (1 - sp1) + sel01 i j * (1 - sp0) * sp1 +
        sel10 i j * sp0 * (1 - sp1) + sel11 i j * sp0 * sp1)

/-- The subpixel phase mask of `ptycho_2D_sinc`, `interactions.py:459-468`. -/
noncomputable def phaseMask (sp0 sp1 : ℝ) : Wave n m := fun a b =>
  Complex.exp (Complex.I * (-(sp0 : ℂ) * (2 * Real.pi * ((a.val : ℂ) - ((n / 2 : ℕ) : ℂ)) / n) -
    (sp1 : ℂ) * (2 * Real.pi * ((b.val : ℂ) - ((m / 2 : ℕ) : ℂ)) / m)))

/-- `ptycho_2D_sinc`, `interactions.py:392-502`, for one translation and one mode. -/
noncomputable def sincExit (shiftBack : Bool) (probe : Wave n m) (obj : Img ℂ) (tr : ℝ × ℝ) :
    Except String (Wave n m) :=
  let t0 := ⌊tr.1⌋
  let t1 := ⌊tr.2⌋
  let mask : Wave n m := phaseMask (tr.1 - t0) (tr.2 - t1)
  let shifted := ifft2 (ifftshift2 fun a b => fftshift2 (fft2 probe) a b * mask a b)
  (objWindow n m obj t0 t1).map fun sel =>
    let output : Wave n m := fun i j => shifted i j * sel i j
    if shiftBack then
      ifft2 (ifftshift2 fun a b => fftshift2 (fft2 output) a b * (starRingEnd ℂ) (mask a b))
    else output

/-- The stacking over translations and modes common to `ptycho_2D_round` and `ptycho_2D_sinc`
(`multiple_modes=True`): exit wave `[k][p]` is mode `p` at translation `k`. -/
noncomputable def exitWaves (f : Wave n m → Img ℂ → ℝ × ℝ → Except String (Wave n m))
    (probe : List (Wave n m)) (obj : Img ℂ) (translations : List (ℝ × ℝ)) :
    Except String (List (List (Wave n m))) :=
  translations.mapM fun tr => probe.mapM fun p => f p obj tr

/-! ### Real space to pixels -/

/-- `torch.pinverse` of a 3 × 2 matrix with independent columns. -/
noncomputable def pinvTall (B : Matrix (Fin 3) (Fin 2) ℝ) : Matrix (Fin 2) (Fin 3) ℝ :=
  (B.transpose * B)⁻¹ * B.transpose

/-- `torch.pinverse` of a 2 × 3 matrix with independent rows. -/
noncomputable def pinvWide (M : Matrix (Fin 2) (Fin 3) ℝ) : Matrix (Fin 3) (Fin 2) ℝ :=
  M.transpose * (M * M.transpose)⁻¹

/-- `projection_1`. -/
def projection1 : Matrix (Fin 3) (Fin 3) ℝ := !![1, 0, 0; 0, 1, 0; 0, 0, 0]

/-- `projection_2` before its inversion. -/
noncomputable def projection2 (nrm : Fin 3 → ℝ) : Matrix (Fin 3) (Fin 3) ℝ :=
  !![1, 0, 0; 0, 1, 0; -nrm 0 / nrm 2, -nrm 1 / nrm 2, -nrm 2 / nrm 2]

/-- The 2 × 3 matrix `projection` of `translations_to_pixel` and `pixel_to_translations`,
`interactions.py:47-60,110-119`. -/
noncomputable def pixelProjection (B : Matrix (Fin 3) (Fin 2) ℝ) (nrm : Fin 3 → ℝ) :
    Matrix (Fin 2) (Fin 3) ℝ :=
  pinvTall B * ((projection2 nrm)⁻¹ * projection1)

/-- `translations_to_pixel`, `interactions.py:18-74`, of one translation. -/
noncomputable def translationsToPixel (B : Matrix (Fin 3) (Fin 2) ℝ) (nrm : Fin 3 → ℝ)
    (t : Fin 3 → ℝ) : Fin 2 → ℝ :=
  (pixelProjection B nrm).mulVec t

/-- `pixel_to_translations`, `interactions.py:77-130`, of one pixel translation. -/
noncomputable def pixelToTranslations (B : Matrix (Fin 3) (Fin 2) ℝ) (nrm : Fin 3 → ℝ)
    (p : Fin 2 → ℝ) : Fin 3 → ℝ :=
  (pinvWide (pixelProjection B nrm)).mulVec p

/-- The surface normal of the sample, `interactions.py:173-174`: the normalized cross product of the
second and the first basis vector. -/
noncomputable def sampleNormal (B : Matrix (Fin 3) (Fin 2) ℝ) : Vec3 :=
  (Vec3.cross (fun i => B i 1) (fun i => B i 0)).unit

/-- `pinverse(mat)[:, :3]`, `interactions.py:190-196`: `mat` stacks `I - z zᵀ` on the normal and has
independent columns. -/
noncomputable def sampleProjector (B : Matrix (Fin 3) (Fin 2) ℝ) : Matrix (Fin 3) (Fin 3) ℝ :=
  let nrm := sampleNormal B
  let top : Matrix (Fin 3) (Fin 3) ℝ :=
    1 - Matrix.of fun i j => (![0, 0, 1] : Fin 3 → ℝ) i * (![0, 0, 1] : Fin 3 → ℝ) j
  let gram : Matrix (Fin 3) (Fin 3) ℝ := top.transpose * top + Matrix.of fun i j => nrm i * nrm j
  gram⁻¹ * top.transpose

/-- `project_translations_to_sample`, `interactions.py:134-224`, of one translation. -/
noncomputable def projectToSample (B : Matrix (Fin 3) (Fin 2) ℝ) (t : Fin 3 → ℝ) :
    (Fin 2 → ℝ) × ℝ :=
  ((pinvTall B * sampleProjector B).mulVec t, (sampleProjector B).mulVec t 2 - t 2)

/-- `exit_wave_geometry`, `initializers.py:31-70`: the transposed pseudo-inverse of the detector basis
scaled by the detector shape, times wavelength and distance. The parameter `oversampling` is not
used by the code. -/
noncomputable def exitWaveGeometry (B : Matrix (Fin 3) (Fin 2) ℝ) (shape : Fin 2 → ℕ)
    (wavelength distance : ℝ) (_oversampling : ℕ) : Matrix (Fin 3) (Fin 2) ℝ :=
  let scaled : Matrix (Fin 3) (Fin 2) ℝ := Matrix.of fun i j => B i j * (shape j : ℝ)
  (wavelength * distance) • (pinvTall scaled).transpose

/-! ### RPI -/

/-- `RPI_interaction`, `interactions.py:599-656`, of an `n × m` probe with an `a × b` object no larger
than it. -/
noncomputable def rpiUpsample {a b : ℕ} [NeZero a] [NeZero b] (n m : ℕ) [NeZero n] [NeZero m]
    (obj : Wave a b) : Wave n m :=
  let pad2l := n / 2 - a / 2
  let pad1l := m / 2 - b / 2
  let padded : Wave n m := fun k l =>
    if pad2l ≤ k.val ∧ k.val < pad2l + a ∧ pad1l ≤ l.val ∧ l.val < pad1l + b then
      farField obj ((k.val - pad2l : ℕ) : ZMod a) ((l.val - pad1l : ℕ) : ZMod b) else 0
  fun i j => (Real.sqrt ((n * m : ℝ) / (a * b)) : ℂ) * inverseFarField padded i j

/-- The exit wave. -/
noncomputable def rpiInteraction {a b : ℕ} [NeZero a] [NeZero b] (probe : Wave n m) (obj : Wave a b) :
    Wave n m := fun i j => probe i j * rpiUpsample n m obj i j

end Cdtools
