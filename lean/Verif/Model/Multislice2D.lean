/-
`models/multislice_2d_ptycho.py` (`Multislice2DPtycho`): the interlayer propagator, the forward model for one exposure,
`tidy_probes`, `corrected_translations` and the first call of `from_dataset`.

Floats are real/complex numbers. Not modelled: devices and dtypes, plotting, `save_results`, the rest of `from_dataset`
(never reached, see `multi2DFromDataset`).
-/
import Verif.Model.Multislice
import Verif.Model.ImageProc

namespace Cdtools
open Finset Matrix

instance instNeZeroTwoMul {n : ℕ} [NeZero n] : NeZero (2 * n) := ⟨by have := NeZero.ne n; omega⟩

/-- A `Multislice2DPtycho` model with `k` probe modes on an `n × m` grid and `N` exposures,
`multislice_2d_ptycho.py:30-178`. `obj` is one slice used `nz` times (a two-dimensional array) or a stack of slices. -/
structure Multi2D (n m N k : ℕ) where
  probe : Fin k → Wave n m
  probeNorm : ℝ
  support : ZMod n → ZMod m → Bool
  weights : Option (Weights N k)
  fourierProbe : Bool
  obj : Img ℂ ⊕ List (Img ℂ)
  nz : ℕ
  exponentiate : Bool
  phaseOnly : Bool
  subpixel : Bool
  preventAliasing : Bool
  wavelength : ℝ
  dz : ℝ
  bandlimit : Option ℝ
  basis : Matrix (Fin 3) (Fin 2) ℝ
  normal : Fin 3 → ℝ
  minTranslation : Fin 2 → ℝ
  translationScale : ℝ
  offsets : Option (Fin N → Fin 2 → ℝ)
  detectorSlice : Option DetSlice
  oversampling : ℕ
  background : Img ℝ
  saturation : Option ℝ

variable {n m N k : ℕ} [NeZero n] [NeZero m]

/-- `np.linalg.norm(self.probe_basis, axis=0)`, `multislice_2d_ptycho.py:150`. -/
noncomputable def Multi2D.spacing (M : Multi2D n m N k) (c : Fin 2) : ℝ :=
  Real.sqrt (M.basis 0 c ^ 2 + M.basis 1 c ^ 2 + M.basis 2 c ^ 2)

/-- The signature `generate_angular_spectrum_propagator(shape, spacing, wavelength, z, *args, bandlimit=None, **kwargs)`,
`propagators.py:324`: further positional arguments are collected in `args`, which the body does not use. -/
noncomputable def angularSpectrumCall (a b : ℕ) [NeZero a] [NeZero b] (dx dy lam z : ℝ) (_args : List (Option ℝ))
    (bandlimit : Option ℝ := none) : Wave a b :=
  angularSpectrum a b dx dy lam z bandlimit

/-- `as_prop` without aliasing prevention, `multislice_2d_ptycho.py:150-158`: the band limit is the fifth positional
argument. -/
noncomputable def Multi2D.prop1 (M : Multi2D n m N k) : Wave n m :=
  angularSpectrumCall n m (M.spacing 0) (M.spacing 1) M.wavelength M.dz [M.bandlimit]

/-- `as_prop` with `prevent_aliasing`: twice the shape, half the spacing, `multislice_2d_ptycho.py:152-158`. -/
noncomputable def Multi2D.prop2 (M : Multi2D n m N k) : Wave (2 * n) (2 * m) :=
  angularSpectrumCall (2 * n) (2 * m) (M.spacing 0 / 2) (M.spacing 1 / 2) M.wavelength M.dz [M.bandlimit]

/-- `pix_trans`, `multislice_2d_ptycho.py:328-334`. -/
noncomputable def Multi2D.pixTrans (M : Multi2D n m N k) (idx : Fin N) (t : Fin 3 → ℝ) : Fin 2 → ℝ :=
  let p := translationsToPixel M.basis M.normal t - M.minTranslation
  match M.offsets with
  | none => p
  | some o => p + M.translationScale • o idx

/-- The support and the transformation of a Fourier probe to real space, `multislice_2d_ptycho.py:337-344`. -/
noncomputable def Multi2D.realSpace (M : Multi2D n m N k) (p : Wave n m) : Wave n m :=
  let q : Wave n m := fun x y => p x y * (if M.support x y then 1 else 0)
  if M.fourierProbe then inverseFarField q else q

/-- The transmission of a slice, `multislice_2d_ptycho.py:365-371`. -/
noncomputable def Multi2D.transmission (M : Multi2D n m N k) (o : Img ℂ) : Img ℂ :=
  if M.exponentiate then
    if M.phaseOnly then o.map fun z => Complex.exp (Complex.I * (z.re : ℂ))
    else o.map fun z => Complex.exp (Complex.I * z)
  else o

/-- The slices of the loop, `multislice_2d_ptycho.py:377-406`; IndexError if the stack has fewer than `nz`. -/
def Multi2D.slices (M : Multi2D n m N k) : Except String (List (Img ℂ)) :=
  match M.obj with
  | .inl o => .ok (List.replicate M.nz o)
  | .inr l => if M.nz ≤ l.length then .ok (l.take M.nz) else .error "IndexError"

/-- How a wave passes a slice: by `ptycho_2D_sinc` or by `ptycho_2D_round`, given the selected window of the object. -/
structure Pass (a b : ℕ) where
  sinc : Bool
  sel : Wave a b

/-- One slice: `ptycho_2D_sinc` (`interactions.py:459-495`) or `ptycho_2D_round` (283-290). -/
noncomputable def Pass.run {a b : ℕ} [NeZero a] [NeZero b] (tr : ℝ × ℝ) (s : Pass a b) (w : Wave a b) : Wave a b :=
  if s.sinc then sincApply false tr s.sel w else fun i j => w i j * s.sel i j

/-- The loop over the slices with `near_field` on all but the last iteration, `multislice_2d_ptycho.py:377-415`. -/
noncomputable def runPasses {a b : ℕ} [NeZero a] [NeZero b] (tr : ℝ × ℝ) (prop : Wave a b) :
    List (Pass a b) → Wave a b → Wave a b
  | [], w => w
  | [s], w => s.run tr w
  | s :: s' :: l, w => runPasses tr prop (s' :: l) (nearField prop (s.run tr w))

/-- The window of slice number `i` without aliasing prevention: `ptycho_2D_sinc` on the first slice if `subpixel`
(positions rounded down, `interactions.py:437`), else `ptycho_2D_round` (rounded to the nearest, 268). -/
noncomputable def Multi2D.pass1 (M : Multi2D n m N k) (tr : ℝ × ℝ) (o : Img ℂ × ℕ) : Except String (Pass n m) :=
  if o.2 = 0 ∧ M.subpixel then
    (objWindow n m (M.transmission o.1) ⌊tr.1⌋ ⌊tr.2⌋).map fun sel => ⟨true, sel⟩
  else (objWindow n m (M.transmission o.1) (roundHalfEven tr.1) (roundHalfEven tr.2)).map fun sel => ⟨false, sel⟩

/-- The same with aliasing prevention, where the waves have twice the shape: `ptycho_2D_sinc` selects a window of the shape
of the wave; `ptycho_2D_round` with `upsample_obj` selects half of it and upsamples (`interactions.py:270-275`). -/
noncomputable def Multi2D.pass2 (M : Multi2D n m N k) (tr : ℝ × ℝ) (o : Img ℂ × ℕ) :
    Except String (Pass (2 * n) (2 * m)) :=
  if o.2 = 0 ∧ M.subpixel then
    (objWindow (2 * n) (2 * m) (M.transmission o.1) ⌊tr.1⌋ ⌊tr.2⌋).map fun sel => ⟨true, sel⟩
  else (objWindow n m (M.transmission o.1) (roundHalfEven tr.1) (roundHalfEven tr.2)).map fun sel =>
    ⟨false, fourierUpsample 2 true sel⟩

/-- One mode to the detector without aliasing prevention: `multislice_2d_ptycho.py:376-415,427`. -/
noncomputable def Multi2D.toDetector1 (M : Multi2D n m N k) (tr : ℝ × ℝ) (l : List (Pass n m)) (p : Wave n m) : Wave n m :=
  farField (runPasses tr M.prop1 l fun x y => (M.probeNorm : ℂ) * p x y)

/-- With aliasing prevention: the probe is upsampled (`multislice_2d_ptycho.py:346-348`; linear, so upsampling the probes of
the exposure is the same), and of the far field the middle `n//2 : n//2 + n` is kept (419-425). -/
noncomputable def Multi2D.toDetector2 (M : Multi2D n m N k) (tr : ℝ × ℝ) (l : List (Pass (2 * n) (2 * m)))
    (p : Fin k → Wave n m) (W : Weights N k) (idx : Fin N) (u : Fin W.rank) : Wave n m :=
  let up := shotProbes W idx fun j => fourierUpsample 2 false (p j)
  let F : Wave (2 * n) (2 * m) := farField (runPasses tr M.prop2 l fun x y => (M.probeNorm : ℂ) * up u x y)
  fun x y => F ((n / 2 + x.val : ℕ) : ZMod (2 * n)) ((m / 2 + y.val : ℕ) : ZMod (2 * m))

/-- `measurement`, `multislice_2d_ptycho.py:430-436`. -/
noncomputable def Multi2D.measure (M : Multi2D n m N k) (I : Img ℝ) : Img ℝ :=
  measQuadratic { slice := M.detectorSlice, saturation := M.saturation, oversampling := M.oversampling } M.background none I

/-- `forward` for one exposure, `multislice_2d_ptycho.py:327-436`. TypeError: `self.weights[index]` without weights. -/
noncomputable def Multi2D.forward (M : Multi2D n m N k) (idx : Fin N) (t : Fin 3 → ℝ) : Except String (Img ℝ) :=
  let tr : ℝ × ℝ := (M.pixTrans idx t 0, M.pixTrans idx t 1)
  match M.weights with
  | none => .error "TypeError"
  | some W =>
    let basis : Fin k → Wave n m := fun j => M.realSpace (M.probe j)
    M.slices.bind fun sl =>
      if M.preventAliasing then
        (sl.zipIdx.mapM (M.pass2 tr)).map fun l =>
          M.measure (sumModes n m (List.ofFn fun u => fun x y => M.toDetector2 tr l basis W idx u x y))
      else
        (sl.zipIdx.mapM (M.pass1 tr)).map fun l =>
          M.measure (sumModes n m (List.ofFn fun u => fun x y => M.toDetector1 tr l (shotProbes W idx basis u) x y))

/-- `tidy_probes`, `multislice_2d_ptycho.py:519-596`. `self.probe` is a property that builds a new tensor from
`probe_real` and `probe_imag`, so the assignments `self.probe.data = ...` (541, 579) have no effect, and the norms of
line 594 are those of the old probes. Errors: no weights (AttributeError), another number of modes than before in the new
basis (RuntimeError), a vanishing mode ("NaN"). -/
noncomputable def Multi2D.tidy (la : LinAlg) (M : Multi2D n m N k) : Except String (Multi2D n m N k) :=
  match M.weights with
  | none => .error "AttributeError"
  | some (.perShot _) => .ok M
  | some (.matrices r W) =>
    let q := tidyBasis la M.probe W
    let σ := sqrtIntensities M.probe
    if h : tidyModes N r k (n * m) = k then
      if ∀ i, σ i ≠ 0 then
        .ok { M with weights := some (.matrices (min r k) fun i =>
          tidyShot la σ ((q.2 i).submatrix id (Fin.cast h.symm))) }
      else .error "NaN"
    else .error "RuntimeError"

/-- `corrected_translations`, `multislice_2d_ptycho.py:501-504`, of exposure `idx`; TypeError without offsets
(`None * translation_scale`). -/
noncomputable def Multi2D.correctedTranslation (M : Multi2D n m N k) (idx : Fin N) (t : Fin 3 → ℝ) :
    Except String (Fin 3 → ℝ) :=
  match M.offsets with
  | none => .error "TypeError"
  | some o => .ok (t + pixelToTranslations M.basis M.normal (M.translationScale • o idx))

/-! ### from_dataset -/

/-- Python's binding of keyword arguments for a function without `**kwargs`: TypeError for an unknown name, or one that is
already bound by position. -/
def bindKeywords (params : List String) (positional : ℕ) (keywords : List String) : Except PyExc Unit :=
  if keywords.all (params.drop positional).contains then .ok () else .error .typeError

/-- The parameters of `exit_wave_geometry`, `initializers.py:31`. -/
def exitWaveGeometryParams : List String := ["det_basis", "det_shape", "wavelength", "distance", "oversampling"]

/-- `from_dataset`, `multislice_2d_ptycho.py:178-205`: up to the call of `exit_wave_geometry`; `rest` is what would follow. -/
def multi2DFromDataset {α β : Type} (rest : α → Except PyExc β) (dataset : α) : Except PyExc β :=
  (bindKeywords exitWaveGeometryParams 4 ["center", "padding", "oversampling"]).bind fun _ => rest dataset

end Cdtools
