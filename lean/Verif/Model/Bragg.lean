/-
`models/bragg_2d_ptycho.py` (`Bragg2DPtycho`): the forward model for one exposure and the parts of `from_dataset` that
differ from `FancyPtycho`.

Floats are real/complex numbers. Not modelled: devices and dtypes, plotting.
-/
import Verif.Model.FancyPtycho
import Verif.Model.HighNA

namespace Cdtools
open Finset Matrix

/-- A `Bragg2DPtycho` model with `k` probe modes on an `n × m` grid, exit waves on an `a × b` grid (the oversampled
background) and `N` exposures, `bragg_2d_ptycho.py:60-263`. `tilt` holds `k_map` and `intensity_map`. -/
structure Bragg (n m a b N k : ℕ) where
  probe : Fin k → Wave n m
  probeNorm : ℝ
  support : ZMod n → ZMod m → Bool
  weights : Option (Fin N → ℝ)
  obj : Img ℂ
  objBasis : Matrix (Fin 3) (Fin 2) ℝ
  probeBasis : Matrix (Fin 3) (Fin 2) ℝ
  wavelength : ℝ
  minTranslation : Fin 2 → ℝ
  medianPropagation : ℝ
  translationScale : ℝ
  offsets : Option (Fin N → Fin 2 → ℝ)
  propagateProbe : Bool
  tilt : Option ((ℕ → ℕ → ℝ × ℝ) × (ℕ → ℕ → ℝ))
  oversampling : ℕ
  background : Img ℝ
  saturation : Option ℝ

variable {n m a b N k : ℕ} [NeZero n] [NeZero m] [NeZero a] [NeZero b]

/-- `pix_trans`, `bragg_2d_ptycho.py:488-496`. -/
noncomputable def Bragg.pixTrans (M : Bragg n m a b N k) (idx : Fin N) (t : Fin 3 → ℝ) : Fin 2 → ℝ :=
  let p := (projectToSample M.objBasis t).1 - M.minTranslation
  match M.offsets with
  | none => p
  | some o => p + M.translationScale • o idx

/-- `props`, `bragg_2d_ptycho.py:488-493`. -/
noncomputable def Bragg.distance (M : Bragg n m a b N k) (t : Fin 3 → ℝ) : ℝ :=
  (projectToSample M.objBasis t).2 - M.medianPropagation

/-- `universal_propagator`, `bragg_2d_ptycho.py:231-246`: the angle of the generalized angular spectrum propagator for
`λ/2π` along the beam (`propagate_along_offset` overrides the propagation vector). -/
noncomputable def universalPropagator (basis : Matrix (Fin 3) (Fin 2) ℝ) (wavelength ki kj : ℝ) : ℝ :=
  Complex.arg (generalizedPropagator (fun c => basis c 0) (fun c => basis c 1) wavelength
    ![0, 0, wavelength / (2 * Real.pi)] (some ![0, 0, wavelength / (2 * Real.pi)]) ki kj)

/-- The propagator over a distance `d`, `bragg_2d_ptycho.py:517-521`. -/
noncomputable def Bragg.propagator (M : Bragg n m a b N k) (d : ℝ) : Wave n m := fun x y =>
  Complex.exp (Complex.I * ((d * (2 * Real.pi) / M.wavelength *
    universalPropagator M.probeBasis M.wavelength (2 * Real.pi * fftfreq n x) (2 * Real.pi * fftfreq m y) : ℝ) : ℂ))

/-- The probe of one exposure on the sample: the weight, the support, the propagation and the padding to the size of the
exit wave, `bragg_2d_ptycho.py:498-530`. -/
noncomputable def Bragg.illumination (M : Bragg n m a b N k) (w d : ℝ) (p : Wave n m) : Wave a b :=
  let q : Wave n m := fun x y => w * p x y * (if M.support x y then 1 else 0)
  padProbe a b (if M.propagateProbe then nearField (M.propagator d) q else q)

/-- `forward_propagator`, `bragg_2d_ptycho.py:536-541`, on the pixels of the detector. -/
noncomputable def Bragg.toDetector (M : Bragg n m a b N k) (w : Wave a b) (x y : ℕ) : ℂ :=
  match M.tilt with
  | some (kMap, I) => highNAFarField kMap (some I) w x y
  | none => farField w x y

/-- `forward` for one exposure of a batch, `bragg_2d_ptycho.py:487-560`. Without weights, `self.weights[index]` raises
TypeError; a window that overruns the object raises RuntimeError. -/
noncomputable def Bragg.forward (M : Bragg n m a b N k) (idx : Fin N) (t : Fin 3 → ℝ) : Except String (Img ℝ) :=
  match M.weights with
  | none => .error "TypeError"
  | some W =>
    let tr := M.pixTrans idx t
    match objWindow a b M.obj ⌊tr 0⌋ ⌊tr 1⌋ with
    | .error e => .error e
    | .ok sel =>
      let exit : Fin k → Wave a b := fun j x y => (M.probeNorm : ℂ) *
        sincApply false (tr 0, tr 1) sel (M.illumination (W idx) (M.distance t) (M.probe j)) x y
      .ok (measQuadratic { saturation := M.saturation, oversampling := M.oversampling } M.background none
        (sumModes a b (List.ofFn fun j => M.toDetector (exit j))))

/-- `corrected_translations`, `bragg_2d_ptycho.py:597-615`, of exposure `idx`; the surface normal is that of the object
basis, lines 106-113. -/
noncomputable def Bragg.correctedTranslation (M : Bragg n m a b N k) (idx : Fin N) (t : Fin 3 → ℝ) : Fin 3 → ℝ :=
  match M.offsets with
  | none => t
  | some o => t + pixelToTranslations M.objBasis (sampleNormal M.objBasis) (M.translationScale • o idx)

/-! ### from_dataset -/

/-- The surface normal, `bragg_2d_ptycho.py:309-336`: `mode` is the scattering mode (already stripped and in lower case),
`orientation` the third row of the orientation in the sample information. An unknown mode leaves None, whose `shape`
raises AttributeError. -/
noncomputable def braggNormal (given : Option Vec3) (mode : Option String) (orientation : Option Vec3)
    (detBasis : Matrix (Fin 3) (Fin 2) ℝ) : Except String Vec3 :=
  match given, mode with
  | some v, _ => .ok v
  | none, some s =>
    if s = "t" ∨ s = "transmission" then .ok ![0, 0, 1]
    else if s = "r" ∨ s = "reflection" then
      let out : Vec3 := (Vec3.cross (fun c => detBasis c 0) (fun c => detBasis c 1)).unit
      .ok fun c => (out c + ![0, 0, 1] c) / Real.sqrt (out.dot out)
    else .error "AttributeError"
  | none, none =>
    match orientation with
    | some v => .ok v
    | none => .ok ![0, 0, 1]

/-- `obj_basis`, `bragg_2d_ptycho.py:344-366`: `pinv(mat)[:, :3] @ ew_basis`, where `mat` stacks `I - e eᵀ` (with the
normal `e` of the exit wave) on the surface normal. -/
noncomputable def braggProjector (ew nrm : Vec3) : Matrix (Fin 3) (Fin 3) ℝ :=
  let top : Matrix (Fin 3) (Fin 3) ℝ := 1 - Matrix.of fun i j => ew i * ew j
  let gram : Matrix (Fin 3) (Fin 3) ℝ := top.transpose * top + Matrix.of fun i j => nrm i * nrm j
  gram⁻¹ * top.transpose

/-- `obj_basis` from the basis of the exit wave. -/
noncomputable def braggObjBasis (ewBasis : Matrix (Fin 3) (Fin 2) ℝ) (nrm : Vec3) : Matrix (Fin 3) (Fin 2) ℝ :=
  braggProjector (sampleNormal ewBasis) nrm * ewBasis

/-- `torch.median`: the lower of the two middle elements, for a non-empty list. -/
noncomputable def torchMedian (l : List ℝ) : ℝ := (l.mergeSort (fun x y => decide (x ≤ y))).getD ((l.length - 1) / 2) 0

/-- `min_translation` (and the object size), `median_propagation` in `from_dataset`, `bragg_2d_ptycho.py:373-384`, for a
scan with positions `t0 :: rest`, on an axis of the object. -/
noncomputable def braggSetup (probe : ℕ) (objBasis : Matrix (Fin 3) (Fin 2) ℝ) (t0 : Fin 3 → ℝ) (rest : List (Fin 3 → ℝ))
    (padding : ℤ) (axis : Fin 2) : ℤ × ℝ :=
  objectSetup probe ((projectToSample objBasis t0).1 axis) (rest.map fun t => (projectToSample objBasis t).1 axis) padding

/-- `median_propagation`, `bragg_2d_ptycho.py:384`. -/
noncomputable def braggMedian (objBasis : Matrix (Fin 3) (Fin 2) ℝ) (ts : List (Fin 3 → ℝ)) : ℝ :=
  torchMedian (ts.map fun t => (projectToSample objBasis t).2)

/-- The number of pixels kept by `probe[c:-c]` along an axis of length `n`, `bragg_2d_ptycho.py:404-408`. -/
def cropLength (n c : ℕ) : ℕ := (sliceExtent n c (-(c : ℤ))).2

/-- `scale_factor` along one axis, `bragg_2d_ptycho.py:411`: detector pixels over pixels of the cropped probe, which has
`oversampling` times the detector pixels before cropping. -/
noncomputable def braggScale (det oversampling c : ℕ) : ℝ := (det : ℝ) / (cropLength (oversampling * det) c : ℝ)

end Cdtools
