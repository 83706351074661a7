/-
Probe guesses: `STEM_style_probe` and `SHARP_style_near_field_probe` (`tools/initializers/initializers.py:365-527`), and the
near-field geometry of `FancyPtycho.from_dataset` (`models/fancy_ptycho.py:307-366`).

Simplification: floats are reals; an operation giving NaN is the error "NaN".
-/
import Mathlib.Analysis.SpecialFunctions.Trigonometric.Inverse
import Verif.Model.Py
import Verif.Model.Fourier
import Verif.Model.ImageProc
import Verif.Model.Initializers
import Verif.Model.HighNA

namespace Cdtools
open Finset

variable {n m a b : ℕ} [NeZero n] [NeZero m] [NeZero a] [NeZero b]

/-! ### STEM_style_probe -/

/-- What `STEM_style_probe` reads from the dataset: basis of the detector, distance, wavelength and patterns. -/
structure StemData (a b : ℕ) where
  basis : Matrix (Fin 3) (Fin 2) ℝ
  distance : ℝ
  wavelength : ℝ
  patterns : List (RealIm a b)

/-- `mean_im`, `initializers.py:476`. -/
noncomputable def StemData.meanIm (D : StemData a b) : RealIm a b := fun i j =>
  (D.patterns.map fun p => p i j).sum / D.patterns.length

/-- `Rs`, `initializers.py:472-485`, of the pixel `(k, l)`: with the basis divided by the oversampling, and the center in pixels of
the detector. -/
noncomputable def StemData.ray (D : StemData a b) (os : ℝ) (c : ℝ × ℝ) (k l : ℝ) : Vec3 := fun e =>
  (if e = 2 then D.distance else 0) + (D.basis e 0 / os * (k - c.1) + D.basis e 1 / os * (l - c.2))

/-- `angles`, `initializers.py:486-487`, in mrad. -/
noncomputable def stemAngle (v : Vec3) : ℝ := Real.arccos (v 2 / Real.sqrt (v.dot v)) * 1000

/-- `angles < convergence_semiangle`, `initializers.py:490` (the angle of the zero vector is NaN). -/
def StemData.inAperture (D : StemData a b) (os : ℝ) (c : ℝ × ℝ) (semiangle : ℝ) (k : ZMod n) (l : ZMod m) : Prop :=
  D.ray os c k.val l.val ≠ 0 ∧ stemAngle (D.ray os c k.val l.val) < semiangle

open Classical in
/-- `probe_fft`, `initializers.py:476-494`: NaN if the centroid is NaN, if no pixel is in the aperture (the mean of the probe is
zero) or if the root is of a negative number. -/
noncomputable def StemData.probeFft (D : StemData a b) (os semiangle : ℝ) : Except String (Wave n m) :=
  match centroid D.meanIm with
  | none => .error "NaN"
  | some c =>
    let ones : Wave n m := fun k l => if D.inAperture os c semiangle k l then 1 else 0
    let probeMean : ℝ := (∑ k, ∑ l, ‖ones k l‖ ^ 2) / (n * m)
    let diffMean : ℝ := (∑ i, ∑ j, D.meanIm i j) / (a * b)
    if probeMean = 0 ∨ diffMean < 0 then .error "NaN"
    else .ok fun k l => ones k l * (Real.sqrt (diffMean / probeMean) : ℂ)

/-- `probe_spacing`, `initializers.py:505-513` on one axis of `N` pixels. -/
noncomputable def StemData.spacing (D : StemData a b) (N : ℕ) (c : Fin 2) : ℝ :=
  let d := Real.sqrt ((basisCol D.basis c).dot (basisCol D.basis c))
  let v : Vec3 := fun e => D.basis e c / d * D.wavelength * D.distance / (N * d)
  Real.sqrt (v.dot v)

/-- `STEM_style_probe(dataset, shape, det_slice, convergence_semiangle, propagation_distance, oversampling)`, `initializers.py:430-527`.
The last step copies the guess into an array of the same shape; `det_slice` is not used. -/
noncomputable def StemData.probe (D : StemData a b) (os semiangle : ℝ) (z : Option ℝ) : Except String (Wave n m) :=
  (D.probeFft os semiangle).map fun w =>
    let guess := inverseFarField w
    match z with
    | none => guess
    | some z => nearField (angularSpectrum n m (D.spacing n 0) (D.spacing m 1) D.wavelength z none) guess

/-! ### Near-field geometry -/

/-- Pixel basis at the sample and distance of the propagation. -/
structure NearGeometry where
  basis : Matrix (Fin 3) (Fin 2) ℝ
  z : ℝ

/-- The geometry in `from_dataset`, `fancy_ptycho.py:308-312,332-338`. A magnification of zero makes the quotients infinite. -/
noncomputable def nearGeometry (B : Matrix (Fin 3) (Fin 2) ℝ) (distance : ℝ) (prop : Option ℝ) (os : ℕ) : Except String NearGeometry :=
  match prop with
  | none => .ok ⟨Matrix.of fun i c => B i c / os, distance⟩
  | some p =>
    if p = 0 then .ok ⟨Matrix.of fun i c => B i c / os, distance⟩
    else if (p + distance) / p = 0 then .error "inf"
    else .ok ⟨Matrix.of fun i c => B i c / (os * ((p + distance) / p)), distance / ((p + distance) / p)⟩

/-- `generate_generalized_angular_spectrum_propagator(shape, obj_basis, wavelength, [0, 0, z])`, `fancy_ptycho.py:313-319,339-345`. -/
noncomputable def NearGeometry.propagator (G : NearGeometry) (wavelength : ℝ) (n m : ℕ) : Wave n m := fun k l =>
  generalizedPropagator (basisCol G.basis 0) (basisCol G.basis 1) wavelength ![0, 0, G.z] none
    (2 * Real.pi * fftfreq n k) (2 * Real.pi * fftfreq m l)

/-- `backward_propagator` in `from_dataset`, `fancy_ptycho.py:322-329,348-360`: on the grid of the detector, with the basis of the object. -/
noncomputable def NearGeometry.backward (G : NearGeometry) (wavelength : ℝ) (w : Wave n m) : Wave n m :=
  nearField (fun k l => (starRingEnd ℂ) (G.propagator wavelength n m k l)) w

/-- `SHARP_style_near_field_probe(dataset, backward_propagator)`, `initializers.py:394-420`, before oversampling. Simplification: the
dataset has a mask, as every `Ptycho2DDataset` (`ptycho_2d_dataset.py:72-73`); without one the code divides by the translation. -/
noncomputable def sharpNearGuess (back : Wave n m → Wave n m) (mask : RealIm n m) (patterns : List (RealIm n m))
    (background : Option (RealIm n m)) : Wave n m :=
  back fun k l => (Real.sqrt (sharpIntensities mask patterns background k l) : ℂ)

/-- `SHARP_style_near_field_probe` with `oversampling != 1`, `initializers.py:421-427`. -/
noncomputable def sharpNearOversampled (os : ℕ) [NeZero os] (back : Wave n m → Wave n m) (mask : RealIm n m) (patterns : List (RealIm n m))
    (background : Option (RealIm n m)) : Wave (os * n) (os * m) :=
  fourierUpsample os false (sharpNearGuess back mask patterns background)

end Cdtools
