/-
`models/multislice_ptycho.py` (`MultislicePtycho`): the forward model for one exposure, the parts of
`from_dataset` that differ from `FancyPtycho`, `tidy_probes`, the object view.

Floats are real/complex numbers. Not modelled: `simulate_finite_pixels`, devices and dtypes, plotting.
`models/multislice_2d_ptycho.py` is in `Model/Multislice2D.lean`.
-/
import Verif.Model.FancyPtycho

namespace Cdtools
open Finset Matrix

/-- A `MultislicePtycho` model with `k` probe modes on an `n × m` grid, exit waves on an `a × b` grid and `N` exposures,
`multislice_ptycho.py:15-187`. `slices` is `obj` along its first axis. -/
structure Multislice (n m a b N k : ℕ) where
  probe : Fin k → Wave n m
  probeNorm : ℝ
  support : ZMod n → ZMod m → Bool
  weights : Option (Weights N k)
  fourierProbe : Bool
  slices : List (Img ℂ)
  exponentiate : Bool
  propagator : Img ℂ
  objBasis : Matrix (Fin 3) (Fin 2) ℝ
  detBasis : Matrix (Fin 3) (Fin 2) ℝ
  normal : Fin 3 → ℝ
  minTranslation : Fin 2 → ℝ
  translationScale : ℝ
  offsets : Option (Fin N → Fin 2 → ℝ)
  simulateTranslation : Bool
  oversampling : ℕ
  background : Img ℝ
  saturation : Option ℝ

variable {n m a b N k : ℕ} [NeZero n] [NeZero m] [NeZero a] [NeZero b]

/-- `pix_trans`, `multislice_ptycho.py:426-434`. -/
noncomputable def Multislice.pixTrans (M : Multislice n m a b N k) (idx : Fin N) (t : Fin 3 → ℝ) : Fin 2 → ℝ :=
  let p := translationsToPixel M.objBasis M.normal t - M.minTranslation
  match M.offsets with
  | none => p
  | some o => p + M.translationScale • o idx

/-- The support and the transformation of a Fourier probe to real space, `multislice_ptycho.py:437-441`. -/
noncomputable def Multislice.realSpace (M : Multislice n m a b N k) (p : Wave n m) : Wave n m :=
  let q : Wave n m := fun x y => p x y * (if M.support x y then 1 else 0)
  if M.fourierProbe then inverseFarField q else q

/-- The weights of a batch of exposures, `multislice_ptycho.py:444-451`: ones without weights. -/
noncomputable def Multislice.effectiveWeights (M : Multislice n m a b N k) : Weights N k :=
  match M.weights with
  | some W => W
  | none => .perShot fun _ => 1

/-- The phase ramp, `multislice_ptycho.py:167-174,465-475`. -/
noncomputable def Multislice.ramp (M : Multislice n m a b N k) (t : Fin 3 → ℝ) : Wave n m :=
  if M.simulateTranslation then
    let d := translationsToPixel M.detBasis M.normal t
    fun x y => Complex.exp (Complex.I * (d 0 * (2 * Real.pi * (x.val / ((n : ℂ) - 1)) * M.oversampling) +
      d 1 * (2 * Real.pi * (y.val / ((m : ℂ) - 1)) * M.oversampling)))
  else fun _ _ => 1

/-- The transmission of one slice, `multislice_ptycho.py:497-498`. -/
noncomputable def Multislice.transmission (M : Multislice n m a b N k) (o : Img ℂ) : Img ℂ :=
  if M.exponentiate then o.map fun z => Complex.exp (Complex.I * z) else o

/-- The loop over the slices, `multislice_ptycho.py:500-509`, for one mode: `ptycho_2D_sinc` with the window of the slice
and, because `idx <= obj.shape[0] - 1` always holds, `near_field`. -/
noncomputable def passSlices (tr : ℝ × ℝ) (propagator : Wave a b) (windows : List (Wave a b)) (w : Wave a b) : Wave a b :=
  windows.foldl (fun w sel => nearField propagator (sincApply false tr sel w)) w

/-- The propagator as a function on the frequencies of the exit wave. -/
def Multislice.prop (M : Multislice n m a b N k) : Wave a b := fun x y => M.propagator.px x.val y.val

/-- One mode from the basis to the detector plane: `interaction`, `multislice_ptycho.py:465-511`, and
`forward_propagator`, 515-516. -/
noncomputable def Multislice.toDetector (M : Multislice n m a b N k) (idx : Fin N) (t : Fin 3 → ℝ)
    (windows : List (Wave a b)) (p : Wave n m) : Wave a b :=
  let tr := M.pixTrans idx t
  let ramped : Wave n m := fun x y => p x y * M.ramp t x y
  let start : Wave a b := padProbe a b ramped
  farField (passSlices (tr 0, tr 1) M.prop windows fun x y => (M.probeNorm : ℂ) * start x y)

/-- `forward` for one exposure of a batch, `multislice_ptycho.py:421-532`. RuntimeError: a window overruns a slice, or the
propagator does not have the shape of the exit waves (simplification: also if it could be broadcast). -/
noncomputable def Multislice.forward (M : Multislice n m a b N k) (idx : Fin N) (t : Fin 3 → ℝ) :
    Except String (Img ℝ) :=
  let tr := M.pixTrans idx t
  match M.slices.mapM fun o => objWindow a b (M.transmission o) ⌊tr 0⌋ ⌊tr 1⌋ with
  | .error e => .error e
  | .ok windows =>
    if M.slices ≠ [] ∧ ¬ (M.propagator.h = a ∧ M.propagator.w = b) then .error "RuntimeError" else
    let shot := shotProbes M.effectiveWeights idx fun j => M.realSpace (M.probe j)
    let modes : List (ℕ → ℕ → ℂ) := List.ofFn fun i => fun x y => M.toDetector idx t windows (shot i) x y
    .ok (measQuadratic { saturation := M.saturation, oversampling := M.oversampling } M.background none
      (sumModes a b modes))

/-- The model with other probes and weights. -/
def Multislice.withProbe {k' : ℕ} (M : Multislice n m a b N k) (P : Fin k' → Wave n m) (W : Weights N k') :
    Multislice n m a b N k' where
  probe := P
  weights := some W
  probeNorm := M.probeNorm
  support := M.support
  fourierProbe := M.fourierProbe
  slices := M.slices
  exponentiate := M.exponentiate
  propagator := M.propagator
  objBasis := M.objBasis
  detBasis := M.detBasis
  normal := M.normal
  minTranslation := M.minTranslation
  translationScale := M.translationScale
  offsets := M.offsets
  simulateTranslation := M.simulateTranslation
  oversampling := M.oversampling
  background := M.background
  saturation := M.saturation

/-- `tidy_probes`, `multislice_ptycho.py:646-722`: the code of `FancyPtycho.tidy_probes`. `none`: a division by zero, or
no weights (`self.weights.dim()` of None). -/
noncomputable def Multislice.tidy (la : LinAlg) (M : Multislice n m a b N k) : Option (Σ k', Multislice n m a b N k') :=
  match M.weights with
  | none => none
  | some (.perShot w) => some ⟨_, M.withProbe (tidySimple la M.probe) (.perShot w)⟩
  | some (.matrices _ W) =>
    (tidyMatrices la M.probe W).map fun q => ⟨_, M.withProbe q.1 (.matrices _ q.2)⟩

/-- `corrected_translations`, `multislice_ptycho.py:593-614`, of exposure `idx`. -/
noncomputable def Multislice.correctedTranslation (M : Multislice n m a b N k) (idx : Fin N) (t : Fin 3 → ℝ) : Fin 3 → ℝ :=
  match M.offsets with
  | none => t
  | some o => t + pixelToTranslations M.objBasis M.normal (M.translationScale • o idx)

/-! ### from_dataset -/

/-- The interslice propagator, `multislice_ptycho.py:369-373`: `generate_angular_spectrum_propagator` on the detector
shape, with `spacing = [|obj_basis[0,1]|, |obj_basis[1,0]|]`. -/
noncomputable def interslicePropagator (n m : ℕ) [NeZero n] [NeZero m] (objBasis : Matrix (Fin 3) (Fin 2) ℝ)
    (wavelength dz : ℝ) : Wave n m :=
  angularSpectrum n m |objBasis 0 1| |objBasis 1 0| wavelength dz none

/-- `propagator_fourier_crop`, `multislice_ptycho.py:375-382`, for a positive crop. -/
noncomputable def cropPropagator (c : ℕ) (p : Wave n m) : Wave n m :=
  ifftshift2 fun x y => if x.val < c ∨ y.val < c ∨ n ≤ x.val + c ∨ m ≤ y.val + c then 0 else fftshift2 p x y

/-- A wave as an array. -/
def waveImg (w : Wave n m) : Img ℂ := ⟨n, m, fun i j => w i j⟩

/-- The scaling of the weights by the intensities of the dataset, `multislice_ptycho.py:344-346`: in place, by the
intensities (not their square roots), which are broadcast against the last axis of weight matrices. -/
noncomputable def multisliceWeights {N k : ℕ} (intensities : Option (Fin N → ℝ)) (W : Weights N k) :
    Except PyExc (Weights N k) :=
  match intensities with
  | none => .ok W
  | some I =>
    let mean := (∑ i, I i) / N
    match W with
    | .perShot v => .ok (.perShot fun i => v i * (I i / mean))
    | .matrices r V =>
      if h : k = N then .ok (.matrices r fun i => Matrix.of fun u v => V i u v * ((I (h ▸ v) / mean : ℝ) : ℂ))
      else if h : N = 1 then .ok (.matrices r fun i => Matrix.of fun u v => V i u v * ((I (⟨0, by omega⟩) / mean : ℝ) : ℂ))
      else .error .runtimeError

/-- The shape of the displayed object, `obj[(np.s_[:],) + self.obj_view_slice]`, `multislice_ptycho.py:105-106,817`: the
slices are `crop:-crop`. -/
def multisliceViewShape (crop : ℤ) (nz h w : ℕ) : List ℕ :=
  [nz, (sliceExtent h crop (-crop)).2, (sliceExtent w crop (-crop)).2]

end Cdtools
