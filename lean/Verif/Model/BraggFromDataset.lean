/-
`Bragg2DPtycho.from_dataset` as a whole, `models/bragg_2d_ptycho.py:266-480`, and what the constructor does with the guesses (60-263). The pieces are
those of `Model/Bragg`, `Model/HighNA` and `Model/FancyFromDataset`.

Simplifications: those of `Model/FancyFromDataset`; `translation_scale` is not zero; a surface normal has three elements (anything else raises
ValueError); plotting options, units and loss are left out.
-/
import Verif.Model.Bragg
import Verif.Model.FancyFromDataset

namespace Cdtools
open Finset

/-- The options of `Bragg2DPtycho.from_dataset`, `bragg_2d_ptycho.py:266-291`. Oversampling, Fourier crop and number of modes are arguments of
`braggFromDataset`; `crop`: the option `probe_fourier_crop` is given. -/
structure BraggOpts where
  randomizeAng : ℝ := 0
  translationScale : ℝ := 1
  saturation : Option ℝ := none
  supportRadius : Option ℝ := none
  propagationDistance : Option ℝ := none
  scatteringMode : Option String := none
  surfaceNormal : Option Vec3 := none
  crop : Bool := false
  propagateProbe : Bool := true
  correctTilt : Bool := true
  lens : Bool := false
  padding : ℕ := 200

variable {n m N : ℕ} [NeZero n] [NeZero m]

/-- The Fourier crop of the probe, `bragg_2d_ptycho.py:403-408`, by `c` pixels on both ends of the first axis and `d` of the second one. Without a crop,
`c = d = 0`, this is the identity (`cropProbe2_zero`). -/
noncomputable def cropProbe2 {A B : ℕ} [NeZero A] [NeZero B] (c d : ℕ) [NeZero (A - 2 * c)] [NeZero (B - 2 * d)] (p : Wave A B) :
    Wave (A - 2 * c) (B - 2 * d) :=
  inverseFarField fun x y => farField p ((c + x.val : ℕ) : ZMod A) ((d + y.val : ℕ) : ZMod B)

/-- `probe_basis`, `bragg_2d_ptycho.py:410-413`: the shape of the detector, without oversampling, over that of the cropped probe. -/
noncomputable def braggProbeBasis (crop : Bool) (n m A B : ℕ) (objBasis : Matrix (Fin 3) (Fin 2) ℝ) : Matrix (Fin 3) (Fin 2) ℝ :=
  if crop then Matrix.of fun i j => objBasis i j * ![(n : ℝ) / A, (m : ℝ) / B] j else objBasis

/-- First guess of the probe, `bragg_2d_ptycho.py:389-393`: the same as in `fancy_ptycho.py`. -/
noncomputable def FancyData.braggProbe (D : FancyData n m N) (distance : Option ℝ) (os : ℕ) [NeZero os] [NeZero (os * n)] [NeZero (os * m)] :
    Wave (os * n) (os * m) :=
  match distance with
  | none => sharpProbe os D.mask (List.ofFn D.patterns) D.background
  | some z => sharpProbePropagated os D.mask (List.ofFn D.patterns) D.background
      (Real.sqrt ((basisCol D.detBasis 0).dot (basisCol D.detBasis 0))) (Real.sqrt ((basisCol D.detBasis 1).dot (basisCol D.detBasis 1)))
      D.distance D.wavelength z

/-- `k_map` and `intensity_map`, `bragg_2d_ptycho.py:206-224`. -/
noncomputable def FancyData.braggTilt (D : FancyData n m N) (O : BraggOpts) (os : ℕ) (objBasis : Matrix (Fin 3) (Fin 2) ℝ) :
    Option ((ℕ → ℕ → ℝ × ℝ) × (ℕ → ℕ → ℝ)) :=
  if O.correctTilt then
    let fine : Matrix (Fin 3) (Fin 2) ℝ := Matrix.of fun i j => D.detBasis i j / os
    some (highNAMap (os * n) (os * m) objBasis fine D.distance D.wavelength O.lens,
      highNAIntensity (os * n) (os * m) fine D.distance D.wavelength O.lens)
  else none

/-- `from_dataset`, `bragg_2d_ptycho.py:266-480`, for `k + 1` modes. A crop of 0 pixels on an axis leaves the empty slice `probe[0:-0]`, whose FFT raises
RuntimeError; without the option `crop` nothing is cropped (`c = d = 0`, other arguments stand for no call). The relative intensities recorded in the
dataset are not read. -/
noncomputable def braggFromDataset (D : FancyData n m N) (O : BraggOpts) (os : ℕ) [NeZero os] [NeZero (os * n)] [NeZero (os * m)]
    (c d : ℕ) [NeZero (os * n - 2 * c)] [NeZero (os * m - 2 * d)] (k : ℕ) (rndProbe : Fin k → Wave (os * n - 2 * c) (os * m - 2 * d))
    (rndObj : ℕ → ℕ → ℝ) : Except String (Bragg (os * n - 2 * c) (os * m - 2 * d) (os * n) (os * m) N (k + 1)) :=
  match List.ofFn D.translations, braggNormal O.surfaceNormal O.scatteringMode D.orientation D.detBasis with
  | [], _ => .error "IndexError"
  | _ :: _, .error e => .error e
  | t0 :: rest, .ok normal =>
    if O.crop ∧ (c = 0 ∨ d = 0) then .error "RuntimeError" else
    if ¬ O.crop ∧ (c ≠ 0 ∨ d ≠ 0) then .error "no such call" else
    let objBasis := braggObjBasis (exitWaveGeometry D.detBasis ![n, m] D.wavelength D.distance os) normal
    let s0 := braggSetup (os * n) objBasis t0 rest O.padding 0
    let s1 := braggSetup (os * m) objBasis t0 rest O.padding 1
    let stack := probeStack false rndProbe (cropProbe2 c d (D.braggProbe O.propagationDistance os))
    let support := O.supportRadius.map fun r => supportDisc (os * n - 2 * c) (os * m - 2 * d) r
    let guess : Fin (k + 1) → Wave (os * n - 2 * c) (os * m - 2 * d) := match support with
      | none => stack
      | some s => fun j x y => stack j x y * (if s x y then 1 else 0)
    .ok
      { probe := fun j x y => guess j x y / (probeNormOf guess : ℂ) * (if (support.getD fun _ _ => true) x y then 1 else 0)
        probeNorm := probeNormOf guess
        support := support.getD fun _ _ => true
        weights := some fun _ => 1
        obj := ⟨s0.1.toNat, s1.1.toNat, fun i j => Complex.exp (Complex.I * ((O.randomizeAng * (rndObj i j - 0.5) : ℝ) : ℂ))⟩
        objBasis := objBasis
        probeBasis := braggProbeBasis O.crop n m (os * n - 2 * c) (os * m - 2 * d) objBasis
        wavelength := D.wavelength
        minTranslation := ![s0.2, s1.2]
        medianPropagation := braggMedian objBasis (t0 :: rest)
        translationScale := O.translationScale
        offsets := some 0
        propagateProbe := O.propagateProbe
        tilt := D.braggTilt O os objBasis
        oversampling := os
        background := D.backgroundGuess.toImg
        saturation := O.saturation }

end Cdtools
