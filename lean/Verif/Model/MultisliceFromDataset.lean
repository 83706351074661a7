/-
`MultislicePtycho.from_dataset` as a whole, `models/multislice_ptycho.py:190-418`, and what the constructor does with the guesses (17-187).

Simplifications: those of `Model/FancyFromDataset`; one random array per slice is an argument.
-/
import Verif.Model.FancyFromDataset
import Verif.Model.Multislice

namespace Cdtools
open Finset

/-- The options of `MultislicePtycho.from_dataset`, `multislice_ptycho.py:190-219`. Oversampling, Fourier crop and number of modes are arguments
of `multisliceFromDataset`. `probeShape`: the option `probe_shape` is given. -/
structure MultisliceOpts where
  dz : ℝ
  nz : ℕ
  probeShape : Bool := false
  randomizeAng : ℝ := 0
  dmRank : Option ℤ := none
  translationScale : ℝ := 1
  saturation : Option ℝ := none
  supportRadius : Option ℝ := none
  propagatorCrop : ℕ := 0
  propagationDistance : Option ℝ := none
  scatteringMode : Option String := none
  fourierProbe : Bool := false
  simulateTranslation : Bool := false
  exponentiate : Bool := false
  padding : ℕ := 200

/-- The options that both models have; geometry and first probe, `multislice_ptycho.py:237-244,277-291`, are those of `fancy_ptycho.py` in the far field. -/
def MultisliceOpts.shared (O : MultisliceOpts) : FancyOpts where
  randomizeAng := O.randomizeAng
  dmRank := O.dmRank
  translationScale := O.translationScale
  saturation := O.saturation
  supportRadius := O.supportRadius
  propagationDistance := O.propagationDistance
  scatteringMode := O.scatteringMode
  fourierProbe := O.fourierProbe
  exponentiate := O.exponentiate
  padding := O.padding

/-- One slice of the object, `multislice_ptycho.py:323-328`. -/
noncomputable def initialSlice (O : MultisliceOpts) (h w : ℕ) (rnd : ℕ → ℕ → ℝ) : Img ℂ :=
  ⟨h, w, fun i j =>
    let phase : ℂ := ((O.randomizeAng * (rnd i j - 0.5) : ℝ) : ℂ)
    if O.exponentiate then phase else Complex.exp (Complex.I * phase)⟩

variable {n m N : ℕ} [NeZero n] [NeZero m]

/-- `interslice_propagator`, `multislice_ptycho.py:385-402`: on the shape of the detector. -/
noncomputable def initialPropagator (O : MultisliceOpts) (objBasis : Matrix (Fin 3) (Fin 2) ℝ) (wavelength : ℝ) : Wave n m :=
  let p := interslicePropagator n m objBasis wavelength O.dz
  if O.propagatorCrop ≠ 0 then cropPropagator O.propagatorCrop p else p

/-- `from_dataset`, `multislice_ptycho.py:190-418`, for `k + 1` modes. With `probe_shape`, `gaussian_probe` is called without its argument `sigma`:
TypeError. With `nz = 0`, `t.stack([])`: RuntimeError. -/
noncomputable def multisliceFromDataset (D : FancyData n m N) (O : MultisliceOpts) (os : ℕ) [NeZero os] [NeZero (os * n)] [NeZero (os * m)]
    (c : ℕ) [NeZero (os * n - 2 * c)] [NeZero (os * m - 2 * c)] (k : ℕ) (rndProbe : Fin k → Wave (os * n - 2 * c) (os * m - 2 * c))
    (rndObj : ℕ → ℕ → ℕ → ℝ) : Except String (Multislice (os * n - 2 * c) (os * m - 2 * c) (os * n) (os * m) N (k + 1)) :=
  match List.ofFn D.translations, D.start O.shared os, datasetNormal O.scatteringMode D.orientation D.detBasis, initialWeights N (k + 1) O.dmRank with
  | t0 :: rest, .ok S, .ok normal, .ok W =>
    if O.probeShape then .error "TypeError" else
    if O.nz = 0 then .error "RuntimeError" else
    let pix := translationsToPixel S.objBasis normal
    let s0 := objectSetup (os * n) (pix t0 0) (rest.map fun t => pix t 0) O.padding
    let s1 := objectSetup (os * m) (pix t0 1) (rest.map fun t => pix t 1) O.padding
    let stack := probeStack O.fourierProbe rndProbe (cropProbe c S.probe)
    let support := O.supportRadius.map fun r => supportDisc (os * n - 2 * c) (os * m - 2 * c) r
    let guess : Fin (k + 1) → Wave (os * n - 2 * c) (os * m - 2 * c) := match support with
      | none => stack
      | some s => fun j x y => stack j x y * (if s x y then 1 else 0)
    match multisliceWeights D.intensities W with
    | .error _ => .error "RuntimeError"
    | .ok weights => .ok
      { probe := fun j x y => guess j x y / (probeNormOf guess : ℂ) * (if (support.getD fun _ _ => true) x y then 1 else 0)
        probeNorm := probeNormOf guess
        support := support.getD fun _ _ => true
        weights := some weights
        fourierProbe := O.fourierProbe
        slices := List.ofFn fun s : Fin O.nz => initialSlice O s0.1.toNat s1.1.toNat (rndObj s)
        exponentiate := O.exponentiate
        propagator := waveImg (initialPropagator O S.objBasis D.wavelength : Wave n m)
        objBasis := S.objBasis
        detBasis := D.detBasis
        normal := normal
        minTranslation := ![s0.2, s1.2]
        translationScale := O.translationScale
        offsets := some 0
        simulateTranslation := O.simulateTranslation
        oversampling := os
        background := D.backgroundGuess.toImg
        saturation := O.saturation }
  | _, .error e, _, _ => .error e
  | _, _, .error e, _ => .error e
  | [], _, _, _ => .error "IndexError"
  | _, _, _, .error _ => .error "weights"

end Cdtools
