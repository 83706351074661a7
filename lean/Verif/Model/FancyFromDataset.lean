/-
`FancyPtycho.from_dataset` as a whole, `models/fancy_ptycho.py:244-541`: the pieces are those of `Model/Initializers`, `Model/StemProbe`,
`Model/Interactions`, `Model/ModelBase` and `Model/FancyPtycho`.

Simplifications: one object mode (`n_obj_modes = 1`; more are in `Model/ObjModes`); the random arrays of `t.rand` are arguments; the dataset has
a mask, as every `Ptycho2DDataset` (`ptycho_2d_dataset.py:72-73`); the plotting options, the units and the loss (`Model/FancyPtycho`,
`lossOf`) are left out; a Fourier crop that leaves no pixel (an FFT of an empty array raises) is excluded by the type.
-/
import Verif.Model.FancyPtycho
import Verif.Model.StemProbe
import Verif.Model.ModelBase

namespace Cdtools
open Finset

/-- What `from_dataset` reads from a dataset of `N` patterns of `n × m` pixels. -/
structure FancyData (n m N : ℕ) where
  wavelength : ℝ
  distance : ℝ
  detBasis : Matrix (Fin 3) (Fin 2) ℝ
  patterns : Fin N → RealIm n m
  translations : Fin N → Fin 3 → ℝ
  mask : RealIm n m
  background : Option (RealIm n m)
  intensities : Option (Fin N → ℝ)
  qe : Option (RealIm n m)
  orientation : Option Vec3

/-- The options of `from_dataset`, `fancy_ptycho.py:244-271`. Oversampling, Fourier crop and number of modes are arguments of
`fancyFromDataset`. -/
structure FancyOpts where
  randomizeAng : ℝ := 0
  dmRank : Option ℤ := none
  translationScale : ℝ := 1
  saturation : Option ℝ := none
  useQeMask : Bool := false
  supportRadius : Option ℝ := none
  propagationDistance : Option ℝ := none
  scatteringMode : Option String := none
  fourierProbe : Bool := false
  allowFourierShifts : Bool := false
  simulateTranslation : Bool := false
  exponentiate : Bool := false
  phaseOnly : Bool := false
  padding : ℕ := 200
  nearField : Bool := false

variable {n m N : ℕ} [NeZero n] [NeZero m]

/-- Geometry and first guess of the probe. -/
structure FancyStart (A B : ℕ) where
  objBasis : Matrix (Fin 3) (Fin 2) ℝ
  propagator : Wave A B
  probe : Wave A B

/-- `obj_basis`, `angular_spectrum_propagator` and the first `probe`, `fancy_ptycho.py:291-366`. In the far field there is no propagator (the
value is never used). In the near field the code skips the upsampling for `oversampling = 1`, where it changes nothing
(`near_upsample_one`). -/
noncomputable def FancyData.start (D : FancyData n m N) (O : FancyOpts) (os : ℕ) [NeZero os] [NeZero (os * n)] [NeZero (os * m)] :
    Except String (FancyStart (os * n) (os * m)) :=
  if O.nearField then
    match nearGeometry D.detBasis D.distance O.propagationDistance os with
    | .error e => .error e
    | .ok G => .ok ⟨G.basis, G.propagator D.wavelength (os * n) (os * m),
        sharpNearOversampled os (G.backward D.wavelength) D.mask (List.ofFn D.patterns) D.background⟩
  else .ok ⟨exitWaveGeometry D.detBasis ![n, m] D.wavelength D.distance os, fun _ _ => 1,
    match O.propagationDistance with
    | none => sharpProbe os D.mask (List.ofFn D.patterns) D.background
    | some z => sharpProbePropagated os D.mask (List.ofFn D.patterns) D.background
        (Real.sqrt ((basisCol D.detBasis 0).dot (basisCol D.detBasis 0))) (Real.sqrt ((basisCol D.detBasis 1).dot (basisCol D.detBasis 1)))
        D.distance D.wavelength z⟩

/-- The Fourier crop of the probe, `fancy_ptycho.py:404-412`. For a crop of 0 this is the identity (`cropProbe_zero`). -/
noncomputable def cropProbe {A B : ℕ} [NeZero A] [NeZero B] (c : ℕ) [NeZero (A - 2 * c)] [NeZero (B - 2 * c)] (p : Wave A B) :
    Wave (A - 2 * c) (B - 2 * c) :=
  inverseFarField fun x y => farField p ((c + x.val : ℕ) : ZMod A) ((c + y.val : ℕ) : ZMod B)

/-- `probe_basis`, `fancy_ptycho.py:414-417`. -/
noncomputable def probeBasis {A B : ℕ} (c : ℕ) (objBasis : Matrix (Fin 3) (Fin 2) ℝ) : Matrix (Fin 3) (Fin 2) ℝ :=
  Matrix.of fun i j => objBasis i j * ![(A : ℝ) / (A - 2 * c : ℕ), (B : ℝ) / (B - 2 * c : ℕ)] j

/-- The stack of probes, `fancy_ptycho.py:419-427`: `rnd` are the random numbers. -/
noncomputable def probeStack {A B k : ℕ} [NeZero A] [NeZero B] (fourierProbe : Bool) (rnd : Fin k → Wave A B) (probe : Wave A B) :
    Fin (k + 1) → Wave A B :=
  Fin.cons (if fourierProbe then farField probe else probe)
    fun i x y => (((0.01 : ℝ) * ⨆ p : ZMod A × ZMod B, ‖probe p.1 p.2‖ : ℝ) : ℂ) * rnd i x y

/-- The object, `fancy_ptycho.py:429-438`, for random numbers `rnd`. -/
noncomputable def initialObject (O : FancyOpts) (h w : ℕ) (rnd : ℕ → ℕ → ℝ) : Img ℂ :=
  let obj : Img ℂ := ⟨h, w, fun i j => ((O.randomizeAng * (rnd i j - 0.5) : ℝ) : ℂ)⟩
  let obj := if O.exponentiate then obj else obj.map fun z => Complex.exp (Complex.I * z)
  if O.phaseOnly then obj.map fun z => (z.re : ℂ) else obj

/-- `probe_support`, `fancy_ptycho.py:496-504`. -/
noncomputable def supportDisc (A B : ℕ) (r : ℝ) : ZMod A → ZMod B → Bool := fun x y =>
  open Classical in decide (Real.sqrt (((x.val : ℝ) - (A - 1) / 2) ^ 2 + ((y.val : ℝ) - (B - 1) / 2) ^ 2) < r)

/-- An array of the detector as an image. -/
def RealIm.toImg (r : RealIm n m) : Img ℝ := ⟨n, m, fun i j => r i j⟩

/-- `background`, `fancy_ptycho.py:398-402`. -/
noncomputable def FancyData.backgroundGuess (D : FancyData n m N) : RealIm n m := fun i j =>
  match D.background with
  | some b => Real.sqrt (b i j)
  | none => 1e-6

/-- `qe_mask`, `fancy_ptycho.py:487-493`. -/
def FancyData.qeGuess (D : FancyData n m N) (O : FancyOpts) : Option (RealIm n m) :=
  if O.useQeMask then some (D.qe.getD fun _ _ => 1) else none

/-- `from_dataset`, `fancy_ptycho.py:244-541`, for `k + 1` modes. -/
noncomputable def fancyFromDataset (D : FancyData n m N) (O : FancyOpts) (os : ℕ) [NeZero os] [NeZero (os * n)] [NeZero (os * m)]
    (c : ℕ) [NeZero (os * n - 2 * c)] [NeZero (os * m - 2 * c)] (k : ℕ) (rndProbe : Fin k → Wave (os * n - 2 * c) (os * m - 2 * c))
    (rndObj : ℕ → ℕ → ℝ) : Except String (Fancy (os * n - 2 * c) (os * m - 2 * c) (os * n) (os * m) N (k + 1)) :=
  match List.ofFn D.translations, D.start O os, datasetNormal O.scatteringMode D.orientation D.detBasis, initialWeights N (k + 1) O.dmRank with
  | t0 :: rest, .ok S, .ok normal, .ok W =>
    let pix := translationsToPixel S.objBasis normal
    let s0 := objectSetup (os * n) (pix t0 0) (rest.map fun t => pix t 0) O.padding
    let s1 := objectSetup (os * m) (pix t0 1) (rest.map fun t => pix t 1) O.padding
    let stack := probeStack O.fourierProbe rndProbe (cropProbe c S.probe)
    let support := O.supportRadius.map fun r => supportDisc (os * n - 2 * c) (os * m - 2 * c) r
    let guess : Fin (k + 1) → Wave (os * n - 2 * c) (os * m - 2 * c) := match support with
      | none => stack
      | some s => fun j x y => stack j x y * (if s x y then 1 else 0)
    match fancyInit (N := N) ⟨guess, some 0, if O.allowFourierShifts then some 0 else none, O.translationScale, support⟩ with
    | .error _ => .error "init"
    | .ok P => .ok
      { probe := P.probe
        probeNorm := P.probeNorm
        support := P.support
        weights := scaleWeights D.intensities W
        fourierProbe := O.fourierProbe
        obj := initialObject O s0.1.toNat s1.1.toNat rndObj
        exponentiate := O.exponentiate
        phaseOnly := O.phaseOnly
        nearField := O.nearField
        propagator := S.propagator
        objBasis := S.objBasis
        detBasis := D.detBasis
        normal := normal
        minTranslation := ![s0.2, s1.2]
        translationScale := O.translationScale
        offsets := P.offsets
        fourierShifts := P.fourierShifts
        simulateTranslation := O.simulateTranslation
        oversampling := os
        background := D.backgroundGuess.toImg
        qe := (D.qeGuess O).map RealIm.toImg
        saturation := O.saturation }
  | _, .error e, _, _ => .error e
  | _, _, .error e, _ => .error e
  | [], _, _, _ => .error "IndexError"
  | _, _, _, .error _ => .error "weights"

end Cdtools
