/-
`models/fancy_ptycho.py`: construction (options, parameter plumbing), the forward model for one
exposure, `tidy_probes`, `get_probe_intensities`, `corrected_translations`, `sim_to_dataset` and
`from_results_dict`.

Floats are real/complex numbers. Several object modes are in `Model/ObjModes.lean`. Not modelled:
`simulate_finite_pixels`, devices and dtypes, plotting.
-/
import Verif.Model.Interactions
import Verif.Model.Measurements
import Verif.Model.Analysis
import Verif.Model.Py
import Mathlib.Data.ZMod.Basic
import Mathlib.Logic.Equiv.Fin.Basic

namespace Cdtools
open Finset Matrix

/-! ### Options -/

/-- The loss functions a model can have. -/
inductive LossKind | amplitudeMse | poissonNll | intensityMse
  deriving DecidableEq

/-- `str.lower` on one character. Simplification: ASCII. -/
def lowerChar (c : Char) : Char := c.toLower

/-- `str.strip` whitespace. Simplification: ASCII whitespace. -/
def isSpace (c : Char) : Bool := c.isWhitespace

/-- `loss.lower().strip()`. -/
def normalizeName (s : List Char) : List Char :=
  (((s.map lowerChar).dropWhile isSpace).reverse.dropWhile isSpace).reverse

/-- The choice of the loss function, `fancy_ptycho.py:222-236`. -/
def lossOf (name : List Char) : Except PyExc LossKind :=
  let s := normalizeName name
  if s = "amplitude mse".toList ∨ s = "amplitude_mse".toList then .ok .amplitudeMse
  else if s = "poisson nll".toList ∨ s = "poisson_nll".toList then .ok .poissonNll
  else if s = "intensity mse".toList ∨ s = "intensity_mse".toList then .ok .intensityMse
  else .error .keyError

/-- `save_results()['loss_function']`, `models/base.py:196-199`: the name of the function. -/
def lossFunctionName : LossKind → List Char
  | .amplitudeMse => "amplitude_mse".toList
  | .poissonNll => "poisson_nll".toList
  | .intensityMse => "intensity_mse".toList

/-- The weights of a model: one number per exposure, or one `r × k` matrix per exposure. -/
inductive Weights (N k : ℕ) where
  | perShot (w : Fin N → ℝ)
  | matrices (r : ℕ) (W : Fin N → Matrix (Fin r) (Fin k) ℂ)

/-- `dm_rank` in `from_dataset`, `fancy_ptycho.py:457-474`, for `k` modes and `N` exposures. A
negative size in `t.zeros` raises RuntimeError. -/
def initialWeights (N k : ℕ) (dmRank : Option ℤ) : Except PyExc (Weights N k) :=
  match dmRank with
  | none => .ok (.perShot fun _ => 1)
  | some d =>
    if d ≠ 0 then
      if d > k then .error .keyError
      else
        let d := if d = -1 then (k : ℤ) else d
        if d < 0 then .error .runtimeError
        else .ok (.matrices d.toNat fun _ => Matrix.of fun i j => if i.val = j.val then 1 else 0)
    else .ok (.perShot fun _ => 1)

/-- The scaling by the measured intensities, `fancy_ptycho.py:476-480`. -/
noncomputable def scaleWeights {N k : ℕ} (intensities : Option (Fin N → ℝ)) (W : Weights N k) :
    Weights N k :=
  match intensities with
  | none => W
  | some I =>
    let w : Fin N → ℝ := fun i => Real.sqrt (I i)
    let mean := (∑ i, w i) / N
    match W with
    | .perShot v => .perShot fun i => v i * (w i / mean)
    | .matrices r V => .matrices r fun i => Matrix.of fun a b => V i a b * ((w i / mean : ℝ) : ℂ)

/-- `obj_view_crop` in `from_dataset`, `fancy_ptycho.py:440-446`; `p0`, `p1` is the shape of the probe
(after Fourier cropping), `pfc` the Fourier crop. -/
def objViewCrop (p0 p1 pfc : ℕ) (crop : Option ℤ) (padding : ℤ) : ℤ :=
  let half : ℤ := ((min p0 p1 / 2 : ℕ) : ℤ) + pfc
  let c := match crop with
    | none => half
    | some c => if c < 0 then c + half else c
  c + padding

/-- `obj[self.obj_view_slice]`, `fancy_ptycho.py:149-153`, on the shape of the object: the slices apply to
the first two axes. -/
def objViewShape (crop : ℤ) (shape : List ℕ) : List ℕ :=
  if crop > 0 then
    match shape with
    | a :: b :: rest => (sliceExtent a crop (-crop)).2 :: (sliceExtent b crop (-crop)).2 :: rest
    | s => s
  else shape

/-! ### The model and its forward pass -/

/-- A `FancyPtycho` model with `k` probe modes on an `n × m` grid, exit waves on an `a × b` grid and `N`
exposures. `Transl` is a translation of the dataset. -/
structure Fancy (n m a b N k : ℕ) where
  probe : Fin k → Wave n m
  probeNorm : ℝ
  support : ZMod n → ZMod m → Bool
  weights : Weights N k
  fourierProbe : Bool
  obj : Img ℂ
  exponentiate : Bool
  phaseOnly : Bool
  nearField : Bool
  propagator : Wave a b
  objBasis : Matrix (Fin 3) (Fin 2) ℝ
  detBasis : Matrix (Fin 3) (Fin 2) ℝ
  normal : Fin 3 → ℝ
  minTranslation : Fin 2 → ℝ
  translationScale : ℝ
  offsets : Option (Fin N → Fin 2 → ℝ)
  fourierShifts : Option (Fin N → Fin 2 → ℝ)
  simulateTranslation : Bool
  oversampling : ℕ
  background : Img ℝ
  qe : Option (Img ℝ)
  saturation : Option ℝ

variable {n m a b N k : ℕ} [NeZero n] [NeZero m] [NeZero a] [NeZero b]

/-- `pix_trans`, `fancy_ptycho.py:551-559`. -/
noncomputable def Fancy.pixTrans (M : Fancy n m a b N k) (idx : Fin N) (t : Fin 3 → ℝ) : Fin 2 → ℝ :=
  let p := translationsToPixel M.objBasis M.normal t - M.minTranslation
  match M.offsets with
  | none => p
  | some o => p + M.translationScale • o idx

/-- The basis probes in real space, `fancy_ptycho.py:562-566`. -/
noncomputable def Fancy.basisProbes (M : Fancy n m a b N k) (j : Fin k) : Wave n m :=
  let p : Wave n m := fun x y => M.probe j x y * (if M.support x y then 1 else 0)
  if M.fourierProbe then inverseFarField p else p

/-- The number of modes of every exposure. -/
@[reducible] def Weights.rank {N k : ℕ} : Weights N k → ℕ
  | .perShot _ => k
  | .matrices r _ => r

/-- The probes of one exposure from the basis probes, `fancy_ptycho.py:569-588`. -/
noncomputable def shotProbes (W : Weights N k) (idx : Fin N) (basis : Fin k → Wave n m) :
    Fin W.rank → Wave n m :=
  match W with
  | .perShot w => fun j x y => (w idx : ℂ) * basis j x y
  | .matrices _ V => fun i x y => ∑ j, V idx i j * basis j x y

/-- The phase ramp, `fancy_ptycho.py:206-215,588-606`: `i / max(i)` is `i / (n - 1)`. The case of
`simulate_probe_translation` without Fourier shifts is an error, see `Fancy.forward`. -/
noncomputable def Fancy.ramp (M : Fancy n m a b N k) (idx : Fin N) (t : Fin 3 → ℝ) : Wave n m :=
  match M.fourierShifts with
  | none => fun _ _ => 1
  | some f =>
    let d : Fin 2 → ℝ := if M.simulateTranslation then f idx + translationsToPixel M.detBasis M.normal t else f idx
    fun x y => Complex.exp (Complex.I * (d 0 * (2 * Real.pi * (x.val / ((n : ℂ) - 1)) * M.oversampling) +
      d 1 * (2 * Real.pi * (y.val / ((m : ℂ) - 1)) * M.oversampling)))

/-- The rescaling of the probe to the detector grid, `fancy_ptycho.py:611-620`: zero padding in Fourier
space. The code skips it when the shapes agree; see `padProbe_self`. -/
noncomputable def padProbe (a b : ℕ) [NeZero a] [NeZero b] (p : Wave n m) : Wave a b :=
  let l0 := (a - n) / 2
  let l1 := (b - m) / 2
  inverseFarField fun x y =>
    if l0 ≤ x.val ∧ x.val < l0 + n ∧ l1 ≤ y.val ∧ y.val < l1 + m then
      farField p ((x.val - l0 : ℕ) : ZMod n) ((y.val - l1 : ℕ) : ZMod m) else 0

/-- The transmission function, `fancy_ptycho.py:623-629`. -/
noncomputable def Fancy.transmission (M : Fancy n m a b N k) : Img ℂ :=
  if M.exponentiate then
    if M.phaseOnly then M.obj.map fun z => Complex.exp (Complex.I * (z.re : ℂ))
    else M.obj.map fun z => Complex.exp (Complex.I * z)
  else M.obj

/-- `ptycho_2D_sinc` after the selection of the window, `interactions.py:459-495`; see `sincExit`. -/
noncomputable def sincApply (shiftBack : Bool) (tr : ℝ × ℝ) (sel : Wave n m) (probe : Wave n m) : Wave n m :=
  let mask : Wave n m := phaseMask (tr.1 - ⌊tr.1⌋) (tr.2 - ⌊tr.2⌋)
  let shifted := ifft2 (ifftshift2 fun x y => fftshift2 (fft2 probe) x y * mask x y)
  let output : Wave n m := fun i j => shifted i j * sel i j
  if shiftBack then
    ifft2 (ifftshift2 fun x y => fftshift2 (fft2 output) x y * (starRingEnd ℂ) (mask x y))
  else output

/-- `forward_propagator`, `fancy_ptycho.py:645-651`. -/
noncomputable def Fancy.propagate (M : Fancy n m a b N k) (w : Wave a b) : Wave a b :=
  if M.nearField then Cdtools.nearField M.propagator w else farField w

/-- What happens to one mode of the probe at one exposure, from the basis to the detector plane:
`interaction` (`fancy_ptycho.py:590-642`) and `forward_propagator`. -/
noncomputable def Fancy.toDetector (M : Fancy n m a b N k) (idx : Fin N) (t : Fin 3 → ℝ) (sel : Wave a b)
    (p : Wave n m) : Wave a b :=
  let tr := M.pixTrans idx t
  let ramped : Wave n m := fun x y => p x y * M.ramp idx t x y
  let ew : Wave a b := sincApply M.nearField (tr 0, tr 1) sel (padProbe a b ramped)
  M.propagate fun x y => (M.probeNorm : ℂ) * ew x y

/-- `forward` for one exposure: `interaction`, `forward_propagator` and `measurement`
(`fancy_ptycho.py:663-672`). The errors: `t.zeros_like(translations)` has three columns and cannot be added
to the two columns of `translations_to_pixel` (lines 592-598); a window overruns the object. -/
noncomputable def Fancy.forward (M : Fancy n m a b N k) (idx : Fin N) (t : Fin 3 → ℝ) :
    Except String (Img ℝ) :=
  if M.simulateTranslation ∧ M.fourierShifts = none then .error "RuntimeError" else
  let tr := M.pixTrans idx t
  (objWindow a b M.transmission ⌊tr 0⌋ ⌊tr 1⌋).map fun sel =>
    let shot := shotProbes M.weights idx M.basisProbes
    let modes : List (ℕ → ℕ → ℂ) := List.ofFn fun i => fun x y => M.toDetector idx t sel (shot i) x y
    measQuadratic { saturation := M.saturation, oversampling := M.oversampling } M.background M.qe
      (sumModes a b modes)

/-! ### Construction -/

/-- The constructor's treatment of the probe and the offsets, `fancy_ptycho.py:126-141,181-200`: the probe
is divided by the largest modulus of its first mode and cut to the support, the offsets are divided by
their scale. (The division by zero for a vanishing first mode gives NaN in the code.) -/
noncomputable def probeNormOf {k : ℕ} (guess : Fin (k + 1) → Wave n m) : ℝ :=
  ⨆ p : ZMod n × ZMod m, ‖guess 0 p.1 p.2‖

/-- The arguments of the constructor that are transformed. -/
structure FancyArgs (n m N k : ℕ) where
  probeGuess : Fin (k + 1) → Wave n m
  translationOffsets : Option (Fin N → Fin 2 → ℝ)
  probeFourierShifts : Option (Fin N → Fin 2 → ℝ)
  translationScale : ℝ
  probeSupport : Option (ZMod n → ZMod m → Bool)

/-- What the constructor stores. -/
structure FancyParams (n m N k : ℕ) where
  probe : Fin (k + 1) → Wave n m
  probeNorm : ℝ
  support : ZMod n → ZMod m → Bool
  offsets : Option (Fin N → Fin 2 → ℝ)
  fourierShifts : Option (Fin N → Fin 2 → ℝ)

/-- `__init__`, `fancy_ptycho.py:131-141,174-200`. The probe Fourier shifts are initialized from the
translation offsets (line 187-189); without offsets, `t.as_tensor(None)` raises. -/
noncomputable def fancyInit (A : FancyArgs n m N k) : Except PyExc (FancyParams n m N k) :=
  let support := A.probeSupport.getD fun _ _ => true
  let norm := probeNormOf A.probeGuess
  let offsets := A.translationOffsets.map fun o i => (1 / A.translationScale) • o i
  let probe : Fin (k + 1) → Wave n m := fun j x y =>
    A.probeGuess j x y / norm * (if support x y then 1 else 0)
  match A.probeFourierShifts, A.translationOffsets with
  | none, _ => .ok ⟨probe, norm, support, offsets, none⟩
  | some _, some o => .ok ⟨probe, norm, support, offsets, some o⟩
  | some _, none => .error .typeError

/-! ### tidy_probes -/

/-- Row-major flattening of the last two axes. -/
def flat (n m : ℕ) [NeZero n] [NeZero m] : ZMod n × ZMod m ≃ Fin (n * m) :=
  ((ZMod.finEquiv n).symm.toEquiv.prodCongr (ZMod.finEquiv m).symm.toEquiv).trans finProdFinEquiv

/-- A stack of probes as a matrix with flattened rows. -/
def flatten2 (P : Fin k → Wave n m) : Matrix (Fin k) (Fin (n * m)) ℂ :=
  Matrix.of fun i x => P i ((flat n m).symm x).1 ((flat n m).symm x).2

/-- Back to a stack of probes. -/
def unflatten2 (P : Matrix (Fin k) (Fin (n * m)) ℂ) : Fin k → Wave n m := fun i x y => P i (flat n m (x, y))

/-- `t.cat(t.unbind(weights, dim=0), dim=0)`, `fancy_ptycho.py:818`. -/
def catWeights {r : ℕ} (W : Fin N → Matrix (Fin r) (Fin k) ℂ) : Matrix (Fin (N * r)) (Fin k) ℂ :=
  Matrix.of fun i j => W (finProdFinEquiv.symm i).1 (finProdFinEquiv.symm i).2 j

/-- `t.stack(t.split(reexpressed_weights, r), dim=0)`, `fancy_ptycho.py:841-842`. -/
def splitWeights {r k' : ℕ} (U : Matrix (Fin (N * r)) (Fin k') ℂ) : Fin N → Matrix (Fin r) (Fin k') ℂ :=
  fun i => Matrix.of fun a j => U (finProdFinEquiv (i, a)) j

/-- `tidy_probes` for per-exposure numbers, `fancy_ptycho.py:806-809`. -/
noncomputable def tidySimple (la : LinAlg) (P : Fin k → Wave n m) : Fin (min k (n * m)) → Wave n m :=
  unflatten2 (orthogonalizeProbes la (flatten2 P)).1

/-- `t.linalg.norm(probe, dim=(-2, -1))`, `fancy_ptycho.py:861`. -/
noncomputable def sqrtIntensities (P : Fin k → Wave n m) (i : Fin k) : ℝ :=
  Real.sqrt (∑ x, ∑ y, ‖P i x y‖ ^ 2)

/-- The number of modes after `tidy_probes` with weight matrices. -/
abbrev tidyModes (N r k x : ℕ) : ℕ := min (min (N * r) k) (min x k)

/-- The new basis and re-expressed weights, `fancy_ptycho.py:818-848`. -/
noncomputable def tidyBasis (la : LinAlg) {r : ℕ} (P : Fin k → Wave n m)
    (W : Fin N → Matrix (Fin r) (Fin k) ℂ) :
    (Fin (tidyModes N r k (n * m)) → Wave n m) × (Fin N → Matrix (Fin r) (Fin (tidyModes N r k (n * m))) ℂ) :=
  let o := orthogonalizeProbesW la (flatten2 P) (catWeights W)
  (unflatten2 ((1 / (Real.sqrt N : ℂ)) • o.1), splitWeights ((Real.sqrt N : ℂ) • o.2))

/-- The per-exposure step, `fancy_ptycho.py:859-868`: `S[:,:,None] * (Vh / probe_sqrt_intensities)`. -/
noncomputable def tidyShot (la : LinAlg) {r : ℕ} (σ : Fin k → ℝ) (W : Matrix (Fin r) (Fin k) ℂ) :
    Matrix (Fin (min r k)) (Fin k) ℂ :=
  let s := la.svd (Matrix.of fun i j => W i j * (σ j : ℂ))
  Matrix.of fun i j => (s.2.1 i : ℂ) * (s.2.2 i j / (σ j : ℂ))

/-- `tidy_probes` with weight matrices, `fancy_ptycho.py:811-868`. `none`: a mode of the new basis vanishes
and the division by its norm makes the weights infinite or NaN. -/
noncomputable def tidyMatrices (la : LinAlg) {r : ℕ} (P : Fin k → Wave n m)
    (W : Fin N → Matrix (Fin r) (Fin k) ℂ) :
    Option ((Fin (tidyModes N r k (n * m)) → Wave n m) ×
      (Fin N → Matrix (Fin (min r (tidyModes N r k (n * m)))) (Fin (tidyModes N r k (n * m))) ℂ)) :=
  let q := tidyBasis la P W
  let σ := sqrtIntensities q.1
  if ∀ i, σ i ≠ 0 then some (q.1, fun i => tidyShot la σ (q.2 i)) else none

/-- The model with other probes and weights. -/
def Fancy.withProbe {k' : ℕ} (M : Fancy n m a b N k) (P : Fin k' → Wave n m) (W : Weights N k') :
    Fancy n m a b N k' where
  probe := P
  weights := W
  probeNorm := M.probeNorm
  support := M.support
  fourierProbe := M.fourierProbe
  obj := M.obj
  exponentiate := M.exponentiate
  phaseOnly := M.phaseOnly
  nearField := M.nearField
  propagator := M.propagator
  objBasis := M.objBasis
  detBasis := M.detBasis
  normal := M.normal
  minTranslation := M.minTranslation
  translationScale := M.translationScale
  offsets := M.offsets
  fourierShifts := M.fourierShifts
  simulateTranslation := M.simulateTranslation
  oversampling := M.oversampling
  background := M.background
  qe := M.qe
  saturation := M.saturation

/-- `tidy_probes`, `fancy_ptycho.py:790-868`: the number of modes may change. -/
noncomputable def Fancy.tidy (la : LinAlg) (M : Fancy n m a b N k) : Option (Σ k', Fancy n m a b N k') :=
  match M.weights with
  | .perShot w => some ⟨_, M.withProbe (tidySimple la M.probe) (.perShot w)⟩
  | .matrices _ W => (tidyMatrices la M.probe W).map fun q => ⟨_, M.withProbe q.1 (.matrices _ q.2)⟩

/-! ### Further methods -/

/-- `get_probe_intensities`, `fancy_ptycho.py:874-918`. -/
noncomputable def probeIntensities (P : Fin k → Wave n m) (W : Weights N k) (i : Fin N) : ℝ :=
  match W with
  | .perShot w => w i ^ 2
  | .matrices _ V =>
    let G : Matrix (Fin k) (Fin k) ℂ := Matrix.of fun u v => ∑ x, ∑ y, P u x y * (starRingEnd ℂ) (P v x y)
    (Matrix.trace (V i * G * (V i)ᴴ) / Matrix.trace G).re

/-- `corrected_translations`, `fancy_ptycho.py:730-750`, of exposure `idx`. -/
noncomputable def Fancy.correctedTranslation (M : Fancy n m a b N k) (idx : Fin N) (t : Fin 3 → ℝ) :
    Fin 3 → ℝ :=
  match M.offsets with
  | none => t
  | some o => t + pixelToTranslations M.objBasis M.normal (M.translationScale • o idx)

/-- `backward_propagator`, `fancy_ptycho.py:654-660`: in the near field the code reads the attribute
`inverse_angular_spectrum_propagator`, which no model has (the buffer is `inv_angular_spectrum_propagator`,
lines 100-105). -/
noncomputable def Fancy.backpropagate (M : Fancy n m a b N k) (w : Wave a b) : Except PyExc (Wave a b) :=
  if M.nearField then .error .attributeError else .ok (inverseFarField w)

/-- `self.forward(idx, trans)` on a batch: the exposures are simulated one by one; the first failure raises. -/
def forwardBatch {I T P : Type} (forward : I → T → Except String P) (idx : List I) (trans : List T) :
    Except String (List P) :=
  (List.zipWith forward idx trans).mapM id

/-- `sim_to_dataset`, `fancy_ptycho.py:678-727`: the patterns. A width of zero (also for an empty list without
a width) is `range`'s ValueError; concatenating no chunks is RuntimeError. -/
def simPatterns {I T P : Type} (forward : I → T → Except String P) (indices : List I) (translations : List T)
    (width : Option ℤ) : Except String (List P) :=
  let w := width.getD indices.length
  if w = 0 then .error "ValueError"
  else if w < 0 then .error "RuntimeError"
  else if indices = [] then .error "RuntimeError"
  else
    let chunks := (pyChunks indices.length w.toNat indices).zip (pyChunks indices.length w.toNat translations)
    (chunks.mapM fun c => forwardBatch forward c.1 c.2).map List.flatten

/-- The orientation stored with simulated data, `fancy_ptycho.py:688-693`: rows. -/
noncomputable def simOrientation (normal : Vec3) : Vec3 × Vec3 × Vec3 :=
  let x := (Vec3.cross ![0, 1, 0] normal).unit
  (x, (Vec3.cross normal x).unit, normal)

end Cdtools
