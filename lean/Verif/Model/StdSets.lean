/-
`tools/analysis/analysis.py`: `standardize_reconstruction_set` and `standardize_reconstruction_pair` as whole
functions (gauge corrections, alignment, comparison, packaging).

Simplifications: objects and probes of the reconstructions have equal shapes; the window is a pair of slices inside the
object with at least two rows and columns; the keys of the dictionaries are looked up before anything is computed;
`scipy.optimize.minimize` is an arbitrary function, as in `Model/ReconSets.lean`; the pixel pitches `|obj_basis[:,0]|`,
`|obj_basis[:,1]|` and those of `probe_basis` are given numbers.
-/
import Verif.Model.ReconSets
import Verif.Model.ImageProc

namespace Cdtools
open Finset

section
variable {r n m a b : ℕ} [NeZero n] [NeZero m] [NeZero a] [NeZero b]

/-- An array of shape `a × b` as an image. -/
def toImg (w : Wave a b) : Img ℂ := ⟨a, b, fun i j => w (i : ZMod a) (j : ZMod b)⟩

/-- The array of shape `a × b` of an image. -/
def ofImg (im : Img ℂ) : Wave a b := fun i j => im.px i.val j.val

/-- `np.abs`. -/
noncomputable def absWave (w : Wave a b) : Wave a b := fun i j => ((‖w i j‖ : ℝ) : ℂ)

/-- `hann_window`, `image_processing.py:18-37`, of a real or complex array. -/
noncomputable def hannWave (w : Wave a b) : Wave a b := fun i j =>
  w i j * ((hannWindow a b (fun _ _ => 1) i.val j.val : ℝ) : ℂ)

/-- What the two functions read from a dictionary returned by `save_results`. The translations are in pixels of the
object. -/
structure SavedHalf (r n m a b : ℕ) where
  keys : List String
  obj : Wave a b
  probe : Fin (r + 1) → Wave n m
  weights : List ℝ
  translations : List (ℝ × ℝ)
  background : ZMod n → ZMod m → ℝ

/-- The window as slices. -/
def winOf (c d r0 c0 : ℕ) : Win := ⟨r0, c, c0, d⟩

/-- The gauge corrections of `standardize_reconstruction_pair`, `analysis.py:1338-1362`, on one reconstruction: the
phase ramp of object and probe, the amplitude exponent of object and probe (not of the weights), the phase offset. -/
noncomputable def pairGauge (minimize : ((Fin 2 → ℝ) → ℝ) → (Fin 2 → ℝ) → (Fin 2 → ℝ))
    (minimizeA : ((Fin 3 → ℝ) → ℝ) → (Fin 3 → ℝ) → (Fin 3 → ℝ)) (o : SetOpts) (W : Win) (obj : Wave a b)
    (probe : Fin (r + 1) → Wave n m) : Wave a b × (Fin (r + 1) → Wave n m) :=
  let p := if o.phaseRamp then removePhaseRamp minimize (toImg obj) W probe else (toImg obj, probe)
  let q := if o.amplitudeExponent then removeAmplitudeExponent minimizeA p.1 W p.2 else p
  (ofImg (if o.phaseOffset then q.1.map (unphase (q.1.crop W).total) else q.1), q.2)

/-- The dictionary `standardize_reconstruction_pair` returns, `analysis.py:1400-1427`, without the wavelength and the two
bases (copied from the first half). `callerProbe2` is not in it: it is what the array `half_2['probe']` of the caller
holds afterwards. -/
structure PairOut (r n m a b : ℕ) where
  obj1 : Wave a b
  probe1 : Fin (r + 1) → Wave n m
  weights1 : List ℝ
  translations1 : List (ℝ × ℝ)
  background1 : ZMod n → ZMod m → ℝ
  obj2 : Wave a b
  probe2 : Fin (r + 1) → Wave n m
  weights2 : List ℝ
  translations2 : List (ℝ × ℝ)
  background2 : ZMod n → ZMod m → ℝ
  frc : List (ℝ × Option ℂ × ℝ)
  ssnr : List (Option ℝ)
  probeFrc : List (ℝ × Option ℝ × ℝ)
  nmse : Option ℝ
  nrms : Option ℝ
  callerProbe2 : Fin (r + 1) → Wave n m

/-- `standardize_reconstruction_pair`, `analysis.py:1286-1427`. `minimize` and `minimizeA` are the two minimizations,
`c × d` the shape and `(r0, c0)` the corner of the window, `(d0, d1)` and `(p0, p1)` the pixel pitches of object and probe.
`probe_2[idx] = ...` (line 1379) assigns into the array: after a gauge correction that is a new array, otherwise it is the
caller's `half_2['probe']`. `none` in `nmse` and `nrms`: division by zero. -/
noncomputable def standardizePair (la : LinAlg) (minimize : ((Fin 2 → ℝ) → ℝ) → (Fin 2 → ℝ) → (Fin 2 → ℝ))
    (minimizeA : ((Fin 3 → ℝ) → ℝ) → (Fin 3 → ℝ) → (Fin 3 → ℝ)) (o : SetOpts) (c d r0 c0 : ℕ) [NeZero c] [NeZero d]
    (nbins probeNbins : Option ℕ) (limit : String) (d0 d1 p0 p1 : ℝ) (half1 half2 : SavedHalf r n m a b) :
    Except String (PairOut r n m a b) :=
  let needed := ["obj", "probe", "weights"] ++ (if o.amplitudeExponent then ["obj_basis", "translations"] else []) ++
    ["translations", "background"]
  match requireKeys half1.keys (needed ++ ["obj_basis", "probe_basis", "wavelength"]) with
  | .error e => .error ("KeyError " ++ e)
  | .ok _ =>
  match requireKeys half2.keys needed with
  | .error e => .error ("KeyError " ++ e)
  | .ok _ =>
  let g1 := pairGauge minimize minimizeA o (winOf c d r0 c0) half1.obj half1.probe
  let g2 := pairGauge minimize minimizeA o (winOf c d r0 c0) half2.obj half2.probe
  match findShift 10 (hannWave (cropWave c d r0 c0 g1.1)) (hannWave (cropWave c d r0 c0 g2.1)) with
  | .error e => .error e
  | .ok shift =>
  let obj2 := sincShift g2.1 shift.1 shift.2
  match findShift 10 (g1.2 0) (g2.2 0) with
  | .error e => .error e
  | .ok probeShift =>
  let probe2 : Fin (r + 1) → Wave n m := fun k => sincShift (g2.2 k) probeShift.1 probeShift.2
  match calcFrc nbins limit 1 d0 d1 (hannWave (cropWave c d r0 c0 g1.1)) (hannWave (cropWave c d r0 c0 obj2)) with
  | .error e => .error e
  | .ok frc =>
  match calcGeneralizedFrc la probeNbins limit 1 p0 p1 g1.2 probe2 with
  | .error e => .error e
  | .ok probeFrc =>
  let i1 := ∑ k, ∑ i, ∑ j, ‖g1.2 k i j‖ ^ 2
  let i2 := ∑ k, ∑ i, ∑ j, ‖probe2 k i j‖ ^ 2
  .ok { obj1 := g1.1, probe1 := g1.2, weights1 := half1.weights, translations1 := half1.translations,
        background1 := half1.background, obj2 := obj2, probe2 := probe2, weights2 := half2.weights,
        translations2 := half2.translations, background2 := half2.background, frc := frc,
        ssnr := frc.map fun q => q.2.1.bind ssnrPair, probeFrc := probeFrc,
        nmse := if i1 * i2 = 0 then none else some (1 - calcFidelity la (flatten2 g1.2) (flatten2 probe2) / (i1 * i2)),
        nrms := if i1 = 0 then none else some (generalizedRms la true (flatten2 g1.2) (flatten2 probe2)),
        callerProbe2 := if o.phaseRamp || o.amplitudeExponent then half2.probe else probe2 }

/-- One reconstruction in the dictionary `standardize_reconstruction_set` returns. -/
structure SetPart (r n m a b : ℕ) where
  obj : Wave a b
  probe : Fin (r + 1) → Wave n m
  weights : List ℝ
  translations : List (ℝ × ℝ)
  background : ZMod n → ZMod m → ℝ

/-- The dictionary `standardize_reconstruction_set` returns, `analysis.py:1261-1283`, without the wavelength and the two
bases (copied from the full reconstruction). -/
structure SetOut (r n m a b : ℕ) where
  half1 : SetPart r n m a b
  half2 : SetPart r n m a b
  full : SetPart r n m a b
  frc : List (ℝ × Option ℂ × ℝ)
  ssnr : List (Option ℝ)

/-- `standardize_reconstruction_set`, `analysis.py:1152-1283`. Simplification: with `correct_amplitude_exponent` the weights
change too (`removeAmplitudeExponentW`); the dictionaries of this library make that option fail (`set_amplitude_exponent_violated`),
and the weights of dictionaries that do have a `basis` are not modelled here. -/
noncomputable def standardizeSet (minimize : ((Fin 2 → ℝ) → ℝ) → (Fin 2 → ℝ) → (Fin 2 → ℝ))
    (minimizeA : ((Fin 3 → ℝ) → ℝ) → (Fin 3 → ℝ) → (Fin 3 → ℝ)) (o : SetOpts) (c d r0 c0 : ℕ) [NeZero c] [NeZero d]
    (nbins : Option ℕ) (limit : String) (d0 d1 : ℝ) (half1 half2 full : SavedHalf r n m a b) :
    Except String (SetOut r n m a b) :=
  match setGauge minimize minimizeA o half1.keys (winOf c d r0 c0) (toImg half1.obj) half1.probe with
  | .error e => .error e
  | .ok g1 =>
  match setGauge minimize minimizeA o half2.keys (winOf c d r0 c0) (toImg half2.obj) half2.probe with
  | .error e => .error e
  | .ok g2 =>
  match setGauge minimize minimizeA o full.keys (winOf c d r0 c0) (toImg full.obj) full.probe with
  | .error e => .error e
  | .ok g =>
  let target := hannWave (absWave (cropWave c d r0 c0 (ofImg g.1 : Wave a b)))
  match findShift 10 target (hannWave (absWave (cropWave c d r0 c0 (ofImg g1.1 : Wave a b)))) with
  | .error e => .error e
  | .ok s1 =>
  let obj1 : Wave a b := sincShift (ofImg g1.1) s1.1 s1.2
  match findShift 10 target (hannWave (absWave (cropWave c d r0 c0 (ofImg g2.1 : Wave a b)))) with
  | .error e => .error e
  | .ok s2 =>
  let obj2 : Wave a b := sincShift (ofImg g2.1) s2.1 s2.2
  match calcFrc nbins limit 1 d0 d1 (hannWave (cropWave c d r0 c0 obj1)) (hannWave (cropWave c d r0 c0 obj2)) with
  | .error e => .error e
  | .ok frc =>
  let needed := ["translations", "background"]
  match requireKeys half1.keys needed, requireKeys half2.keys needed,
      requireKeys full.keys (["obj_basis", "probe_basis", "wavelength"] ++ needed) with
  | .ok _, .ok _, .ok _ =>
    .ok { half1 := ⟨obj1, g1.2, half1.weights, half1.translations, half1.background⟩,
          half2 := ⟨obj2, g2.2, half2.weights, half2.translations, half2.background⟩,
          full := ⟨ofImg g.1, g.2, full.weights, full.translations, full.background⟩,
          frc := frc, ssnr := frc.map fun q => q.2.1.bind ssnrSet }
  | .error e, _, _ => .error ("KeyError " ++ e)
  | _, .error e, _ => .error ("KeyError " ++ e)
  | _, _, .error e => .error ("KeyError " ++ e)

end

end Cdtools
