/-
`tools/analysis/analysis.py`, the functions that compare and combine reconstructions:
`synthesize_reconstructions`, `calc_consistency_prtf`, `calc_deconvolved_cross_correlation`,
`calc_generalized_frc`, `remove_phase_ramp`, `remove_amplitude_exponent`, `make_illumination_map`, the
gauge corrections of `standardize_reconstruction_set` / `_pair`, and `calc_spectral_info`.

`scipy.optimize.minimize` is not modelled: it enters as an arbitrary function of the cost function and
the starting point. Floats are real/complex numbers; the numpy/torch conversions are not modelled.
-/
import Verif.Model.Analysis
import Verif.Model.FancyPtycho

namespace Cdtools
open Finset Matrix

variable {n m : ℕ} [NeZero n] [NeZero m]

/-! ### Windows -/

/-- A pair of slices `r0 : r0 + h, c0 : c0 + w` inside the array. -/
structure Win where
  r0 : ℕ
  h : ℕ
  c0 : ℕ
  w : ℕ

/-- `im[window]`. -/
def Img.crop {α : Type} (im : Img α) (W : Win) : Img α := ⟨W.h, W.w, fun i j => im.px (W.r0 + i) (W.c0 + j)⟩

/-! ### remove_phase_ramp -/

/-- `zero_freq_component`, `analysis.py:1068-1070`. -/
noncomputable def zeroFreqCost (window : Img ℂ) (freq : Fin 2 → ℝ) : ℝ :=
  -‖(Img.zip (· * ·) ⟨window.h, window.w, phaseRamp (freq 0) (freq 1)⟩ window).total‖ ^ 2

/-- `im * phase_ramp`, `analysis.py:1076-1078`. -/
noncomputable def rampObj (f : Fin 2 → ℝ) (im : Img ℂ) : Img ℂ :=
  ⟨im.h, im.w, fun i j => im.px i j * phaseRamp (f 0) (f 1) i j⟩

/-- `probe * phase_ramp` with the opposite sign, `analysis.py:1080-1083`, for every mode. -/
noncomputable def rampProbe {k : ℕ} (f : Fin 2 → ℝ) (probe : Fin k → Wave n m) : Fin k → Wave n m :=
  fun a i j => probe a i j * phaseRamp (-f 0) (-f 1) i.val j.val

/-- `remove_phase_ramp(im, window, probe)`, `analysis.py:1063-1088`; `minimize` is
`opt.minimize(·, x0)['x']`. -/
noncomputable def removePhaseRamp {k : ℕ} (minimize : ((Fin 2 → ℝ) → ℝ) → (Fin 2 → ℝ) → (Fin 2 → ℝ)) (im : Img ℂ) (W : Win)
    (probe : Fin k → Wave n m) : Img ℂ × (Fin k → Wave n m) :=
  let f := minimize (zeroFreqCost (im.crop W)) ![0, 0]
  (rampObj f im, rampProbe f probe)

/-! ### remove_amplitude_exponent -/

/-- `rms_error`, `analysis.py:1095-1099`. -/
noncomputable def exponentCost (window : Img ℝ) (x : Fin 3 → ℝ) : ℝ :=
  ∑ i ∈ range window.h, ∑ j ∈ range window.w,
    (window.px i j - x 0 * Real.exp (x 1 * i + x 2 * j)) ^ 2

/-- `im * exponential_decay`, `analysis.py:1105-1107`. -/
noncomputable def decayObj (g : ℝ × ℝ) (im : Img ℂ) : Img ℂ :=
  ⟨im.h, im.w, fun i j => im.px i j * (Real.exp (-(g.1 * i + g.2 * j)) : ℂ)⟩

/-- `probe * exponential_decay` with the opposite sign, `analysis.py:1110-1113`. -/
noncomputable def growProbe {k : ℕ} (g : ℝ × ℝ) (probe : Fin k → Wave n m) : Fin k → Wave n m :=
  fun a i j => probe a i j * (Real.exp (g.1 * i.val + g.2 * j.val) : ℂ)

/-- The factors of the weights, `analysis.py:1116-1119`: `exp(growth_rate · (T - min T))`, `T` the pixel
translations. -/
noncomputable def weightFactor {N : ℕ} (g : ℝ × ℝ) (T : Fin (N + 1) → Fin 2 → ℝ) (i : Fin (N + 1)) : ℝ :=
  Real.exp (g.1 * (T i 0 - univ.inf' univ_nonempty fun l => T l 0) +
    g.2 * (T i 1 - univ.inf' univ_nonempty fun l => T l 1))

/-- `weights * factors` for one weight per exposure. -/
noncomputable def expWeights {N : ℕ} (g : ℝ × ℝ) (T : Fin (N + 1) → Fin 2 → ℝ) (w : Fin (N + 1) → ℝ) :
    Fin (N + 1) → ℝ := fun i => w i * weightFactor g T i

/-- `weights * factors` for weight matrices (an `N+1 × r × k` array times an array of length `N+1`,
`analysis.py:1119`): numpy broadcasts along the *last* axis; lengths that differ are ValueError.
Simplification: `k = 1` and `N + 1 = 1`, where one side is stretched, are not modelled. -/
noncomputable def expWeightMatrices {N r k : ℕ} (g : ℝ × ℝ) (T : Fin (N + 1) → Fin 2 → ℝ)
    (w : Fin (N + 1) → Matrix (Fin r) (Fin k) ℂ) :
    Except PyExc (Fin (N + 1) → Matrix (Fin r) (Fin k) ℂ) :=
  if h : k = N + 1 then
    .ok fun i => Matrix.of fun a j => w i a j * (weightFactor g T (Fin.cast h j) : ℂ)
  else .error .valueError

/-- The fitted growth rate, `analysis.py:1092-1103`. -/
noncomputable def fitGrowth (minimize : ((Fin 3 → ℝ) → ℝ) → (Fin 3 → ℝ) → (Fin 3 → ℝ)) (im : Img ℂ) (W : Win) : ℝ × ℝ :=
  let x := minimize (exponentCost ((im.crop W).map fun z => ‖z‖)) ![1, 0, 0]
  (x 1, x 2)

/-- `remove_amplitude_exponent(im, window, probe=probe)`, `analysis.py:1091-1127`. -/
noncomputable def removeAmplitudeExponent {k : ℕ} (minimize : ((Fin 3 → ℝ) → ℝ) → (Fin 3 → ℝ) → (Fin 3 → ℝ)) (im : Img ℂ)
    (W : Win) (probe : Fin k → Wave n m) : Img ℂ × (Fin k → Wave n m) :=
  let g := fitGrowth minimize im W
  (decayObj g im, growProbe g probe)

/-- `remove_amplitude_exponent(im, window, probe=probe, weights=w, basis=..., translations=...)` for one
weight per exposure; `T` are the pixel translations. -/
noncomputable def removeAmplitudeExponentW {k N : ℕ} (minimize : ((Fin 3 → ℝ) → ℝ) → (Fin 3 → ℝ) → (Fin 3 → ℝ)) (im : Img ℂ)
    (W : Win) (probe : Fin k → Wave n m) (w : Fin (N + 1) → ℝ) (T : Fin (N + 1) → Fin 2 → ℝ) :
    Img ℂ × (Fin k → Wave n m) × (Fin (N + 1) → ℝ) :=
  let g := fitGrowth minimize im W
  (decayObj g im, growProbe g probe, expWeights g T w)

/-! ### make_illumination_map and the result dictionaries -/

/-- The keys of the dictionary `FancyPtycho.save_results` returns (`fancy_ptycho.py:1222-1234` and
`base.py:194-202`). -/
def fancySaveKeys : List String :=
  ["state_dict", "loss_history", "epoch", "training_history", "loss_function", "model_class", "cdtools_version",
   "obj_basis", "probe_basis", "translations", "original_translations", "probe", "obj", "background",
   "oversampling", "weights", "wavelength"]

/-- `results[key]` for every key in turn: KeyError at the first that is missing. -/
def requireKeys (keys : List String) : List String → Except String Unit
  | [] => .ok ()
  | k :: ks => if k ∈ keys then requireKeys keys ks else .error k

/-- `probe_intensity`, `analysis.py:1132-1134`. `none`: the division by zero (NaN). -/
noncomputable def probeIntensityMap {k : ℕ} (probe : Fin k → Wave n m) (total : Option ℝ) :
    Option (ZMod n → ZMod m → ℝ) :=
  let I : ZMod n → ZMod m → ℝ := fun i j => ∑ a, ‖probe a i j‖ ^ 2
  match total with
  | none => some I
  | some s => if ∑ i, ∑ j, I i j = 0 then none else some fun i j => I i j / (∑ i, ∑ j, I i j) * s

/-- `illumination_map[t0 : t0 + n, t1 : t1 + m] += probe_intensity`, `analysis.py:1146-1148`: ValueError
unless the slice has the shape of the probe. Simplification: slices of length one, which numpy would
broadcast, are errors too. -/
def addWindow (I : ZMod n → ZMod m → ℝ) (map : Img ℝ) (t : ℤ × ℤ) : Except String (Img ℝ) :=
  let s0 := sliceExtent map.h t.1 (t.1 + n)
  let s1 := sliceExtent map.w t.2 (t.2 + m)
  if s0.2 = n ∧ s1.2 = m then
    .ok ⟨map.h, map.w, fun i j =>
      if s0.1 ≤ i ∧ i < s0.1 + n ∧ s1.1 ≤ j ∧ j < s1.1 + m then
        map.px i j + I ((i - s0.1 : ℕ) : ZMod n) ((j - s1.1 : ℕ) : ZMod m) else map.px i j⟩
  else .error "ValueError"

/-- `make_illumination_map(results, total_probe_intensity)`, `analysis.py:1130-1150`: `keys` are those of the
dictionary, `T` the pixel translations and `minT` the stored minimum. The argument `padding` is not used by
the code. -/
noncomputable def makeIlluminationMap {k : ℕ} (keys : List String) (probe : Fin k → Wave n m) (h w : ℕ)
    (T : List (ℝ × ℝ)) (minT : ℝ × ℝ) (total : Option ℝ) : Except String (Option (Img ℝ)) :=
  match requireKeys keys ["probe", "obj", "translations", "basis", "state_dict"] with
  | .error e => .error ("KeyError " ++ e)
  | .ok _ =>
    match probeIntensityMap probe total with
    | none => .ok none
    | some I =>
      ((T.map fun t => (roundHalfEven (t.1 - minT.1), roundHalfEven (t.2 - minT.2))).foldlM (addWindow I)
        ⟨h, w, fun _ _ => 0⟩).map some

/-! ### standardize_reconstruction_set -/

/-- The options. -/
structure SetOpts where
  phaseOffset : Bool := true
  phaseRamp : Bool := true
  amplitudeExponent : Bool := false

/-- What the gauge corrections of `standardize_reconstruction_set` (`analysis.py:1204-1238`) do to one
reconstruction (object and probe; the weights are only changed by the amplitude correction). `window` is the
argument of that name; for a dictionary with the keys `keys`, the amplitude correction needs `basis`. -/
noncomputable def setGauge {k : ℕ} (minimize : ((Fin 2 → ℝ) → ℝ) → (Fin 2 → ℝ) → (Fin 2 → ℝ))
    (minimizeA : ((Fin 3 → ℝ) → ℝ) → (Fin 3 → ℝ) → (Fin 3 → ℝ)) (o : SetOpts) (keys : List String) (W : Win) (obj : Img ℂ)
    (probe : Fin k → Wave n m) : Except String (Img ℂ × (Fin k → Wave n m)) :=
  match requireKeys keys ["obj", "probe", "weights"] with
  | .error e => .error ("KeyError " ++ e)
  | .ok _ =>
    let p := if o.phaseRamp then removePhaseRamp minimize obj W probe else (obj, probe)
    let amp : Except String (Img ℂ × (Fin k → Wave n m)) :=
      if o.amplitudeExponent then
        match requireKeys keys ["weights", "basis", "translations"] with
        | .error e => .error ("KeyError " ++ e)
        | .ok _ => .ok (removeAmplitudeExponent minimizeA p.1 W p.2)
      else .ok p
    amp.map fun q =>
      (if o.phaseOffset then q.1.map (unphase (q.1.crop W).total) else q.1, q.2)

/-- `ssnr` of `standardize_reconstruction_set`, `analysis.py:1259`; `none` for the division by zero. -/
noncomputable def ssnrSet (frc : ℂ) : Option ℝ := if 1 - ‖frc‖ = 0 then none else some (2 * ‖frc‖ / (1 - ‖frc‖))

/-- `ssnr` of `standardize_reconstruction_pair`, `analysis.py:1398`. -/
noncomputable def ssnrPair (frc : ℂ) : Option ℝ := if 1 - ‖frc‖ = 0 then none else some (‖frc‖ / (1 - ‖frc‖))

/-! ### synthesize_reconstructions -/

section Synth
variable {r a b c d : ℕ} [NeZero a] [NeZero b] [NeZero c] [NeZero d]

/-- `obj[obj_slice]` for the slice of shape `c × d` that starts at `(r0, c0)`. -/
def cropWave (c d : ℕ) (r0 c0 : ℕ) (w : Wave a b) : Wave c d := fun i j =>
  w ((r0 + i.val : ℕ) : ZMod a) ((c0 + j.val : ℕ) : ZMod b)

/-- The pixels of that slice. -/
def rectSlice (a b c d : ℕ) [NeZero a] [NeZero b] (r0 c0 : ℕ) : Finset (ZMod a × ZMod b) :=
  univ.filter fun p => r0 ≤ p.1.val ∧ p.1.val < r0 + c ∧ c0 ≤ p.2.val ∧ p.2.val < c0 + d

/-- The state of the loop: sums and stack. -/
structure SynthState (r n m a b : ℕ) where
  probe : Fin (r + 1) → Wave n m
  obj : Wave a b
  stack : List (Wave a b)

/-- One iteration, `analysis.py:347-365`. `none`: NaN. -/
noncomputable def synthStep (useProbe correctRamp : Bool) (c d r0 c0 : ℕ) [NeZero c] [NeZero d] (s : SynthState r n m a b)
    (R : Recon r n m a b) : Except String (Option (SynthState r n m a b)) :=
  match standardize (rectSlice a b c d r0 c0) correctRamp R with
  | none => .ok none
  | some R' =>
    let shift := if useProbe then findShift 50 (s.probe 0) (R'.probe 0)
      else findShift 50 (cropWave c d r0 c0 s.obj) (cropWave c d r0 c0 R'.obj)
    match shift with
    | .error e => .error e
    | .ok sh =>
      let obj := sincShift R'.obj sh.1 sh.2
      .ok (some ⟨fun k i j => s.probe k i j + sincShift (R'.probe k) sh.1 sh.2 i j,
        fun i j => s.obj i j + obj i j, s.stack ++ [obj]⟩)

/-- The loop over `probes[1:]`, `objects[1:]`. -/
noncomputable def synthLoop (useProbe correctRamp : Bool) (c d r0 c0 : ℕ) [NeZero c] [NeZero d] (s : SynthState r n m a b) :
    List (Recon r n m a b) → Except String (Option (SynthState r n m a b))
  | [] => .ok (some s)
  | R :: Rs => match synthStep useProbe correctRamp c d r0 c0 s R with
    | .error e => .error e
    | .ok none => .ok none
    | .ok (some s') => synthLoop useProbe correctRamp c d r0 c0 s' Rs

/-- `synthesize_reconstructions`, `analysis.py:294-381`, of the reconstructions `R :: Rs`, with the sums
divided by `i + 2` where `i` is the last loop index (`-1` without iterations). Simplifications: the probes are
stacks of modes, and the objects have already been cropped to their common shape (lines 336-337). -/
noncomputable def synthesize (useProbe correctRamp : Bool) (c d r0 c0 : ℕ) [NeZero c] [NeZero d] (R : Recon r n m a b)
    (Rs : List (Recon r n m a b)) :
    Except String (Option (Recon r n m a b × List (Wave a b))) :=
  match standardize (rectSlice a b c d r0 c0) correctRamp R with
  | none => .ok none
  | some R' =>
    match synthLoop useProbe correctRamp c d r0 c0 ⟨R'.probe, R'.obj, [R'.obj]⟩ Rs with
    | .error e => .error e
    | .ok none => .ok none
    | .ok (some s) =>
      let div : ℂ := (((Rs.length : ℤ) - 1 + 2 : ℤ) : ℂ)
      .ok (some (⟨fun k i j => s.probe k i j / div, fun i j => s.obj i j / div⟩, s.stack))

end Synth

/-! ### calc_deconvolved_cross_correlation and calc_consistency_prtf -/

/-- `calc_deconvolved_cross_correlation`, `analysis.py:467-514`, of two images that have already been sliced:
the same formula as in `find_pixel_shift`. -/
noncomputable def deconvolvedCorrelation (im1 im2 : Wave n m) : Option (Wave n m) := phaseCorrelation im1 im2

/-- One ratio `synth_ints / single_ints` of a ring, `analysis.py:452-458`; `none` for a division by zero. The
histogram without `range` covers the values from the smallest (0, the zero frequency) to the largest
radius, which is the range of the limit `corner` of `calc_frc`. -/
noncomputable def prtfRatio (nbins : ℕ) (d0 d1 : ℝ) (synth obj : Wave n m) (b : ℕ) : Option ℝ :=
  let top := frcRange n m true d0 d1
  let S := ringSum nbins top d0 d1 (fun i j => ‖fftshift2 (fft2 synth) i j‖ ^ 2) b
  let O := ringSum nbins top d0 d1 (fun i j => ‖fftshift2 (fft2 obj) i j‖ ^ 2) b
  if O = 0 then none else some (S / O)

/-- `calc_consistency_prtf`, `analysis.py:385-464`, of images that have already been sliced: left edges and
values (`none` if one of the ratios is NaN or infinite). `nbins=None` means `max(shape) // 4`; zero bins and an
empty list of objects (line 430 reads `objects[0]`) are errors. -/
noncomputable def calcPrtf (nbins : Option ℕ) (d0 d1 : ℝ) (synth : Wave n m) (objs : List (Wave n m)) :
    Except String (List (ℝ × Option ℝ)) :=
  let nb := nbins.getD (max n m / 4)
  if objs = [] then .error "IndexError"
  else if nb = 0 then .error "ValueError"
  else .ok ((List.range nb).map fun b => (binEdge nb (frcRange n m true d0 d1) b,
    (objs.mapM fun o => prtfRatio nb d0 d1 synth o b).map fun rs => rs.sum / rs.length))

/-! ### calc_generalized_frc -/

/-- The mask of a ring, `analysis.py:1033`: half-open for *every* ring, unlike the histogram. -/
noncomputable def genMask (nbins : ℕ) (top d0 d1 : ℝ) (b : ℕ) (i : ZMod n) (j : ZMod m) : ℂ :=
  haveI := Classical.dec (ringRadius d0 d1 i j < binEdge nbins top (b + 1) ∧
    binEdge nbins top b ≤ ringRadius d0 d1 i j)
  if ringRadius d0 d1 i j < binEdge nbins top (b + 1) ∧ binEdge nbins top b ≤ ringRadius d0 d1 i j then 1 else 0

/-- `masked_f1`, `analysis.py:1034-1035`, with flattened modes. -/
noncomputable def maskedSpectrum {k : ℕ} (nbins : ℕ) (top d0 d1 : ℝ) (F : Fin k → Wave n m) (b : ℕ) :
    Matrix (Fin k) (Fin (n * m)) ℂ :=
  flatten2 fun a => fun i j => fftshift2 (fft2 (F a)) i j * genMask nbins top d0 d1 b i j

/-- `frc[b]` of `calc_generalized_frc`, `analysis.py:1036-1039`; `none` for a division by zero. -/
noncomputable def genFrcValue {k l : ℕ} (la : LinAlg) (nbins : ℕ) (corner : Bool) (d0 d1 : ℝ)
    (F1 : Fin k → Wave n m) (F2 : Fin l → Wave n m) (b : ℕ) : Option ℝ :=
  let top := frcRange n m corner d0 d1
  let M1 := maskedSpectrum nbins top d0 d1 F1 b
  let M2 := maskedSpectrum nbins top d0 d1 F2 b
  let numerator := Real.sqrt (calcFidelity la M1 M2)
  let den1 := Real.sqrt (calcFidelity la M1 M1)
  let den2 := Real.sqrt (calcFidelity la M2 M2)
  if Real.sqrt (den1 * den2) = 0 then none else some (numerator / Real.sqrt (den1 * den2))

/-- `threshold`, `analysis.py:1043-1047` (not the formula of `calc_frc`: `2 * snr + 1`). -/
noncomputable def genThreshold (snr : ℝ) (npix : ℕ) : ℝ :=
  let s := snr / 2
  (s + (2 * s + 1) / Real.sqrt npix) / (1 + s + (2 * Real.sqrt s) / Real.sqrt npix)

/-- `calc_generalized_frc`, `analysis.py:948-1060`, of two stacks that have already been sliced. Without
`nbins`, `fields_1[..., im_slice]` indexes with a tuple inside a tuple, which is a TypeError (line 998). -/
noncomputable def calcGeneralizedFrc {k l : ℕ} (la : LinAlg) (nbins : Option ℕ) (limit : String) (snr d0 d1 : ℝ)
    (F1 : Fin k → Wave n m) (F2 : Fin l → Wave n m) : Except String (List (ℝ × Option ℝ × ℝ)) :=
  match nbins with
  | none => .error "TypeError"
  | some nb =>
    if limit = "side" ∨ limit = "corner" then
      if nb = 0 then .error "ValueError"
      else
        let top := frcRange n m (limit = "corner") d0 d1
        .ok ((List.range nb).map fun b => (binEdge nb top b,
          genFrcValue la nb (limit = "corner") d0 d1 F1 F2 b, genThreshold snr (ringCount n m nb top d0 d1 b)))
    else .error "ValueError"

/-! ### calc_spectral_info -/

/-- `sum_pattern`, `analysis.py:1470-1493`: `fov` is the area of the detector-conjugate field of view,
`scanArea` that of the convex hull of the scan (`none` for collinear points, where `ConvexHull` fails). -/
noncomputable def sumPattern (fov : ℝ) (scanArea : Option ℝ) (mask : ZMod n → ZMod m → Bool)
    (patterns : List (ZMod n → ZMod m → ℝ)) : ZMod n → ZMod m → ℝ := fun i j =>
  let scale := match scanArea with
    | some A => fov / A
    | none => 1 / (patterns.length : ℝ)
  (if mask i j then 1 else 0) * (patterns.map fun p => p i j).sum * scale

/-- `mean_spectrum[b]`, `analysis.py:1497-1524`; `none` for a ring without valid pixels (0/0). -/
noncomputable def meanSpectrum (nbins : ℕ) (d0 d1 : ℝ) (mask : ZMod n → ZMod m → Bool) (pattern : ZMod n → ZMod m → ℝ)
    (b : ℕ) : Option ℝ :=
  let top := frcRange n m false d0 d1
  let npix : ℕ := ringSum nbins top d0 d1 (fun i j => if mask i j then 1 else 0) b
  if npix = 0 then none else some (ringSum nbins top d0 d1 pattern b / npix)

end Cdtools
