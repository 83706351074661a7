/-
`tools/initializers/initializers.py`: `gaussian`, `gaussian_probe`, `SHARP_style_probe`,
`RPI_spectral_init` (its linear operators) and `generate_subdominant_modes`.

Simplification: floats are real/complex numbers. Only the unpolarized branch of `gaussian_probe` is
modelled; the ARPACK eigensolver called by `RPI_spectral_init` is not modelled.
-/
import Verif.Model.Interactions

namespace Cdtools
open Finset

variable {n m : ℕ} [NeZero n] [NeZero m]

/-- A real `n × m` image. -/
abbrev RealIm (n m : ℕ) := ZMod n → ZMod m → ℝ

/-! ### generate_subdominant_modes -/

/-- The loop of `make_orders`, `initializers.py:626-639`: `r` orders are still to be yielded; `i`
and `k` are the variables `i` and `n` of the code (`k ≤ i` always, so `i - k` does not truncate). -/
def makeOrdersFrom : ℕ → ℕ → ℕ → List (ℕ × ℕ)
  | 0, _, _ => []
  | r + 1, i, k =>
    (k, i - k) :: (if k < i then makeOrdersFrom r i (k + 1) else makeOrdersFrom r (i + 1) 0)

/-- `make_orders`, `initializers.py:623-639`. -/
def makeOrders (nOrders : ℕ) : Except String (List (ℕ × ℕ)) :=
  if nOrders > 1024 then .error "KeyError" else .ok (makeOrdersFrom nOrders 1 0)

/-- The mask `reduce(t.mul, [a]*a_order + [b]*b_order)`, `initializers.py:646-664`. -/
noncomputable def orderMask (circular : Bool) (p q : ℕ) : Wave n m := fun i j =>
  let x : ℂ := (i.val : ℂ) - ((n / 2 : ℕ) : ℂ)
  let y : ℂ := (j.val : ℂ) - ((m / 2 : ℕ) : ℂ)
  let a := if circular then x + Complex.I * y else x
  let b := if circular then x - Complex.I * y else y
  a ^ p * b ^ q

/-- `new_probe`, `initializers.py:665`. -/
noncomputable def derivativeMode (circular : Bool) (dom : Wave n m) (o : ℕ × ℕ) : Wave n m :=
  inverseFarField fun k l => orderMask circular o.1 o.2 k l * farField dom k l

/-- One entry of `probes`, `initializers.py:660-666`: note that the normalization divides by
`sum(abs(new_probe))`. -/
noncomputable def subdominantMode (circular : Bool) (dom : Wave n m) (o : ℕ × ℕ) : Wave n m :=
  fun i j => derivativeMode circular dom o i j *
    (((∑ i, ∑ j, ‖dom i j‖ ^ 2) / (∑ i, ∑ j, ‖derivativeMode circular dom o i j‖) : ℝ) : ℂ)

/-- `generate_subdominant_modes`, `initializers.py:596-668` (`t.stack([])` raises). -/
noncomputable def generateSubdominantModes (dom : Wave n m) (nModes : ℕ) (circular : Bool) :
    Except String (List (Wave n m)) :=
  match makeOrders nModes with
  | .error e => .error e
  | .ok [] => .error "RuntimeError"
  | .ok (o :: os) => .ok ((o :: os).map (subdominantMode circular dom))

/-! ### gaussian_probe -/

/-- `gaussian`, `initializers.py:131-171`. -/
noncomputable def gaussian (s0 s1 amplitude : ℝ) (center : Option (ℝ × ℝ)) (cv0 cv1 : ℝ) :
    Wave n m := fun i j =>
  let c := center.getD (((n : ℝ) - 1) / 2, ((m : ℝ) - 1) / 2)
  let isq : ℝ := ((i.val : ℝ) - c.1) ^ 2
  let jsq : ℝ := ((j.val : ℝ) - c.2) ^ 2
  (amplitude : ℂ) * Complex.exp ((Complex.I * cv0 / 2 - 1 / (2 * s0 ^ 2)) * isq +
    (Complex.I * cv1 / 2 - 1 / (2 * s1 ^ 2)) * jsq)

/-- `sigmaz`, `initializers.py:221-223`. -/
noncomputable def propagatedSigma (wavelength sigma z : ℝ) : ℝ :=
  sigma * Real.sqrt (1 + (z / (2 * Real.pi / wavelength * sigma ^ 2)) ^ 2)

/-- `curvature`, `initializers.py:221-224`. -/
noncomputable def propagatedCurvature (wavelength sigma z : ℝ) : ℝ :=
  let k := 2 * Real.pi / wavelength;
  (-k) * z / (z ^ 2 + (k * sigma ^ 2) ^ 2)

/-- `gaussian_probe(dataset, basis, shape, sigma, z)` with `polarized=False`,
`initializers.py:175-258`. `u0`, `u1` are the norms of the basis vectors; `sigma` is the pair the
scalar or pair argument broadcasts to. -/
noncomputable def gaussianProbe {N M : ℕ} [NeZero N] [NeZero M] (wavelength u0 u1 sigma0 sigma1 z : ℝ)
    (patterns : List (RealIm N M)) : Wave n m :=
  let probe : Wave n m := gaussian (propagatedSigma wavelength sigma0 z / u0)
    (propagatedSigma wavelength sigma1 z / u1) 1 none
    (propagatedCurvature wavelength sigma0 z * u0 ^ 2)
    (propagatedCurvature wavelength sigma1 z * u1 ^ 2)
  let avg : ℝ := (patterns.map fun p => ∑ i, ∑ j, p i j).sum / patterns.length
  let own : ℝ := ∑ i, ∑ j, ‖probe i j‖ ^ 2
  fun i j => (Real.sqrt (avg / own) : ℂ) * probe i j

/-! ### SHARP_style_probe -/

/-- `intensities`, `initializers.py:298-324`, for a dataset with a mask (every `Ptycho2DDataset` has
one, `datasets/ptycho_2d_dataset.py:72-73`) and optionally a background. -/
noncomputable def sharpIntensities (mask : RealIm n m) (patterns : List (RealIm n m))
    (background : Option (RealIm n m)) : RealIm n m := fun i j =>
  let mean := (patterns.map fun p => mask i j * p i j).sum / patterns.length
  match background with
  | none => mean
  | some b => max (mean - b i j) 0

/-- `large_probe_guess` before propagation, `initializers.py:326-335`. -/
noncomputable def sharpProbe (os : ℕ) (mask : RealIm n m) (patterns : List (RealIm n m))
    (background : Option (RealIm n m)) : Wave (os * n) (os * m) :=
  let guess : Wave n m := inverseFarField fun k l =>
    (Real.sqrt (sharpIntensities mask patterns background k l) : ℂ)
  let left := os * n / 2 - n / 2
  let top := os * m / 2 - m / 2
  fun k l => if left ≤ k.val ∧ k.val < left + n ∧ top ≤ l.val ∧ l.val < top + m then
    guess ((k.val - left : ℕ) : ZMod n) ((l.val - top : ℕ) : ZMod m) else 0

/-- `SHARP_style_probe` with a propagation distance, `initializers.py:338-363`. `d0`, `d1` are the
norms of the detector basis vectors. -/
noncomputable def sharpProbePropagated (os : ℕ) [NeZero (os * n)] [NeZero (os * m)]
    (mask : RealIm n m) (patterns : List (RealIm n m)) (background : Option (RealIm n m))
    (d0 d1 distance wavelength z : ℝ) : Wave (os * n) (os * m) :=
  nearField (angularSpectrum (os * n) (os * m) (wavelength * distance / (n * d0))
    (wavelength * distance / (m * d1)) wavelength z none) (sharpProbe os mask patterns background)

/-! ### RPI_spectral_init -/

/-- `a_dagger`, `initializers.py:543-547`, for an `a × b` object no larger than the probe. -/
noncomputable def spectralForward {a b : ℕ} [NeZero a] [NeZero b] (probe : Wave n m)
    (im : Wave a b) : Wave n m :=
  let pad0l := (n - a) / 2
  let pad1l := (m - b) / 2
  let padded : Wave n m := fun k l =>
    if pad0l ≤ k.val ∧ k.val < pad0l + a ∧ pad1l ≤ l.val ∧ l.val < pad1l + b then
      farField im ((k.val - pad0l : ℕ) : ZMod a) ((l.val - pad1l : ℕ) : ZMod b) else 0
  farField fun i j => probe i j * inverseFarField padded i j

/-- `a`, `initializers.py:549-556`. -/
noncomputable def spectralBackward {a b : ℕ} [NeZero a] [NeZero b] (probe : Wave n m)
    (measured : Wave n m) : Wave a b :=
  let pad0l := (n - a) / 2
  let pad1l := (m - b) / 2
  let backplane := farField fun i j => (starRingEnd ℂ) (probe i j) * inverseFarField measured i j
  inverseFarField fun k l =>
    backplane ((pad0l + k.val : ℕ) : ZMod n) ((pad1l + l.val : ℕ) : ZMod m)

end Cdtools
