/-
`tools/analysis/analysis.py`: `product_svd`, `orthogonalize_probes`, `standardize`, `calc_frc`,
`calc_vn_entropy`, `calc_mode_power_fractions`, `calc_rms_error`, `calc_fidelity` and
`calc_generalized_rms_error`.

Floats are real/complex numbers; a stack of modes is a matrix whose rows are the flattened modes.
`torch.linalg.svd`, `torch.linalg.qr` and `numpy.linalg.eigh` are not modelled: they enter as any
functions that satisfy the contracts `IsSVD`, `IsQR` and `IsEigh` below (structure `LinAlg`). The numpy/torch conversions
at the beginning and end of the functions are not modelled.
-/
import Verif.Model.ImageProc
import Mathlib.LinearAlgebra.Matrix.ConjTranspose
import Mathlib.LinearAlgebra.Matrix.Trace
import Mathlib.Analysis.SpecialFunctions.Log.NegMulLog
import Mathlib.Analysis.SpecialFunctions.Complex.Arg

namespace Cdtools
open Finset Matrix

variable {n m : ℕ} [NeZero n] [NeZero m]

/-! ### Linear algebra contracts -/

section LinearAlgebra
variable {p q r k : Type} [Fintype p] [Fintype q] [Fintype r] [Fintype k] [DecidableEq k]

/-- Contract of `torch.linalg.svd(A, full_matrices=False)`, apart from the order of the singular
values: `A = U diag(S) V`, with orthonormal columns in `U` and orthonormal rows in `V`. -/
structure IsSVD (A : Matrix p q ℂ) (U : Matrix p k ℂ) (S : k → ℝ) (V : Matrix k q ℂ) : Prop where
  eq : A = U * diagonal (fun i => (S i : ℂ)) * V
  left : Uᴴ * U = 1
  right : V * Vᴴ = 1
  nonneg : ∀ i, 0 ≤ S i

/-- Contract of `torch.linalg.qr(A)` (reduced mode), apart from `R` being triangular. -/
structure IsQR (A : Matrix p r ℂ) (Q : Matrix p k ℂ) (R : Matrix k r ℂ) : Prop where
  eq : A = Q * R
  orth : Qᴴ * Q = 1

/-- Contract of `numpy.linalg.eigh(A)` for Hermitian `A`: `A = U diag(e) Uᴴ`, `U` unitary. -/
structure IsEigh (A : Matrix k k ℂ) (U : Matrix k k ℂ) (e : k → ℝ) : Prop where
  eq : A = U * diagonal (fun i => (e i : ℂ)) * Uᴴ
  unitary : Uᴴ * U = 1

/-- `special.xlogy(x, x)`, which is 0 at 0. -/
noncomputable def xlogx (x : ℝ) : ℝ := x * Real.log x

/-- `calc_vn_entropy` of one matrix of a stack, `analysis.py:664-671`, from its eigenvalues. -/
noncomputable def vnEntropyStack (e : k → ℝ) : ℝ := -∑ i, xlogx (e i / ∑ j, e j)

/-- `calc_vn_entropy` of a single matrix, `analysis.py:672-676`, from its eigenvalues. -/
noncomputable def vnEntropySingle (e : k → ℝ) : ℝ := -(∑ i, xlogx (e i)) / ∑ j, e j

/-- The phase factor `gamma` of `calc_rms_error`, `analysis.py:783-790`. -/
noncomputable def rmsGamma (alignPhases : Bool) (f1 f2 : q → ℂ) : ℂ :=
  if alignPhases then Complex.exp (Complex.I * (Complex.arg (∑ j, f1 j * (starRingEnd ℂ) (f2 j)) : ℝ))
  else 1

/-- `calc_rms_error`, `analysis.py:730-801`, of two flattened fields. -/
noncomputable def rmsError (alignPhases normalize : Bool) (f1 f2 : q → ℂ) : ℝ :=
  let norm := if normalize then 1 / ((∑ j, ‖f1 j‖ ^ 2) / Fintype.card q) else 1
  Real.sqrt (norm * ((∑ j, ‖f1 j - rmsGamma alignPhases f1 f2 * f2 j‖ ^ 2) / Fintype.card q))

/-- `mat` of `calc_fidelity`, `analysis.py:848-851`: `mat[a, b] = Σ fields_1[b] conj(fields_2[a])`
(`unsqueeze(-dims-2)` puts the modes of the first argument on the last axis). -/
def overlapMatrix (F1 : Matrix p q ℂ) (F2 : Matrix r q ℂ) : Matrix r p ℂ := fun a b =>
  ∑ j, F1 b j * (starRingEnd ℂ) (F2 a j)

end LinearAlgebra

/-- The numerical linear algebra library: any functions that meet the contracts of
`torch.linalg.svd(·, full_matrices=False)` (with the singular values in descending order),
`torch.linalg.qr` and `numpy.linalg.eigh`. `LinAlg` is inhabited: `linAlg_exists`. -/
structure LinAlg where
  svd : ∀ {p q : ℕ}, Matrix (Fin p) (Fin q) ℂ →
    Matrix (Fin p) (Fin (min p q)) ℂ × (Fin (min p q) → ℝ) × Matrix (Fin (min p q)) (Fin q) ℂ
  svd_spec : ∀ {p q : ℕ} (A : Matrix (Fin p) (Fin q) ℂ), IsSVD A (svd A).1 (svd A).2.1 (svd A).2.2
  svd_sorted : ∀ {p q : ℕ} (A : Matrix (Fin p) (Fin q) ℂ), Antitone (svd A).2.1
  qr : ∀ {p q : ℕ}, Matrix (Fin p) (Fin q) ℂ →
    Matrix (Fin p) (Fin (min p q)) ℂ × Matrix (Fin (min p q)) (Fin q) ℂ
  qr_spec : ∀ {p q : ℕ} (A : Matrix (Fin p) (Fin q) ℂ), IsQR A (qr A).1 (qr A).2
  eigh : ∀ {k : ℕ}, Matrix (Fin k) (Fin k) ℂ → (Fin k → ℝ) × Matrix (Fin k) (Fin k) ℂ
  eigh_spec : ∀ {k : ℕ} (A : Matrix (Fin k) (Fin k) ℂ), Aᴴ = A → IsEigh A (eigh A).2 (eigh A).1

section Modes
variable {l x w : ℕ}

/-- `product_svd(A, B)`, `analysis.py:40-90`. -/
def productSvd (la : LinAlg) (A : Matrix (Fin w) (Fin l) ℂ) (B : Matrix (Fin l) (Fin x) ℂ) :
    Matrix (Fin w) (Fin (min (min w l) (min x l))) ℂ × (Fin (min (min w l) (min x l)) → ℝ) ×
      Matrix (Fin (min (min w l) (min x l))) (Fin x) ℂ :=
  let qa := la.qr A
  let qb := la.qr Bᴴ
  let s := la.svd (qa.2 * qb.2ᴴ)
  (qa.1 * s.1, s.2.1, s.2.2 * qb.1ᴴ)

/-- `S[:,None] * Vh`, `analysis.py:170`. -/
def scaleRows {k x : ℕ} (S : Fin k → ℝ) (V : Matrix (Fin k) (Fin x) ℂ) : Matrix (Fin k) (Fin x) ℂ :=
  fun i j => (S i : ℂ) * V i j

/-- `orthogonalize_probes(probes, return_reexpressed_weights=True)`, `analysis.py:93-182`, without a
weight matrix. The probes are already flattened (lines 156-158, 169-170 reshape). -/
def orthogonalizeProbes (la : LinAlg) (probes : Matrix (Fin l) (Fin x) ℂ) :
    Matrix (Fin (min l x)) (Fin x) ℂ × Matrix (Fin l) (Fin (min l x)) ℂ :=
  let s := la.svd probes
  (scaleRows s.2.1 s.2.2, s.1)

/-- `orthogonalize_probes(probes, weight_matrix, return_reexpressed_weights=True)`. -/
def orthogonalizeProbesW (la : LinAlg) (probes : Matrix (Fin l) (Fin x) ℂ)
    (weights : Matrix (Fin w) (Fin l) ℂ) :
    Matrix (Fin (min (min w l) (min x l))) (Fin x) ℂ × Matrix (Fin w) (Fin (min (min w l) (min x l))) ℂ :=
  let s := productSvd la weights probes
  (scaleRows s.2.1 s.2.2, s.1)

/-- Lines 723-727 of `calc_mode_power_fractions`: the fractions of the powers of the given modes. -/
noncomputable def powerFractions {k x : ℕ} (probes : Matrix (Fin k) (Fin x) ℂ) (i : Fin k) : ℝ :=
  (∑ j, ‖probes i j‖ ^ 2) / ∑ i, ∑ j, ‖probes i j‖ ^ 2

/-- `calc_mode_power_fractions(probes)`, `analysis.py:679-727`. -/
noncomputable def calcModePowerFractions (la : LinAlg) (probes : Matrix (Fin l) (Fin x) ℂ) :
    Fin (min l x) → ℝ :=
  powerFractions (orthogonalizeProbes la probes).1

/-- `calc_mode_power_fractions(probes, weight_matrix)`. -/
noncomputable def calcModePowerFractionsW (la : LinAlg) (probes : Matrix (Fin l) (Fin x) ℂ)
    (weights : Matrix (Fin w) (Fin l) ℂ) : Fin (min (min w l) (min x l)) → ℝ :=
  powerFractions (orthogonalizeProbesW la probes weights).1

/-- `calc_mode_power_fractions(..., assume_preorthogonalized=True)`, `analysis.py:714-721`: the
weights multiply the probes, `Σ_l weight[m, l] probes[l]`. -/
noncomputable def calcModePowerFractionsPre (probes : Matrix (Fin l) (Fin x) ℂ) : Fin l → ℝ :=
  powerFractions probes

/-- As above, with a weight matrix. -/
noncomputable def calcModePowerFractionsPreW (probes : Matrix (Fin l) (Fin x) ℂ)
    (weights : Matrix (Fin w) (Fin l) ℂ) : Fin w → ℝ :=
  powerFractions (fun m j => ∑ i, weights m i * probes i j)

/-- `calc_vn_entropy(matrix)` for a single matrix, `analysis.py:672-676`. -/
noncomputable def calcVnEntropySingle (la : LinAlg) (A : Matrix (Fin l) (Fin l) ℂ) : ℝ :=
  vnEntropySingle (la.eigh A).1

/-- `calc_vn_entropy(matrix)` for a stack of matrices, `analysis.py:664-671`. -/
noncomputable def calcVnEntropyStack (la : LinAlg) (As : List (Matrix (Fin l) (Fin l) ℂ)) : List ℝ :=
  As.map fun A => vnEntropyStack (la.eigh A).1

/-- `calc_fidelity`, `analysis.py:804-866`, of two stacks of flattened modes. -/
def calcFidelity {a b : ℕ} (la : LinAlg) (F1 : Matrix (Fin a) (Fin x) ℂ)
    (F2 : Matrix (Fin b) (Fin x) ℂ) : ℝ :=
  (∑ i, (la.svd (overlapMatrix F1 F2)).2.1 i) ^ 2

/-- `calc_generalized_rms_error`, `analysis.py:869-945`: the argument of the final square root. -/
noncomputable def generalizedRmsSq {a b : ℕ} (la : LinAlg) (normalize : Bool)
    (F1 : Matrix (Fin a) (Fin x) ℂ) (F2 : Matrix (Fin b) (Fin x) ℂ) : ℝ :=
  let i1 := (∑ a, ∑ j, ‖F1 a j‖ ^ 2) / (x : ℝ)
  let i2 := (∑ a, ∑ j, ‖F2 a j‖ ^ 2) / (x : ℝ)
  let result := i1 + i2 - 2 * Real.sqrt (calcFidelity la F1 F2 / (x : ℝ) ^ 2)
  if normalize then result / i1 else result

/-- `calc_generalized_rms_error`. (`torch.sqrt` of a negative number would be NaN where this is 0; by
`generalized_rms_nonneg` that never happens.) -/
noncomputable def generalizedRms {a b : ℕ} (la : LinAlg) (normalize : Bool)
    (F1 : Matrix (Fin a) (Fin x) ℂ) (F2 : Matrix (Fin b) (Fin x) ℂ) : ℝ :=
  Real.sqrt (generalizedRmsSq la normalize F1 F2)

end Modes

/-! ### standardize -/

/-- A stack of `r + 1` probe modes (a single probe is a stack of one, `analysis.py:234-239`) and an
object. -/
structure Recon (r n m a b : ℕ) where
  probe : Fin (r + 1) → Wave n m
  obj : Wave a b

/-- Multiply by the conjugate phase of `z`: `w * t.exp(-1j * t.angle(z))`. -/
noncomputable def unphase (z : ℂ) (x : ℂ) : ℂ := x * Complex.exp (-(Complex.I * (Complex.arg z : ℝ)))

/-- `center_freq`, `analysis.py:252-256`; `none` for NaN. -/
noncomputable def centerFreq (w : Wave n m) : Option (ℝ × ℝ) :=
  (centroid fun k l => ‖fftshift2 (fft2 w) k l‖ ^ 2).map fun c =>
    ((c.1 - (n / 2 : ℕ)) / n, (c.2 - (m / 2 : ℕ)) / m)

/-- `probe_phase_ramp` and `obj_phase_ramp` at pixel `(i, j)`, `analysis.py:258-268`. -/
noncomputable def phaseRamp (f0 f1 : ℝ) (i j : ℕ) : ℂ :=
  Complex.exp (2 * Real.pi * Complex.I * (f0 * i + f1 * j))

/-- The default slice of the object, `analysis.py:246-248`. -/
def defaultSlice (a b : ℕ) [NeZero a] [NeZero b] : Finset (ZMod a × ZMod b) :=
  univ.filter fun p => a / 8 * 3 ≤ p.1.val ∧ p.1.val < a / 8 * 5 ∧
    b / 8 * 3 ≤ p.2.val ∧ p.2.val < b / 8 * 5

variable {r a b : ℕ} [NeZero a] [NeZero b]

/-- `normalization`, `analysis.py:241`. -/
noncomputable def stdNormalization (w : Wave n m) : ℝ :=
  Real.sqrt ((∑ i, ∑ j, ‖w i j‖ ^ 2) / (n * m))

/-- Lines 241-243: scale probe and object inversely. -/
noncomputable def stdScale (R : Recon r n m a b) : Recon r n m a b :=
  let c := stdNormalization (R.probe 0)
  { probe := fun k i j => R.probe k i j / (c : ℂ), obj := fun i j => R.obj i j * (c : ℂ) }

/-- Lines 250-269: remove the phase ramp. -/
noncomputable def stdRamp (f : ℝ × ℝ) (R : Recon r n m a b) : Recon r n m a b :=
  { probe := fun k i j => R.probe k i j * (starRingEnd ℂ) (phaseRamp f.1 f.2 i.val j.val)
    obj := fun i j => R.obj i j * phaseRamp f.1 f.2 i.val j.val }

/-- Lines 271-278: remove the overall phases; `slice` is the set of object pixels selected by
`obj_slice`. -/
noncomputable def stdPhase (slice : Finset (ZMod a × ZMod b)) (R : Recon r n m a b) :
    Recon r n m a b :=
  { probe := fun k i j => unphase (∑ i, ∑ j, R.probe k i j) (R.probe k i j)
    obj := fun i j => unphase (∑ p ∈ slice, R.obj p.1 p.2) (R.obj i j) }

/-- `standardize`, `analysis.py:185-290`. `none`: the normalization is zero, everything is NaN. -/
noncomputable def standardize (slice : Finset (ZMod a × ZMod b)) (correctRamp : Bool)
    (R : Recon r n m a b) : Option (Recon r n m a b) :=
  if stdNormalization (R.probe 0) = 0 then none
  else if correctRamp then
    (centerFreq ((stdScale R).probe 0)).map fun f => stdPhase slice (stdRamp f (stdScale R))
  else some (stdPhase slice (stdScale R))

/-! ### calc_frc -/

/-- The frequency of pixel `i` of an fftshifted axis with pixel size `d`:
`np.fft.fftshift(np.fft.fftfreq(n, d=d))[i]`. -/
noncomputable def shiftedFreq (n : ℕ) (d : ℝ) (i : ZMod n) : ℝ := ((i.val : ℝ) - (n / 2 : ℕ)) / (n * d)

/-- `Rs`, `analysis.py:587-590`. -/
noncomputable def ringRadius (d0 d1 : ℝ) (i : ZMod n) (j : ZMod m) : ℝ :=
  Real.sqrt (shiftedFreq n d0 i ^ 2 + shiftedFreq m d1 j ^ 2)

/-- The upper end of `frc_range`, `analysis.py:592-600`, for `limit='side'` and `limit='corner'`. -/
noncomputable def frcRange (n m : ℕ) [NeZero n] [NeZero m] (corner : Bool) (d0 d1 : ℝ) : ℝ :=
  if corner then (univ : Finset (ZMod n × ZMod m)).sup' univ_nonempty fun p => ringRadius d0 d1 p.1 p.2
  else max ((univ : Finset (ZMod n)).sup' univ_nonempty (shiftedFreq n d0))
    ((univ : Finset (ZMod m)).sup' univ_nonempty (shiftedFreq m d1))

/-- The outer edges `np.histogram(·, range=[0, top])` uses: an empty range is widened by one half. -/
noncomputable def histEdges (top : ℝ) : ℝ × ℝ := if 0 = top then (-1 / 2, 1 / 2) else (0, top)

/-- The left edge of bin `b`: `np.linspace(lo, hi, nbins + 1)[b]`. -/
noncomputable def binEdge (nbins : ℕ) (top : ℝ) (b : ℕ) : ℝ :=
  let e := histEdges top
  e.1 + b * (e.2 - e.1) / nbins

/-- The bin of `np.histogram(·, bins=nbins, range=[0, top])` (for `0 ≤ top`) that counts the value
`x`: half-open bins of equal width, the last one closed; values outside the range are not counted. -/
noncomputable def histBin (nbins : ℕ) (top x : ℝ) : Option ℕ :=
  let e := histEdges top
  haveI := Classical.dec (e.1 ≤ x ∧ x ≤ e.2)
  if e.1 ≤ x ∧ x ≤ e.2 then some (min ⌊(x - e.1) * nbins / (e.2 - e.1)⌋₊ (nbins - 1)) else none

/-- `np.histogram(Rs, bins=nbins, range=[0, top], weights=w)[0][b]`. -/
noncomputable def ringSum {α : Type} [AddCommMonoid α] (nbins : ℕ) (top d0 d1 : ℝ)
    (w : ZMod n → ZMod m → α) (b : ℕ) : α :=
  ∑ i, ∑ j, if histBin nbins top (ringRadius d0 d1 i j) = some b then w i j else 0

/-- `frc[b]`, `analysis.py:573-612`, of two images that have already been sliced; `none` for 0/0. -/
noncomputable def frcValue (nbins : ℕ) (corner : Bool) (d0 d1 : ℝ) (im1 im2 : Wave n m) (b : ℕ) :
    Option ℂ :=
  let top := frcRange n m corner d0 d1
  let f1 := fftshift2 (fft2 im1)
  let f2 := fftshift2 (fft2 im2)
  let num : ℂ := ringSum nbins top d0 d1 (fun i j => f1 i j * (starRingEnd ℂ) (f2 i j)) b
  let den := ringSum nbins top d0 d1 (fun i j => ‖f1 i j‖ ^ 2) b *
    ringSum nbins top d0 d1 (fun i j => ‖f2 i j‖ ^ 2) b
  if den = 0 then none else some (num / (Real.sqrt den : ℂ))

/-- `threshold` for a ring of `npix` pixels, `analysis.py:618-626`. -/
noncomputable def frcThreshold (snr : ℝ) (npix : ℕ) : ℝ :=
  let s := snr / 2
  (s + (2 * Real.sqrt s + 1) / Real.sqrt npix) / (1 + s + (2 * Real.sqrt s) / Real.sqrt npix)

/-- `n_pix[b]`, `analysis.py:608`. -/
noncomputable def ringCount (n m : ℕ) [NeZero n] [NeZero m] (nbins : ℕ) (top d0 d1 : ℝ) (b : ℕ) : ℕ :=
  ringSum (n := n) (m := m) nbins top d0 d1 (fun _ _ => 1) b

/-- `calc_frc`, `analysis.py:517-643`, of two images of equal shape that have already been sliced: per
ring, the left edge, the FRC value and the threshold. `nbins=None` means `max(shape) // 8`;
`np.histogram` raises `ValueError` for zero bins, and so does an unknown `limit`. Simplification:
`limit.lower().strip()` has already been taken. -/
noncomputable def calcFrc (nbins : Option ℕ) (limit : String) (snr d0 d1 : ℝ) (im1 im2 : Wave n m) :
    Except String (List (ℝ × Option ℂ × ℝ)) :=
  let nb := nbins.getD (max n m / 8)
  if limit = "side" ∨ limit = "corner" then
    if nb = 0 then .error "ValueError"
    else
      let top := frcRange n m (limit = "corner") d0 d1
      .ok ((List.range nb).map fun b => (binEdge nb top b,
        frcValue nb (limit = "corner") d0 d1 im1 im2 b, frcThreshold snr (ringCount n m nb top d0 d1 b)))
  else .error "ValueError"

end Cdtools
