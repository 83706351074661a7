/- Property theorems C122: the unit of length does not matter to `FancyPtycho`. -/
import Verif.Props.FancyFromDataset
import Verif.Props.FancySteps
import Verif.Props.MultisliceFromDataset

set_option linter.unusedSectionVars false

namespace Cdtools
open Finset Matrix

variable {n m N k os : ℕ} [NeZero n] [NeZero m]

/-! ### Specification -/

/-- The dataset with all lengths in a unit `s` times smaller. -/
def FancyData.inUnits (D : FancyData n m N) (s : ℝ) : FancyData n m N :=
  { D with
    wavelength := s * D.wavelength
    distance := s * D.distance
    detBasis := s • D.detBasis
    translations := fun i => s • D.translations i }

/-- The options of `from_dataset` in a unit `s` times smaller: only the propagation distance is a length. -/
def FancyOpts.inUnits (O : FancyOpts) (s : ℝ) : FancyOpts :=
  { O with propagationDistance := O.propagationDistance.map (s * ·) }

/-- The model in a unit `s` times smaller: only the two bases are lengths. -/
def Fancy.inUnits {n m a b N k : ℕ} (M : Fancy n m a b N k) (s : ℝ) : Fancy n m a b N k :=
  { M with objBasis := s • M.objBasis, detBasis := s • M.detBasis }

/-! ### Linear algebra -/

theorem matrix_inv_smul {ι : Type} [Fintype ι] [DecidableEq ι] (r : ℝ) (hr : r ≠ 0) (A : Matrix ι ι ℝ) : (r • A)⁻¹ = r⁻¹ • A⁻¹ := by
  by_cases h : IsUnit A.det
  · have : Invertible r := invertibleOfNonzero hr
    rw [Matrix.inv_smul (A := A) r h, invOf_eq_inv]
  · rw [Matrix.nonsing_inv_apply_not_isUnit A h, Matrix.nonsing_inv_apply_not_isUnit, smul_zero]
    rw [Matrix.det_smul]
    intro h2
    exact h (isUnit_of_mul_isUnit_right h2)

theorem pinvTall_smul (r : ℝ) (hr : r ≠ 0) (B : Matrix (Fin 3) (Fin 2) ℝ) : pinvTall (r • B) = r⁻¹ • pinvTall B := by
  unfold pinvTall
  simp only [Matrix.transpose_smul, Matrix.smul_mul, Matrix.mul_smul, smul_smul, matrix_inv_smul _ (mul_ne_zero hr hr)]
  congr 1
  field_simp

theorem pinvWide_smul (r : ℝ) (hr : r ≠ 0) (A : Matrix (Fin 2) (Fin 3) ℝ) : pinvWide (r • A) = r⁻¹ • pinvWide A := by
  unfold pinvWide
  simp only [Matrix.transpose_smul, Matrix.smul_mul, Matrix.mul_smul, smul_smul, matrix_inv_smul _ (mul_ne_zero hr hr)]
  congr 1
  field_simp

theorem pixelProjection_smul (r : ℝ) (hr : r ≠ 0) (B : Matrix (Fin 3) (Fin 2) ℝ) (nrm : Fin 3 → ℝ) :
    pixelProjection (r • B) nrm = r⁻¹ • pixelProjection B nrm := by
  unfold pixelProjection
  rw [pinvTall_smul r hr, Matrix.smul_mul]

/-- Positions in pixels do not depend on the unit. -/
theorem translationsToPixel_units (r : ℝ) (hr : r ≠ 0) (B : Matrix (Fin 3) (Fin 2) ℝ) (nrm t : Fin 3 → ℝ) :
    translationsToPixel (r • B) nrm (r • t) = translationsToPixel B nrm t := by
  unfold translationsToPixel
  rw [pixelProjection_smul r hr, Matrix.smul_mulVec, Matrix.mulVec_smul, smul_smul, inv_mul_cancel₀ hr, one_smul]

/-- Positions in real space scale with the unit. -/
theorem pixelToTranslations_units (r : ℝ) (hr : r ≠ 0) (B : Matrix (Fin 3) (Fin 2) ℝ) (nrm : Fin 3 → ℝ) (p : Fin 2 → ℝ) :
    pixelToTranslations (r • B) nrm p = r • pixelToTranslations B nrm p := by
  unfold pixelToTranslations
  rw [pixelProjection_smul r hr, pinvWide_smul _ (inv_ne_zero hr), inv_inv, Matrix.smul_mulVec]

theorem exitWaveGeometry_units (r : ℝ) (hr : r ≠ 0) (B : Matrix (Fin 3) (Fin 2) ℝ) (shape : Fin 2 → ℕ) (l d : ℝ) (os : ℕ) :
    exitWaveGeometry (r • B) shape (r * l) (r * d) os = r • exitWaveGeometry B shape l d os := by
  unfold exitWaveGeometry
  have h : (Matrix.of fun i j => (r • B) i j * (shape j : ℝ) : Matrix (Fin 3) (Fin 2) ℝ) = r • Matrix.of fun i j => B i j * (shape j : ℝ) := by
    ext i j
    simp [mul_assoc]
  dsimp only
  rw [h, pinvTall_smul r hr, Matrix.transpose_smul, smul_smul, smul_smul]
  congr 1
  field_simp

/-! ### Vectors and propagators -/

theorem Vec3.dot_smul (r q : ℝ) (a b : Vec3) : Vec3.dot (r • a) (q • b) = r * q * Vec3.dot a b := by
  simp only [Vec3.dot, Pi.smul_apply, smul_eq_mul]
  ring

theorem Vec3.cross_smul (r q : ℝ) (a b : Vec3) : Vec3.cross (r • a) (q • b) = (r * q) • Vec3.cross a b := by
  ext i
  fin_cases i <;> simp [Vec3.cross] <;> ring

theorem Vec3.norm_smul (r : ℝ) (hr : 0 < r) (a : Vec3) : Real.sqrt (Vec3.dot (r • a) (r • a)) = r * Real.sqrt (a.dot a) := by
  rw [Vec3.dot_smul, Real.sqrt_mul (mul_self_nonneg r), Real.sqrt_mul_self hr.le]

theorem Vec3.unit_smul (r : ℝ) (hr : 0 < r) (a : Vec3) : Vec3.unit (r • a) = a.unit := by
  ext i
  simp only [Vec3.unit, Vec3.norm_smul r hr, Pi.smul_apply, smul_eq_mul]
  rw [mul_div_mul_left _ _ hr.ne']

theorem mul_neg_iff_pos (r x : ℝ) (hr : 0 < r) : r * x < 0 ↔ x < 0 :=
  ⟨fun h => by by_contra hx; exact absurd (mul_nonneg hr.le (not_lt.mp hx)) (not_le.mpr h), fun h => mul_neg_of_pos_of_neg hr h⟩

theorem sgn_mul_pos (r x : ℝ) (hr : 0 < r) : sgn (r * x) = sgn x := by
  simp only [sgn, mul_pos_iff_of_pos_left hr, mul_neg_iff_pos r _ hr]

theorem perpDir_units (r : ℝ) (hr : 0 < r) (b1 b2 ref : Vec3) : perpDir (r • b1) (r • b2) (r • ref) = perpDir b1 b2 ref := by
  unfold perpDir
  rw [Vec3.unit_smul r hr, Vec3.unit_smul r hr]
  have h : ∀ v : Vec3, v.dot (r • ref) = r * v.dot ref := fun v => by
    simp only [Vec3.dot, Pi.smul_apply, smul_eq_mul]
    ring
  dsimp only
  rw [h, sgn_mul_pos _ _ hr]

theorem dualBasis_units (r : ℝ) (hr : r ≠ 0) (b1 b2 : Vec3) :
    dualBasis (r • b1) (r • b2) = (r⁻¹ • (dualBasis b1 b2).1, r⁻¹ • (dualBasis b1 b2).2) := by
  have key : ∀ x d : ℝ, r * r * r * x / (r * r * r * r * d) = r⁻¹ * (x / d) := fun x d => by
    rw [mul_assoc (r * r * r) r d, mul_div_mul_left _ _ (mul_ne_zero (mul_ne_zero hr hr) hr), inv_mul_eq_div, div_div, mul_comm d r]
  unfold dualBasis
  refine Prod.ext (funext fun i => ?_) (funext fun i => ?_) <;>
  · simp only [Vec3.dot_smul, Pi.smul_apply, smul_eq_mul]
    rw [← key]
    congr 1 <;> ring

theorem csqrt_mul_sq (r x : ℝ) (hr : 0 < r) : csqrt (r * r * x) = r * csqrt x := by
  unfold csqrt
  have hrr : 0 < r * r := mul_pos hr hr
  by_cases h : 0 ≤ x
  · rw [if_pos (mul_nonneg hrr.le h), if_pos h, Real.sqrt_mul (mul_self_nonneg r), Real.sqrt_mul_self hr.le]
    push_cast
    rfl
  · rw [if_neg (by rw [mul_nonneg_iff_of_pos_left hrr]; exact h), if_neg h, ← mul_neg, Real.sqrt_mul (mul_self_nonneg r), Real.sqrt_mul_self hr.le]
    push_cast
    ring

/-- A propagator along a vector does not depend on the unit of length. -/
theorem generalizedPropagator_units (r : ℝ) (hr : 0 < r) (b1 b2 : Vec3) (wl : ℝ) (off : Vec3) (ki kj : ℝ) :
    generalizedPropagator (r • b1) (r • b2) (r * wl) (r • off) none ki kj = generalizedPropagator b1 b2 wl off none ki kj := by
  have hr0 := hr.ne'
  have hrC : (r : ℂ) ≠ 0 := by exact_mod_cast hr0
  unfold generalizedPropagator
  simp only [Option.getD_none, perpDir_units r hr, refWave]
  set perp := perpDir b1 b2 off
  have hK : inPlaneK (r • b1) (r • b2) (r * wl) perp none ki kj = r⁻¹ • inPlaneK b1 b2 wl perp none ki kj := by
    unfold inPlaneK
    simp only [dualBasis_units r hr0]
    ext i
    simp only [Pi.smul_apply, smul_eq_mul]
    ring
  rw [hK]
  set K := inPlaneK b1 b2 wl perp none ki kj
  rw [Vec3.dot_smul]
  have hk0 : 2 * Real.pi / (r * wl) = r⁻¹ * (2 * Real.pi / wl) := by
    rw [mul_comm r wl, ← div_div, inv_mul_eq_div]
  rw [hk0]
  set k0 := 2 * Real.pi / wl
  have hs : (r⁻¹ * k0) ^ 2 - r⁻¹ * r⁻¹ * K.dot K = r⁻¹ * r⁻¹ * (k0 ^ 2 - K.dot K) := by ring
  rw [hs, csqrt_mul_sq _ _ (inv_pos.mpr hr)]
  have hoop : (-((r⁻¹ * r⁻¹ * K.dot K : ℝ) : ℂ)) / (((r⁻¹ : ℝ) : ℂ) * csqrt (k0 ^ 2 - K.dot K) + ((r⁻¹ * k0 : ℝ) : ℂ)) =
      (r : ℂ)⁻¹ * (-((K.dot K : ℝ) : ℂ) / (csqrt (k0 ^ 2 - K.dot K) + (k0 : ℂ))) := by
    push_cast
    rw [← mul_add, show -((r : ℂ)⁻¹ * (r : ℂ)⁻¹ * (K.dot K : ℂ)) = (r : ℂ)⁻¹ * ((r : ℂ)⁻¹ * -(K.dot K : ℂ)) by ring,
      mul_div_mul_left _ _ (inv_ne_zero hrC), mul_div_assoc]
  rw [hoop]
  congr 2
  refine Finset.sum_congr rfl fun i _ => ?_
  simp only [Pi.smul_apply, smul_eq_mul]
  push_cast
  field_simp
  simp

theorem angularSpectrum_units (r : ℝ) (hr : 0 < r) (n m : ℕ) (s0 s1 wl z : ℝ) (bl : Option ℝ) (k : ZMod n) (l : ZMod m) :
    angularSpectrum n m (r * s0) (r * s1) (r * wl) (r * z) bl k l = angularSpectrum n m s0 s1 wl z bl k l := by
  have h1 : (![0, -(r * s0), 0] : Vec3) = r • ![0, -s0, 0] := by ext i; fin_cases i <;> simp
  have h2 : (![-(r * s1), 0, 0] : Vec3) = r • ![-s1, 0, 0] := by ext i; fin_cases i <;> simp
  have h3 : (![0, 0, r * z] : Vec3) = r • ![0, 0, z] := by ext i; fin_cases i <;> simp
  unfold angularSpectrum
  simp only [h1, h2, h3, generalizedPropagator_units r hr, mul_neg_iff_pos r _ hr]

theorem basisCol_smul (r : ℝ) (B : Matrix (Fin 3) (Fin 2) ℝ) (c : Fin 2) : basisCol (r • B) c = r • basisCol B c := by
  ext i
  simp [basisCol]

/-- The surface normal does not depend on the unit. -/
theorem datasetNormal_units (r : ℝ) (hr : 0 < r) (mode : Option String) (o : Option Vec3) (B : Matrix (Fin 3) (Fin 2) ℝ) :
    datasetNormal mode o (r • B) = datasetNormal mode o B := by
  have h1 : ∀ c, (fun i => (r • B) i c) = r • fun i => B i c := fun c => by ext i; simp
  unfold datasetNormal
  simp only [h1, Vec3.cross_smul]
  have hrr : 0 < r * r := mul_pos hr hr
  set c := Vec3.cross (fun i => B i 0) (fun i => B i 1)
  have h2 : ((r * r) • c = 0) ↔ c = 0 := by simp [hr.ne']
  have h3 : ∀ i, ((r * r) • c) i / Real.sqrt (Vec3.dot ((r * r) • c) ((r * r) • c)) = c i / Real.sqrt (c.dot c) := fun i => by
    rw [Vec3.norm_smul _ hrr, Pi.smul_apply, smul_eq_mul, mul_div_mul_left _ _ hrr.ne']
  simp only [h2, h3]

theorem nearGeometry_units (r : ℝ) (hr : r ≠ 0) (B : Matrix (Fin 3) (Fin 2) ℝ) (d : ℝ) (p : Option ℝ) (os : ℕ) :
    nearGeometry (r • B) (r * d) (p.map (r * ·)) os = (nearGeometry B d p os).map fun G => ⟨r • G.basis, r * G.z⟩ := by
  have hB : ∀ x : ℝ, (Matrix.of fun i c => (r • B) i c / x : Matrix (Fin 3) (Fin 2) ℝ) = r • Matrix.of fun i c => B i c / x := fun x => by
    ext i c
    simp [mul_div_assoc]
  unfold nearGeometry
  cases p with
  | none => simp only [Option.map_none, hB, Except.map]
  | some p =>
    have hq : (r * p + r * d) / (r * p) = (p + d) / p := by rw [← mul_add, mul_div_mul_left _ _ hr]
    simp only [Option.map_some, hq, hB, mul_eq_zero, hr, false_or, mul_div_assoc]
    split
    · rfl
    · split <;> rfl

theorem nearPropagator_units (r : ℝ) (hr : 0 < r) (G : NearGeometry) (wl : ℝ) (n m : ℕ) :
    NearGeometry.propagator ⟨r • G.basis, r * G.z⟩ (r * wl) n m = G.propagator wl n m := by
  have h3 : (![0, 0, r * G.z] : Vec3) = r • ![0, 0, G.z] := by ext i; fin_cases i <;> simp
  funext k l
  unfold NearGeometry.propagator
  simp only [basisCol_smul, h3, generalizedPropagator_units r hr]

/-! ### from_dataset -/

theorem start_units (D : FancyData n m N) (O : FancyOpts) (s : ℝ) (hs : 0 < s) (os : ℕ) [NeZero os] [NeZero (os * n)] [NeZero (os * m)] :
    (D.inUnits s).start (O.inUnits s) os = (D.start O os).map fun S => { S with objBasis := s • S.objBasis } := by
  have hs0 := hs.ne'
  unfold FancyData.start
  simp only [FancyOpts.inUnits, FancyData.inUnits]
  by_cases hn : O.nearField
  · simp only [hn, if_true]
    rw [nearGeometry_units s hs0]
    cases hg : nearGeometry D.detBasis D.distance O.propagationDistance os with
    | error e => rfl
    | ok G =>
      simp only [Except.map]
      have hb : NearGeometry.backward (n := n) (m := m) ⟨s • G.basis, s * G.z⟩ (s * D.wavelength) = G.backward D.wavelength := by
        funext w
        unfold NearGeometry.backward
        rw [nearPropagator_units s hs]
      rw [nearPropagator_units s hs, hb]
  · simp only [hn, Bool.false_eq_true, if_false, Except.map]
    rw [exitWaveGeometry_units s hs0]
    congr 2
    cases O.propagationDistance with
    | none => rfl
    | some z =>
      simp only [Option.map_some, basisCol_smul, Vec3.norm_smul s hs]
      unfold sharpProbePropagated
      congr 1
      funext k l
      have h : ∀ (q : ℕ) (d : ℝ), s * D.wavelength * (s * D.distance) / (q * (s * d)) = s * (D.wavelength * D.distance / (q * d)) := fun q d => by
        rw [show s * D.wavelength * (s * D.distance) = s * (s * (D.wavelength * D.distance)) by ring, show (q : ℝ) * (s * d) = s * (q * d) by ring,
          mul_div_mul_left _ _ hs0, mul_div_assoc]
      rw [h, h, angularSpectrum_units s hs]

/-- A dataset whose lengths are given in another unit gives the same model: the same probe, weights, object (number of pixels and values), propagator,
surface normal, corner and background, with the two bases in the new unit. -/
theorem from_dataset_units (D : FancyData n m N) (O : FancyOpts) (s : ℝ) (hs : 0 < s) (os : ℕ) [NeZero os] [NeZero (os * n)] [NeZero (os * m)]
    (c : ℕ) [NeZero (os * n - 2 * c)] [NeZero (os * m - 2 * c)] (k : ℕ) (rp : Fin k → Wave (os * n - 2 * c) (os * m - 2 * c)) (ro : ℕ → ℕ → ℝ) :
    fancyFromDataset (D.inUnits s) (O.inUnits s) os c k rp ro = (fancyFromDataset D O os c k rp ro).map fun M => M.inUnits s := by
  have hs0 := hs.ne'
  unfold fancyFromDataset
  rw [start_units D O s hs, show (O.inUnits s).scatteringMode = O.scatteringMode from rfl, show (D.inUnits s).orientation = D.orientation from rfl,
    show (D.inUnits s).detBasis = s • D.detBasis from rfl, datasetNormal_units s hs, show (O.inUnits s).dmRank = O.dmRank from rfl,
    show List.ofFn (D.inUnits s).translations = (List.ofFn D.translations).map (s • ·) by rw [List.map_ofFn]; rfl]
  cases List.ofFn D.translations with
  | nil =>
    cases D.start O os <;> cases datasetNormal O.scatteringMode D.orientation D.detBasis <;> cases initialWeights N (k + 1) O.dmRank <;> rfl
  | cons t0 rest =>
    cases D.start O os with
    | error e => rfl
    | ok S =>
      cases datasetNormal O.scatteringMode D.orientation D.detBasis with
      | error e => rfl
      | ok normal =>
        cases initialWeights N (k + 1) O.dmRank with
        | error e => rfl
        | ok W =>
          simp only [List.map_cons, Except.map, translationsToPixel_units s hs0, List.map_map, Function.comp_def]
          simp only [FancyOpts.inUnits]
          generalize hI : fancyInit _ = I
          generalize hJ : fancyInit _ = J
          obtain rfl : I = J := hI.symm.trans hJ
          clear hI hJ
          cases I <;> rfl

/-! ### Simulation and reconstruction -/

variable {a b H W h w r : ℕ} [NeZero a] [NeZero b]

theorem pixTrans_units (M : Fancy n m a b N k) (s : ℝ) (hs : s ≠ 0) (idx : Fin N) (t : Fin 3 → ℝ) :
    (M.inUnits s).pixTrans idx (s • t) = M.pixTrans idx t := by
  unfold Fancy.pixTrans Fancy.inUnits
  simp only [translationsToPixel_units s hs]

theorem ramp_units (M : Fancy n m a b N k) (s : ℝ) (hs : s ≠ 0) (idx : Fin N) (t : Fin 3 → ℝ) :
    (M.inUnits s).ramp idx (s • t) = M.ramp idx t := by
  unfold Fancy.ramp Fancy.inUnits
  simp only [translationsToPixel_units s hs]

/-- Every simulated pattern is the same in every unit, whatever the parameters of the model. -/
theorem forward_units (M : Fancy n m a b N k) (s : ℝ) (hs : s ≠ 0) (idx : Fin N) (t : Fin 3 → ℝ) :
    (M.inUnits s).forward idx (s • t) = M.forward idx t := by
  have h1 : ∀ sel p, (M.inUnits s).toDetector idx (s • t) sel p = M.toDetector idx t sel p := fun sel p => by
    unfold Fancy.toDetector
    rw [pixTrans_units M s hs, ramp_units M s hs]
    rfl
  unfold Fancy.forward
  simp only [h1, pixTrans_units M s hs]
  rfl

/-- The refined positions come out in the unit of the input. -/
theorem corrected_translations_units (M : Fancy n m a b N k) (s : ℝ) (hs : s ≠ 0) (idx : Fin N) (t : Fin 3 → ℝ) :
    (M.inUnits s).correctedTranslation idx (s • t) = s • M.correctedTranslation idx t := by
  unfold Fancy.correctedTranslation Fancy.inUnits
  cases M.offsets with
  | none => rfl
  | some o => simp only [pixelToTranslations_units s hs, smul_add]

/-- What a freshly made model simulates does not depend on the unit: the first patterns of a dataset in another unit are the same. -/
theorem fresh_simulation_units (D : FancyData n m N) (O : FancyOpts) (s : ℝ) (hs : 0 < s) (os : ℕ) [NeZero os] [NeZero (os * n)] [NeZero (os * m)]
    (c : ℕ) [NeZero (os * n - 2 * c)] [NeZero (os * m - 2 * c)] (k : ℕ) (rp : Fin k → Wave (os * n - 2 * c) (os * m - 2 * c)) (ro : ℕ → ℕ → ℝ)
    (M : Fancy (os * n - 2 * c) (os * m - 2 * c) (os * n) (os * m) N (k + 1)) (hM : fancyFromDataset D O os c k rp ro = .ok M) :
    ∃ M', fancyFromDataset (D.inUnits s) (O.inUnits s) os c k rp ro = .ok M' ∧
      (∀ idx, M'.forward idx ((D.inUnits s).translations idx) = M.forward idx (D.translations idx)) ∧
      (∀ idx, M'.correctedTranslation idx ((D.inUnits s).translations idx) = s • M.correctedTranslation idx (D.translations idx)) :=
  ⟨M.inUnits s, by rw [from_dataset_units D O s hs, hM]; rfl, fun idx => forward_units M s hs.ne' idx _,
    fun idx => corrected_translations_units M s hs.ne' idx _⟩

theorem withTheta_units (M : Fancy n m a b N k) (s : ℝ) (θ : FancyTheta n m H W h w N r k) :
    (M.inUnits s).withTheta θ = (M.withTheta θ).inUnits s := rfl

theorem shotPixels_units (M : Fancy n m a b N k) (s : ℝ) (hs : s ≠ 0) (e : Fin N × (Fin 3 → ℝ)) :
    (M.inUnits s).shotPixels h w (e.1, s • e.2) = M.shotPixels h w e := by
  unfold Fancy.shotPixels
  simp only [forward_units M s hs]

/-- A minibatch in a unit `s` times smaller. -/
def batchUnits {P : Type} (s : ℝ) (B : Minibatch (Fin N × (Fin 3 → ℝ)) P) : Minibatch (Fin N × (Fin 3 → ℝ)) P :=
  { B with inputs := B.inputs.map fun e => (e.1, s • e.2) }

theorem fancyTotal_units (M : Fancy n m a b N k) (kind : LossKind) (mask : Option (Fin h × Fin w → Bool)) (s : ℝ) (hs : s ≠ 0)
    (B : Minibatch (Fin N × (Fin 3 → ℝ)) (Fin h × Fin w → ℝ)) (θ : FancyTheta n m H W h w N r k) :
    fancyTotal (M.inUnits s) kind mask (batchUnits s B) θ = fancyTotal M kind mask B θ := by
  unfold fancyTotal batchUnits
  simp only [withTheta_units, List.map_map, Function.comp_def, shotPixels_units _ s hs]

/-- A reconstruction gives the same parameters in every unit: the same optimizer, started with the same state and parameters, on the same
minibatches with the translations in another unit. -/
theorem reconstruction_units {σ : Type} (M : Fancy n m a b N k) (kind : LossKind) (mask : Option (Fin h × Fin w → Bool)) (s : ℝ) (hs : s ≠ 0)
    (steps : List (OptStep σ (FancyCoord n m H W h w N r k) × Minibatch (Fin N × (Fin 3 → ℝ)) (Fin h × Fin w → ℝ)))
    (st : σ × FancyTheta n m H W h w N r k) :
    fancyRun (M.inUnits s) kind mask (steps.map fun x => (x.1, batchUnits s x.2)) st = fancyRun M kind mask steps st := by
  induction steps generalizing st with
  | nil => rfl
  | cons x rest ih =>
    obtain ⟨step, B⟩ := x
    simp only [List.map_cons, fancyRun, fancyTotal_units M kind mask s hs, ih]
    refine if_congr ?_ rfl rfl
    simp only [batchUnits, List.forall_mem_map, withTheta_units, shotPixels_units _ s hs]

/-! ### A concrete case -/

/-- A dataset of two exposures, in metres and in millimetres, with a crop and with a propagation distance. -/
example (rp : Fin 1 → Wave (1 * 4 - 2 * 1) (1 * 4 - 2 * 1)) (ro : ℕ → ℕ → ℝ) :
    ∃ M M', fancyFromDataset toyFancyData { propagationDistance := some 2 } 1 1 1 rp ro = .ok M ∧
      fancyFromDataset (toyFancyData.inUnits 1000) { propagationDistance := some 2000 } 1 1 1 rp ro = .ok M' ∧
      M'.objBasis 0 1 = 1000 * M.objBasis 0 1 ∧ M.objBasis 0 1 = -25 ∧
      ∀ idx, M'.forward idx ((toyFancyData.inUnits 1000).translations idx) = M.forward idx (toyFancyData.translations idx) := by
  have hM : ∃ M, fancyFromDataset toyFancyData { propagationDistance := some 2 } 1 1 1 rp ro = .ok M := by
    unfold fancyFromDataset
    simp [FancyData.start, datasetNormal, initialWeights, fancyInit, toyFancyData]
  obtain ⟨M, hM⟩ := hM
  have hO : ({ propagationDistance := some 2000 } : FancyOpts) = ({ propagationDistance := some 2 } : FancyOpts).inUnits 1000 := by
    simp [FancyOpts.inUnits]
    norm_num
  have hb : M.objBasis 0 1 = -25 := by
    obtain ⟨t0, rest, S, normal, W, -, hS, -, -, hM'⟩ := fresh_fields toyFancyData { propagationDistance := some 2 } 1 1 1 rp ro M hM
    rw [hM']
    simp only
    unfold FancyData.start at hS
    simp only [Bool.false_eq_true, if_false, Except.ok.injEq] at hS
    rw [← hS]
    exact toyFancyData_basis.1
  refine ⟨M, M.inUnits 1000, hM, ?_, ?_, hb, fun idx => forward_units M 1000 (by norm_num) idx _⟩
  · rw [hO, from_dataset_units _ _ 1000 (by norm_num), hM]
    rfl
  · simp [Fancy.inUnits]

end Cdtools
