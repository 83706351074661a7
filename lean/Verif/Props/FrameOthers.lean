/- Property theorems C124: unit of length and azimuth of the frame for `MultislicePtycho` and `Bragg2DPtycho`. -/
import Verif.Props.Azimuth
import Verif.Props.BraggFromDataset
import Verif.Props.Propagators

set_option linter.unusedSectionVars false

namespace Cdtools
open Finset Matrix

variable {n m N k os : ℕ} [NeZero n] [NeZero m]

/-! ### Specification -/

/-- The options of `MultislicePtycho.from_dataset` in a unit `s` times smaller. -/
def MultisliceOpts.inUnits (O : MultisliceOpts) (s : ℝ) : MultisliceOpts :=
  { O with dz := s * O.dz, propagationDistance := O.propagationDistance.map (s * ·) }

/-- A `MultislicePtycho` model in a unit `s` times smaller. -/
def Multislice.inUnits {n m a b N k : ℕ} (M : Multislice n m a b N k) (s : ℝ) : Multislice n m a b N k :=
  { M with objBasis := s • M.objBasis, detBasis := s • M.detBasis }

/-- The options of `Bragg2DPtycho.from_dataset` in a unit `s` times smaller. -/
def BraggOpts.inUnits (O : BraggOpts) (s : ℝ) : BraggOpts :=
  { O with propagationDistance := O.propagationDistance.map (s * ·) }

/-- The options of `Bragg2DPtycho.from_dataset` in a turned frame. -/
noncomputable def BraggOpts.turned (O : BraggOpts) (φ : ℝ) : BraggOpts :=
  { O with surfaceNormal := O.surfaceNormal.map (turn φ).mulVec }

/-- A `Bragg2DPtycho` model in a unit `s` times smaller. -/
def Bragg.inUnits {n m a b N k : ℕ} (M : Bragg n m a b N k) (s : ℝ) : Bragg n m a b N k :=
  { M with
    objBasis := s • M.objBasis
    probeBasis := s • M.probeBasis
    wavelength := s * M.wavelength
    medianPropagation := s * M.medianPropagation }

/-- A `Bragg2DPtycho` model in a turned frame. -/
noncomputable def Bragg.turned {n m a b N k : ℕ} (M : Bragg n m a b N k) (φ : ℝ) : Bragg n m a b N k :=
  { M with objBasis := turn φ * M.objBasis, probeBasis := turn φ * M.probeBasis }

/-! ### Propagation along a vector -/

theorem generalizedPropagator_units_along (r : ℝ) (hr : 0 < r) (b1 b2 : Vec3) (wl : ℝ) (off p : Vec3) (ki kj : ℝ) :
    generalizedPropagator (r • b1) (r • b2) (r * wl) (r • off) (some (r • p)) ki kj = generalizedPropagator b1 b2 wl off (some p) ki kj := by
  have hr0 := hr.ne'
  have hrC : (r : ℂ) ≠ 0 := by exact_mod_cast hr0
  have hk0 : 2 * Real.pi / (r * wl) = r⁻¹ * (2 * Real.pi / wl) := by
    rw [mul_comm r wl, ← div_div, inv_mul_eq_div]
  unfold generalizedPropagator
  simp only [Option.getD_some, perpDir_units r hr]
  set perp := perpDir b1 b2 p
  have hW : refWave (r * wl) perp (some (r • p)) = r⁻¹ • refWave wl perp (some p) := by
    unfold refWave
    ext i
    simp only [Vec3.unit_smul r hr, hk0, Pi.smul_apply, smul_eq_mul]
    ring
  have hK : inPlaneK (r • b1) (r • b2) (r * wl) perp (some (r • p)) ki kj = r⁻¹ • inPlaneK b1 b2 wl perp (some p) ki kj := by
    unfold inPlaneK
    simp only [dualBasis_units r hr0, hW]
    ext i
    simp only [Pi.smul_apply, smul_eq_mul, Vec3.dot]
    ring
  rw [hK, hW, hk0]
  set K := inPlaneK b1 b2 wl perp (some p) ki kj
  set Q := refWave wl perp (some p)
  have hKK : Vec3.dot (r⁻¹ • K) (r⁻¹ • K) = r⁻¹ * r⁻¹ * K.dot K := Vec3.dot_smul _ _ _ _
  rw [hKK]
  set k0 := 2 * Real.pi / wl
  have hs : (r⁻¹ * k0) ^ 2 - r⁻¹ * r⁻¹ * K.dot K = r⁻¹ * r⁻¹ * (k0 ^ 2 - K.dot K) := by ring
  rw [hs, csqrt_mul_sq _ _ (inv_pos.mpr hr)]
  have hoop : (-((r⁻¹ * r⁻¹ * K.dot K : ℝ) : ℂ)) / (((r⁻¹ : ℝ) : ℂ) * csqrt (k0 ^ 2 - K.dot K) + ((r⁻¹ * k0 : ℝ) : ℂ)) =
      (r : ℂ)⁻¹ * (-((K.dot K : ℝ) : ℂ) / (csqrt (k0 ^ 2 - K.dot K) + (k0 : ℂ))) := by
    push_cast
    rw [← mul_add, show -((r : ℂ)⁻¹ * (r : ℂ)⁻¹ * (K.dot K : ℂ)) = (r : ℂ)⁻¹ * ((r : ℂ)⁻¹ * -(K.dot K : ℂ)) by ring,
      mul_div_mul_left _ _ (inv_ne_zero hrC), mul_div_assoc]
  rw [hoop]
  have hphase : ∀ z : ℂ, ∑ i, (((r • off) i : ℝ) : ℂ) * ((((r⁻¹ • K) i : ℝ) : ℂ) + (perp i : ℂ) * ((r : ℂ)⁻¹ * z) - (((r⁻¹ • Q) i : ℝ) : ℂ)) =
      ∑ i, (off i : ℂ) * ((K i : ℂ) + perp i * z - Q i) := fun z => by
    refine Finset.sum_congr rfl fun i _ => ?_
    simp only [Pi.smul_apply, smul_eq_mul]
    push_cast
    field_simp
  rw [hphase]
  have hd : Vec3.dot (r • p) (r • off) < 0 ↔ p.dot off < 0 := by
    rw [Vec3.dot_smul, mul_neg_iff_pos _ _ (mul_pos hr hr)]
  simp only [hd]

theorem generalizedPropagator_turn_along (φ : ℝ) (b1 b2 : Vec3) (wl : ℝ) (off p : Vec3) (ki kj : ℝ) :
    generalizedPropagator ((turn φ).mulVec b1) ((turn φ).mulVec b2) wl ((turn φ).mulVec off) (some ((turn φ).mulVec p)) ki kj =
      generalizedPropagator b1 b2 wl off (some p) ki kj := by
  unfold generalizedPropagator
  simp only [Option.getD_some, perpDir_turn]
  set perp := perpDir b1 b2 p
  have hW : refWave wl ((turn φ).mulVec perp) (some ((turn φ).mulVec p)) = (turn φ).mulVec (refWave wl perp (some p)) := by
    unfold refWave
    simp only [unit_turn]
    ext i
    fin_cases i
    · simp only [Fin.zero_eta, turn_0]; ring
    · simp only [Fin.mk_one, turn_1]; ring
    · simp only [Fin.reduceFinMk, turn_2]
  have hK : inPlaneK ((turn φ).mulVec b1) ((turn φ).mulVec b2) wl ((turn φ).mulVec perp) (some ((turn φ).mulVec p)) ki kj =
      (turn φ).mulVec (inPlaneK b1 b2 wl perp (some p) ki kj) := by
    unfold inPlaneK
    simp only [dualBasis_turn, hW, dot_turn]
    ext i
    fin_cases i
    · simp only [Fin.zero_eta, turn_0]; ring
    · simp only [Fin.mk_one, turn_1]; ring
    · simp only [Fin.reduceFinMk, turn_2]
  rw [hK, hW]
  set K := inPlaneK b1 b2 wl perp (some p) ki kj
  set Q := refWave wl perp (some p)
  rw [dot_turn, dot_turn]
  have key : ∀ (o v p q : Vec3) (z : ℂ), ∑ i, (o i : ℂ) * ((v i : ℂ) + p i * z - (q i : ℂ)) =
      ((o.dot v : ℝ) : ℂ) + ((o.dot p : ℝ) : ℂ) * z - ((o.dot q : ℝ) : ℂ) :=
    fun o v p q z => by
      simp only [Fin.sum_univ_three, Vec3.dot]
      push_cast
      ring
  rw [key, key, dot_turn, dot_turn, dot_turn]

/-! ### MultislicePtycho: units -/

theorem interslicePropagator_units (s : ℝ) (hs : 0 < s) (B : Matrix (Fin 3) (Fin 2) ℝ) (wl dz : ℝ) :
    interslicePropagator n m (s • B) (s * wl) (s * dz) = interslicePropagator n m B wl dz := by
  funext x y
  unfold interslicePropagator
  simp only [Matrix.smul_apply, smul_eq_mul, abs_mul, abs_of_pos hs, angularSpectrum_units s hs]

/-- `MultislicePtycho.from_dataset` gives the same model in every unit. -/
theorem multislice_from_dataset_units (D : FancyData n m N) (O : MultisliceOpts) (s : ℝ) (hs : 0 < s) (os : ℕ) [NeZero os] [NeZero (os * n)]
    [NeZero (os * m)] (c : ℕ) [NeZero (os * n - 2 * c)] [NeZero (os * m - 2 * c)] (k : ℕ) (rp : Fin k → Wave (os * n - 2 * c) (os * m - 2 * c))
    (ro : ℕ → ℕ → ℕ → ℝ) :
    multisliceFromDataset (D.inUnits s) (O.inUnits s) os c k rp ro = (multisliceFromDataset D O os c k rp ro).map fun M => M.inUnits s := by
  have hs0 := hs.ne'
  unfold multisliceFromDataset
  rw [show (O.inUnits s).shared = O.shared.inUnits s from rfl, start_units D O.shared s hs,
    show (O.inUnits s).scatteringMode = O.scatteringMode from rfl, show (D.inUnits s).orientation = D.orientation from rfl,
    show (D.inUnits s).detBasis = s • D.detBasis from rfl, datasetNormal_units s hs, show (O.inUnits s).dmRank = O.dmRank from rfl,
    show List.ofFn (D.inUnits s).translations = (List.ofFn D.translations).map (s • ·) by rw [List.map_ofFn]; rfl]
  cases List.ofFn D.translations with
  | nil =>
    cases D.start O.shared os <;> cases datasetNormal O.scatteringMode D.orientation D.detBasis <;> cases initialWeights N (k + 1) O.dmRank <;> rfl
  | cons t0 rest =>
    cases D.start O.shared os with
    | error e => rfl
    | ok S =>
      cases datasetNormal O.scatteringMode D.orientation D.detBasis with
      | error e => rfl
      | ok normal =>
        cases initialWeights N (k + 1) O.dmRank with
        | error e => rfl
        | ok W =>
          have hp : (initialPropagator (O.inUnits s) (s • S.objBasis) (s * D.wavelength) : Wave n m) = initialPropagator O S.objBasis D.wavelength := by
            unfold initialPropagator
            simp only [MultisliceOpts.inUnits, interslicePropagator_units s hs]
          simp only [List.map_cons, Except.map, translationsToPixel_units s hs0, List.map_map, Function.comp_def,
            show (D.inUnits s).wavelength = s * D.wavelength from rfl, hp]
          simp only [MultisliceOpts.inUnits]
          by_cases h1 : O.probeShape = true
          · simp only [h1, if_true]
          · by_cases h2 : O.nz = 0
            · simp only [h1, h2, if_true, Bool.false_eq_true, if_false]
            · simp only [h1, h2, Bool.false_eq_true, if_false]
              rw [show (D.inUnits s).intensities = D.intensities from rfl]
              cases multisliceWeights D.intensities W <;> rfl

variable {a b : ℕ} [NeZero a] [NeZero b]

theorem multislice_forward_units (M : Multislice n m a b N k) (s : ℝ) (hs : s ≠ 0) (idx : Fin N) (t : Fin 3 → ℝ) :
    (M.inUnits s).forward idx (s • t) = M.forward idx t := by
  have h0 : (M.inUnits s).pixTrans idx (s • t) = M.pixTrans idx t := by
    unfold Multislice.pixTrans Multislice.inUnits
    simp only [translationsToPixel_units s hs]
  have hr : (M.inUnits s).ramp (s • t) = M.ramp t := by
    unfold Multislice.ramp Multislice.inUnits
    simp only [translationsToPixel_units s hs]
  have h1 : ∀ ws p, (M.inUnits s).toDetector idx (s • t) ws p = M.toDetector idx t ws p := fun ws p => by
    unfold Multislice.toDetector
    rw [h0, hr]
    rfl
  unfold Multislice.forward
  simp only [h1, h0]
  rfl

theorem multislice_corrected_units (M : Multislice n m a b N k) (s : ℝ) (hs : s ≠ 0) (idx : Fin N) (t : Fin 3 → ℝ) :
    (M.inUnits s).correctedTranslation idx (s • t) = s • M.correctedTranslation idx t := by
  unfold Multislice.correctedTranslation Multislice.inUnits
  cases M.offsets with
  | none => rfl
  | some o => simp only [pixelToTranslations_units s hs, smul_add]

/-! ### Bragg2DPtycho: units -/

theorem sampleNormal_units (r : ℝ) (hr : 0 < r) (B : Matrix (Fin 3) (Fin 2) ℝ) : sampleNormal (r • B) = sampleNormal B := by
  have h1 : ∀ c, (fun i => (r • B) i c) = r • fun i => B i c := fun c => by ext i; simp
  unfold sampleNormal
  rw [h1, h1, Vec3.cross_smul, Vec3.unit_smul _ (mul_pos hr hr)]

theorem projectToSample_units (r : ℝ) (hr : 0 < r) (B : Matrix (Fin 3) (Fin 2) ℝ) (t : Fin 3 → ℝ) :
    projectToSample (r • B) (r • t) = ((projectToSample B t).1, r * (projectToSample B t).2) := by
  have hP : sampleProjector (r • B) = sampleProjector B := by
    unfold sampleProjector
    rw [sampleNormal_units r hr]
  unfold projectToSample
  rw [hP, pinvTall_smul r hr.ne', Matrix.smul_mul, Matrix.smul_mulVec, Matrix.mulVec_smul, smul_smul, inv_mul_cancel₀ hr.ne', one_smul,
    Matrix.mulVec_smul]
  simp only [Pi.smul_apply, smul_eq_mul, mul_sub]

theorem braggObjBasis_units (r : ℝ) (hr : 0 < r) (B : Matrix (Fin 3) (Fin 2) ℝ) (nrm : Vec3) :
    braggObjBasis (r • B) nrm = r • braggObjBasis B nrm := by
  unfold braggObjBasis
  rw [sampleNormal_units r hr, Matrix.mul_smul]

theorem braggNormal_units (r : ℝ) (hr : 0 < r) (g : Option Vec3) (mode : Option String) (o : Option Vec3) (B : Matrix (Fin 3) (Fin 2) ℝ) :
    braggNormal g mode o (r • B) = braggNormal g mode o B := by
  have h1 : ∀ c, (fun i => (r • B) i c) = r • fun i => B i c := fun c => by ext i; simp
  unfold braggNormal
  simp only [h1, Vec3.cross_smul, Vec3.unit_smul _ (mul_pos hr hr)]

theorem torchMedian_scale (r : ℝ) (hr : 0 < r) (l : List ℝ) : torchMedian (l.map (r * ·)) = r * torchMedian l := by
  unfold torchMedian
  rw [← List.map_mergeSort (r := fun x y => decide (x ≤ y)) (f := (r * ·)) (fun x _ y _ => by simp [mul_le_mul_iff_of_pos_left hr])]
  rw [List.length_map, List.getD_eq_getElem?_getD, List.getD_eq_getElem?_getD, List.getElem?_map]
  cases (l.mergeSort fun x y => decide (x ≤ y))[(l.length - 1) / 2]? <;> simp

theorem braggMedian_units (r : ℝ) (hr : 0 < r) (B : Matrix (Fin 3) (Fin 2) ℝ) (ts : List (Fin 3 → ℝ)) :
    braggMedian (r • B) (ts.map (r • ·)) = r * braggMedian B ts := by
  unfold braggMedian
  rw [← torchMedian_scale r hr, List.map_map, List.map_map]
  congr 1
  refine List.map_congr_left fun t _ => ?_
  simp only [Function.comp_apply, projectToSample_units r hr]

theorem braggSetup_units (r : ℝ) (hr : 0 < r) (q : ℕ) (B : Matrix (Fin 3) (Fin 2) ℝ) (t0 : Fin 3 → ℝ) (rest : List (Fin 3 → ℝ)) (pad : ℤ)
    (axis : Fin 2) : braggSetup q (r • B) (r • t0) (rest.map (r • ·)) pad axis = braggSetup q B t0 rest pad axis := by
  unfold braggSetup
  simp only [projectToSample_units r hr, List.map_map, Function.comp_def]

theorem universalPropagator_units (r : ℝ) (hr : 0 < r) (B : Matrix (Fin 3) (Fin 2) ℝ) (wl ki kj : ℝ) :
    universalPropagator (r • B) (r * wl) ki kj = universalPropagator B wl ki kj := by
  have h1 : ∀ c, (fun i => (r • B) i c) = r • fun i => B i c := fun c => by ext i; simp
  have h3 : (![0, 0, r * wl / (2 * Real.pi)] : Vec3) = r • ![0, 0, wl / (2 * Real.pi)] := by
    ext i; fin_cases i <;> simp [mul_div_assoc]
  unfold universalPropagator
  rw [h1, h1, h3, generalizedPropagator_units_along r hr]

theorem sampleToDetector_units (r : ℝ) (hr : 0 < r) (B : Matrix (Fin 3) (Fin 2) ℝ) (d : ℝ) :
    sampleToDetector (r • B) (r * d) = r • sampleToDetector B d := by
  unfold sampleToDetector
  ext i
  simp only [basisCol_smul, Vec3.cross_smul, Vec3.norm_smul _ (mul_pos hr hr), Pi.smul_apply, smul_eq_mul]
  rw [mul_div_mul_comm, show r * r = r * r from rfl]
  have : r / (r * r) = r⁻¹ := by field_simp
  rw [this]
  field_simp

theorem rayToPixel_units (r : ℝ) (hr : 0 < r) (n m : ℕ) (B : Matrix (Fin 3) (Fin 2) ℝ) (d : ℝ) (lens : Bool) (i j : ℕ) :
    rayToPixel n m (r • B) (r * d) lens i j = r • rayToPixel n m B d lens i j := by
  have hq : inDetector n m (r • B) i j = r • inDetector n m B i j := by
    ext c
    simp only [inDetector, Matrix.smul_apply, Pi.smul_apply, smul_eq_mul]
    ring
  unfold rayToPixel
  simp only [sampleToDetector_units r hr, hq, Vec3.dot_smul, ← mul_sub, Real.sqrt_mul (mul_self_nonneg r), Real.sqrt_mul_self hr.le]
  cases lens
  · ext c
    simp [mul_add]
  · ext c
    simp only [if_true, Pi.smul_apply, smul_eq_mul]
    rw [mul_div_mul_left _ _ hr.ne']
    ring

theorem Vec3.length_smul (r : ℝ) (hr : 0 < r) (v : Vec3) : Vec3.length (r • v) = r * v.length := Vec3.norm_smul r hr v

theorem highNAMap_units (r : ℝ) (hr : 0 < r) (n m : ℕ) (A B : Matrix (Fin 3) (Fin 2) ℝ) (d wl : ℝ) (lens : Bool) (i j : ℕ) :
    highNAMap n m (r • A) (r • B) (r * d) (r * wl) lens i j = highNAMap n m A B d wl lens i j := by
  have hk0 : 2 * Real.pi / (r * wl) = r⁻¹ * (2 * Real.pi / wl) := by
    rw [mul_comm r wl, ← div_div, inv_mul_eq_div]
  have hr0 := hr.ne'
  unfold highNAMap
  simp only [rayToPixel_units r hr, sampleToDetector_units r hr, Vec3.length_smul r hr, hk0, Vec3.dot, Pi.smul_apply, Matrix.smul_apply, smul_eq_mul]
  have e1 : ∀ q x l : ℝ, r⁻¹ * q * (r * x) / (r * l) = r⁻¹ * (q * x / l) := fun q x l => by
    rw [show r⁻¹ * q * (r * x) = r * (r⁻¹ * (q * x)) by ring, mul_div_mul_left _ _ hr0, mul_div_assoc]
  simp only [e1, ← mul_sub]
  have e2 : ∀ x y : ℝ, 2 * (r * x) / (2 * Real.pi) * (r⁻¹ * y) = 2 * x / (2 * Real.pi) * y := fun x y => by
    field_simp
  simp only [e2]

theorem highNAIntensity_units (r : ℝ) (hr : 0 < r) (n m : ℕ) (B : Matrix (Fin 3) (Fin 2) ℝ) (d wl : ℝ) (lens : Bool) (i j : ℕ) :
    highNAIntensity n m (r • B) (r * d) (r * wl) lens i j = highNAIntensity n m B d wl lens i j := by
  have hk0 : 2 * Real.pi / (r * wl) = r⁻¹ * (2 * Real.pi / wl) := by
    rw [mul_comm r wl, ← div_div, inv_mul_eq_div]
  have hr0 := hr.ne'
  unfold highNAIntensity
  simp only [rayToPixel_units r hr, sampleToDetector_units r hr, Vec3.length_smul r hr, hk0, Vec3.dot, Pi.smul_apply, smul_eq_mul,
    ← Real.mul_iInf_of_nonneg hr.le]
  have e1 : ∀ q x l : ℝ, r⁻¹ * q * (r * x) / (r * l) = r⁻¹ * (q * x / l) := fun q x l => by
    rw [show r⁻¹ * q * (r * x) = r * (r⁻¹ * (q * x)) by ring, mul_div_mul_left _ _ hr0, mul_div_assoc]
  have e2 : ∀ x q y z : ℝ, r * x / (r⁻¹ * q * (r * y)) * (r⁻¹ * z) = x / (q * y) * z := fun x q y z => by
    rw [show r⁻¹ * q * (r * y) = q * y by field_simp, mul_div_assoc]
    field_simp
  simp only [e1, e2]
  have e3 : ∀ q y l : ℝ, r ^ 2 * q * (y / (r ^ 2 * l)) = q * (y / l) := fun q y l => by
    field_simp
  rw [mul_pow, mul_pow, e3]

theorem braggProbe_units (D : FancyData n m N) (z : Option ℝ) (s : ℝ) (hs : 0 < s) (os : ℕ) [NeZero os] [NeZero (os * n)] [NeZero (os * m)] :
    (D.inUnits s).braggProbe (z.map (s * ·)) os = D.braggProbe z os := by
  have hs0 := hs.ne'
  unfold FancyData.braggProbe
  simp only [FancyData.inUnits]
  cases z with
  | none => rfl
  | some z =>
    simp only [Option.map_some, basisCol_smul, Vec3.norm_smul s hs]
    unfold sharpProbePropagated
    congr 1
    funext k l
    have h : ∀ (q : ℕ) (d : ℝ), s * D.wavelength * (s * D.distance) / (q * (s * d)) = s * (D.wavelength * D.distance / (q * d)) := fun q d => by
      rw [show s * D.wavelength * (s * D.distance) = s * (s * (D.wavelength * D.distance)) by ring, show (q : ℝ) * (s * d) = s * (q * d) by ring,
        mul_div_mul_left _ _ hs0, mul_div_assoc]
    rw [h, h, angularSpectrum_units s hs]

theorem braggTilt_units (D : FancyData n m N) (O : BraggOpts) (s : ℝ) (hs : 0 < s) (os : ℕ) (B : Matrix (Fin 3) (Fin 2) ℝ) :
    (D.inUnits s).braggTilt (O.inUnits s) os (s • B) = D.braggTilt O os B := by
  have hB : (Matrix.of fun i j => (s • D.detBasis) i j / (os : ℝ) : Matrix (Fin 3) (Fin 2) ℝ) = s • Matrix.of fun i j => D.detBasis i j / (os : ℝ) := by
    ext i c
    simp [mul_div_assoc]
  unfold FancyData.braggTilt
  simp only [FancyData.inUnits, BraggOpts.inUnits, hB]
  have h1 : highNAMap (os * n) (os * m) (s • B) (s • Matrix.of fun i j => D.detBasis i j / (os : ℝ)) (s * D.distance) (s * D.wavelength) O.lens =
      highNAMap (os * n) (os * m) B (Matrix.of fun i j => D.detBasis i j / (os : ℝ)) D.distance D.wavelength O.lens := by
    funext i j
    exact highNAMap_units s hs _ _ _ _ _ _ _ _ _
  have h2 : highNAIntensity (os * n) (os * m) (s • Matrix.of fun i j => D.detBasis i j / (os : ℝ)) (s * D.distance) (s * D.wavelength) O.lens =
      highNAIntensity (os * n) (os * m) (Matrix.of fun i j => D.detBasis i j / (os : ℝ)) D.distance D.wavelength O.lens := by
    funext i j
    exact highNAIntensity_units s hs _ _ _ _ _ _ _ _
  rw [h1, h2]

theorem braggProbeBasis_units (s : ℝ) (crop : Bool) (n m A B : ℕ) (b : Matrix (Fin 3) (Fin 2) ℝ) :
    braggProbeBasis crop n m A B (s • b) = s • braggProbeBasis crop n m A B b := by
  unfold braggProbeBasis
  cases crop
  · rfl
  · ext i j
    simp [mul_assoc]

/-- `Bragg2DPtycho.from_dataset` gives the same model in every unit. -/
theorem bragg_from_dataset_units (D : FancyData n m N) (O : BraggOpts) (s : ℝ) (hs : 0 < s) (os : ℕ) [NeZero os] [NeZero (os * n)]
    [NeZero (os * m)] (c d : ℕ) [NeZero (os * n - 2 * c)] [NeZero (os * m - 2 * d)] (k : ℕ) (rp : Fin k → Wave (os * n - 2 * c) (os * m - 2 * d))
    (ro : ℕ → ℕ → ℝ) :
    braggFromDataset (D.inUnits s) (O.inUnits s) os c d k rp ro = (braggFromDataset D O os c d k rp ro).map fun M => M.inUnits s := by
  have hs0 := hs.ne'
  unfold braggFromDataset
  rw [show (O.inUnits s).crop = O.crop from rfl, show (O.inUnits s).scatteringMode = O.scatteringMode from rfl, show (O.inUnits s).surfaceNormal = O.surfaceNormal from rfl,
    show (D.inUnits s).orientation = D.orientation from rfl,
    show (D.inUnits s).detBasis = s • D.detBasis from rfl, braggNormal_units s hs,
    show List.ofFn (D.inUnits s).translations = (List.ofFn D.translations).map (s • ·) by rw [List.map_ofFn]; rfl]
  cases List.ofFn D.translations with
  | nil => rfl
  | cons t0 rest =>
    cases braggNormal O.surfaceNormal O.scatteringMode D.orientation D.detBasis with
    | error e => rfl
    | ok normal =>
      have hE : exitWaveGeometry (s • D.detBasis) ![n, m] (D.inUnits s).wavelength (D.inUnits s).distance os =
          s • exitWaveGeometry D.detBasis ![n, m] D.wavelength D.distance os := exitWaveGeometry_units s hs0 _ _ _ _ _
      have hM := fun B => braggMedian_units s hs B (t0 :: rest)
      simp only [List.map_cons] at hM
      simp only [List.map_cons, hE, braggObjBasis_units s hs, braggSetup_units s hs, hM, braggTilt_units D O s hs, braggProbeBasis_units,
        show (O.inUnits s).propagationDistance = O.propagationDistance.map (s * ·) from rfl, braggProbe_units D _ s hs]
      split_ifs <;> rfl

theorem bragg_forward_units (M : Bragg n m a b N k) (s : ℝ) (hs : 0 < s) (idx : Fin N) (t : Fin 3 → ℝ) :
    (M.inUnits s).forward idx (s • t) = M.forward idx t := by
  have h0 : (M.inUnits s).pixTrans idx (s • t) = M.pixTrans idx t := by
    unfold Bragg.pixTrans Bragg.inUnits
    simp only [projectToSample_units s hs]
  have hd : (M.inUnits s).propagator ((M.inUnits s).distance (s • t)) = M.propagator (M.distance t) := by
    funext x y
    unfold Bragg.propagator Bragg.distance Bragg.inUnits
    simp only [projectToSample_units s hs, universalPropagator_units s hs, ← mul_sub]
    rw [mul_assoc s, mul_div_mul_left _ _ hs.ne']
  have h1 : ∀ w p, (M.inUnits s).illumination (a := a) (b := b) w ((M.inUnits s).distance (s • t)) p = M.illumination w (M.distance t) p := fun w p => by
    unfold Bragg.illumination
    rw [hd]
    rfl
  unfold Bragg.forward
  simp only [h1, h0]
  rfl

theorem bragg_corrected_units (M : Bragg n m a b N k) (s : ℝ) (hs : 0 < s) (idx : Fin N) (t : Fin 3 → ℝ) :
    (M.inUnits s).correctedTranslation idx (s • t) = s • M.correctedTranslation idx t := by
  unfold Bragg.correctedTranslation Bragg.inUnits
  cases M.offsets with
  | none => rfl
  | some o => simp only [sampleNormal_units s hs, pixelToTranslations_units s hs.ne', smul_add]

/-! ### Bragg2DPtycho: azimuth -/

theorem sampleNormal_turn (φ : ℝ) (B : Matrix (Fin 3) (Fin 2) ℝ) : sampleNormal (turn φ * B) = (turn φ).mulVec (sampleNormal B) := by
  have h1 : ∀ c, (fun i => (turn φ * B) i c) = (turn φ).mulVec fun i => B i c := fun c => basisCol_turn φ B c
  unfold sampleNormal
  rw [h1, h1, cross_turn, unit_turn]

theorem outer_turn (φ : ℝ) (u v : Vec3) :
    (Matrix.of fun i j => (turn φ).mulVec u i * (turn φ).mulVec v j : Matrix (Fin 3) (Fin 3) ℝ) =
      turn φ * (Matrix.of fun i j => u i * v j) * (turn φ)ᵀ := by
  ext i j
  simp only [Matrix.of_apply, Matrix.mul_apply, Matrix.mulVec, dotProduct, Matrix.transpose_apply, Fin.sum_univ_three]
  ring

theorem conj_one (φ : ℝ) : turn φ * 1 * (turn φ)ᵀ = 1 := by rw [Matrix.mul_one, turn_mul_transpose]

/-- `I - e eᵀ` and the normal, stacked and inverted. -/
theorem braggProjector_turn (φ : ℝ) (e v : Vec3) :
    braggProjector ((turn φ).mulVec e) ((turn φ).mulVec v) = turn φ * braggProjector e v * (turn φ)ᵀ := by
  unfold braggProjector
  simp only [outer_turn]
  set E : Matrix (Fin 3) (Fin 3) ℝ := Matrix.of fun i j => e i * e j
  set V : Matrix (Fin 3) (Fin 3) ℝ := Matrix.of fun i j => v i * v j
  have htop : (1 : Matrix (Fin 3) (Fin 3) ℝ) - turn φ * E * (turn φ)ᵀ = turn φ * (1 - E) * (turn φ)ᵀ := by
    rw [Matrix.mul_sub, Matrix.sub_mul, conj_one]
  rw [htop]
  set T := 1 - E
  have hT : (turn φ * T * (turn φ)ᵀ)ᵀ = turn φ * Tᵀ * (turn φ)ᵀ := by
    simp only [Matrix.transpose_mul, Matrix.transpose_transpose, Matrix.mul_assoc]
  rw [hT]
  have hG : turn φ * Tᵀ * (turn φ)ᵀ * (turn φ * T * (turn φ)ᵀ) + turn φ * V * (turn φ)ᵀ = turn φ * (Tᵀ * T + V) * (turn φ)ᵀ := by
    rw [Matrix.mul_add, Matrix.add_mul]
    congr 1
    calc turn φ * Tᵀ * (turn φ)ᵀ * (turn φ * T * (turn φ)ᵀ) = turn φ * (Tᵀ * (((turn φ)ᵀ * turn φ) * (T * (turn φ)ᵀ))) := by
          simp only [Matrix.mul_assoc]
      _ = _ := by
          rw [turn_transpose_mul, Matrix.one_mul]
          simp only [Matrix.mul_assoc]
  rw [hG, Matrix.mul_inv_rev, Matrix.mul_inv_rev, ← Matrix.transpose_nonsing_inv, turn_inv, Matrix.transpose_transpose]
  calc turn φ * ((Tᵀ * T + V)⁻¹ * (turn φ)ᵀ) * (turn φ * Tᵀ * (turn φ)ᵀ)
      = turn φ * ((Tᵀ * T + V)⁻¹ * (((turn φ)ᵀ * turn φ) * (Tᵀ * (turn φ)ᵀ))) := by simp only [Matrix.mul_assoc]
    _ = _ := by
      rw [turn_transpose_mul, Matrix.one_mul]
      simp only [Matrix.mul_assoc]

theorem sampleProjector_eq (B : Matrix (Fin 3) (Fin 2) ℝ) : sampleProjector B = braggProjector ![0, 0, 1] (sampleNormal B) := rfl

theorem sampleProjector_turn (φ : ℝ) (B : Matrix (Fin 3) (Fin 2) ℝ) : sampleProjector (turn φ * B) = turn φ * sampleProjector B * (turn φ)ᵀ := by
  rw [sampleProjector_eq, sampleProjector_eq, sampleNormal_turn, ← braggProjector_turn, turn_axis]

theorem projectToSample_turn (φ : ℝ) (B : Matrix (Fin 3) (Fin 2) ℝ) (t : Fin 3 → ℝ) :
    projectToSample (turn φ * B) ((turn φ).mulVec t) = projectToSample B t := by
  have h1 : (sampleProjector (turn φ * B)).mulVec ((turn φ).mulVec t) = (turn φ).mulVec ((sampleProjector B).mulVec t) := by
    rw [sampleProjector_turn, Matrix.mulVec_mulVec, Matrix.mul_assoc, turn_transpose_mul, Matrix.mul_one, Matrix.mulVec_mulVec]
  unfold projectToSample
  rw [← Matrix.mulVec_mulVec, h1, pinvTall_turn, Matrix.mulVec_mulVec, Matrix.mul_assoc, turn_transpose_mul, Matrix.mul_one, turn_2, turn_2,
    ← Matrix.mulVec_mulVec]

theorem braggObjBasis_turn (φ : ℝ) (B : Matrix (Fin 3) (Fin 2) ℝ) (nrm : Vec3) :
    braggObjBasis (turn φ * B) ((turn φ).mulVec nrm) = turn φ * braggObjBasis B nrm := by
  unfold braggObjBasis
  rw [sampleNormal_turn, braggProjector_turn, Matrix.mul_assoc, ← Matrix.mul_assoc _ (turn φ) B, turn_transpose_mul, Matrix.one_mul, Matrix.mul_assoc]

theorem braggNormal_turn (φ : ℝ) (g : Option Vec3) (mode : Option String) (o : Option Vec3) (B : Matrix (Fin 3) (Fin 2) ℝ) :
    braggNormal (g.map (turn φ).mulVec) mode (o.map (turn φ).mulVec) (turn φ * B) = (braggNormal g mode o B).map (turn φ).mulVec := by
  have h1 : ∀ c, (fun i => (turn φ * B) i c) = (turn φ).mulVec fun i => B i c := fun c => basisCol_turn φ B c
  unfold braggNormal
  cases g with
  | some v => rfl
  | none =>
    cases mode with
    | none => cases o <;> simp [Except.map, turn_axis]
    | some m =>
      simp only [Option.map_none, h1, cross_turn, unit_turn, dot_turn]
      split_ifs
      · simp only [Except.map, turn_axis]
      · simp only [Except.map]
        congr 1
        set u := (Vec3.cross (fun i => B i 0) (fun i => B i 1)).unit
        set w : Vec3 := u + ![0, 0, 1] with hw
        have e1 : (fun c => (u c + ![0, 0, 1] c) / Real.sqrt (u.dot u) : Vec3) = fun c => w c * (Real.sqrt (u.dot u))⁻¹ := by
          funext c
          rw [hw, Pi.add_apply, div_eq_mul_inv]
        rw [e1, ← smul_turn, hw, Matrix.mulVec_add, turn_axis]
        ext c
        simp [div_eq_mul_inv]
      · rfl

theorem universalPropagator_turn (φ : ℝ) (B : Matrix (Fin 3) (Fin 2) ℝ) (wl ki kj : ℝ) :
    universalPropagator (turn φ * B) wl ki kj = universalPropagator B wl ki kj := by
  have h1 : ∀ c, (fun i => (turn φ * B) i c) = (turn φ).mulVec fun i => B i c := fun c => basisCol_turn φ B c
  have := generalizedPropagator_turn_along φ (fun i => B i 0) (fun i => B i 1) wl ![0, 0, wl / (2 * Real.pi)] ![0, 0, wl / (2 * Real.pi)] ki kj
  rw [turn_axis] at this
  unfold universalPropagator
  rw [h1, h1, this]

theorem sampleToDetector_turn (φ : ℝ) (B : Matrix (Fin 3) (Fin 2) ℝ) (d : ℝ) :
    sampleToDetector (turn φ * B) d = (turn φ).mulVec (sampleToDetector B d) := by
  unfold sampleToDetector
  simp only [basisCol_turn, cross_turn, dot_turn]
  set v : Vec3 := Vec3.cross (fun i => B i 0) (fun i => B i 1) with hv
  have h := smul_turn φ (-(d / Real.sqrt (v.dot v))) v
  simp only [mul_neg] at h
  exact h

theorem rayToPixel_turn (φ : ℝ) (n m : ℕ) (B : Matrix (Fin 3) (Fin 2) ℝ) (d : ℝ) (lens : Bool) (i j : ℕ) :
    rayToPixel n m (turn φ * B) d lens i j = (turn φ).mulVec (rayToPixel n m B d lens i j) := by
  have hq : inDetector n m (turn φ * B) i j = (turn φ).mulVec (inDetector n m B i j) := by
    ext c
    simp only [inDetector, Matrix.mul_apply, Matrix.mulVec, dotProduct, Fin.sum_univ_three]
    ring
  unfold rayToPixel
  simp only [sampleToDetector_turn, hq, dot_turn]
  cases lens
  · simp only [Bool.false_eq_true, if_false]
    exact (Matrix.mulVec_add (turn φ) (inDetector n m B i j) (sampleToDetector B d)).symm
  · simp only [if_true]
    set u := sampleToDetector B d
    set q := inDetector n m B i j
    set l := Real.sqrt (u.dot u)
    set x := Real.sqrt (u.dot u - q.dot q)
    have e1 : (fun c => q c + u c / l * x : Vec3) = q + fun c => u c * (l⁻¹ * x) := by
      ext c
      simp only [Pi.add_apply]
      ring
    rw [e1, Matrix.mulVec_add, ← smul_turn]
    ext c
    simp only [Pi.add_apply]
    ring

theorem length_turn (φ : ℝ) (v : Vec3) : Vec3.length ((turn φ).mulVec v) = v.length := by
  unfold Vec3.length
  rw [dot_turn]

theorem highNAMap_turn (φ : ℝ) (n m : ℕ) (A B : Matrix (Fin 3) (Fin 2) ℝ) (d wl : ℝ) (lens : Bool) (i j : ℕ) :
    highNAMap n m (turn φ * A) (turn φ * B) d wl lens i j = highNAMap n m A B d wl lens i j := by
  unfold highNAMap
  simp only [rayToPixel_turn, sampleToDetector_turn, length_turn]
  set R := rayToPixel n m B d lens i j
  set u := sampleToDetector B d
  have key : ∀ (v : Vec3) (x y l : ℝ), Vec3.dot (fun c => 2 * (turn φ).mulVec v c / (2 * Real.pi))
      (fun c => x * (turn φ).mulVec R c / l - x * (turn φ).mulVec u c / y) =
      Vec3.dot (fun c => 2 * v c / (2 * Real.pi)) (fun c => x * R c / l - x * u c / y) := fun v x y l => by
    have h : ∀ (v R u : Vec3), Vec3.dot (fun c => 2 * v c / (2 * Real.pi)) (fun c => x * R c / l - x * u c / y) =
        2 / (2 * Real.pi) * (x / l * v.dot R - x / y * v.dot u) := fun v R u => by
      simp only [Vec3.dot]
      ring
    rw [h, h, dot_turn, dot_turn]
  have hc : ∀ c e, (turn φ * A) e c = (turn φ).mulVec (fun i => A i c) e := fun c e => congrFun (basisCol_turn φ A c) e
  simp only [hc, key]

theorem highNAIntensity_turn (φ : ℝ) (n m : ℕ) (B : Matrix (Fin 3) (Fin 2) ℝ) (d wl : ℝ) (lens : Bool) (i j : ℕ) :
    highNAIntensity n m (turn φ * B) d wl lens i j = highNAIntensity n m B d wl lens i j := by
  unfold highNAIntensity
  simp only [rayToPixel_turn, sampleToDetector_turn, length_turn]
  have h : ∀ (x y l : ℝ) (u R : Vec3), Vec3.dot (fun c => u c / x) (fun c => y * R c / l) = y / (x * l) * u.dot R := fun x y l u R => by
    simp only [Vec3.dot]
    ring
  simp only [h, dot_turn]

theorem braggTilt_turn (D : FancyData n m N) (O : BraggOpts) (φ : ℝ) (os : ℕ) (B : Matrix (Fin 3) (Fin 2) ℝ) :
    (D.turned φ).braggTilt (O.turned φ) os (turn φ * B) = D.braggTilt O os B := by
  have hB : (Matrix.of fun i j => (turn φ * D.detBasis) i j / (os : ℝ) : Matrix (Fin 3) (Fin 2) ℝ) =
      turn φ * Matrix.of fun i j => D.detBasis i j / (os : ℝ) := by
    ext i c
    simp only [Matrix.of_apply, Matrix.mul_apply, Finset.sum_div, mul_div_assoc]
  unfold FancyData.braggTilt
  simp only [FancyData.turned, BraggOpts.turned, hB]
  have h1 : highNAMap (os * n) (os * m) (turn φ * B) (turn φ * Matrix.of fun i j => D.detBasis i j / (os : ℝ)) D.distance D.wavelength O.lens =
      highNAMap (os * n) (os * m) B (Matrix.of fun i j => D.detBasis i j / (os : ℝ)) D.distance D.wavelength O.lens := by
    funext i j
    exact highNAMap_turn φ _ _ _ _ _ _ _ _ _
  have h2 : highNAIntensity (os * n) (os * m) (turn φ * Matrix.of fun i j => D.detBasis i j / (os : ℝ)) D.distance D.wavelength O.lens =
      highNAIntensity (os * n) (os * m) (Matrix.of fun i j => D.detBasis i j / (os : ℝ)) D.distance D.wavelength O.lens := by
    funext i j
    exact highNAIntensity_turn φ _ _ _ _ _ _ _ _
  rw [h1, h2]

theorem braggProbeBasis_turn (φ : ℝ) (crop : Bool) (n m A B : ℕ) (b : Matrix (Fin 3) (Fin 2) ℝ) :
    braggProbeBasis crop n m A B (turn φ * b) = turn φ * braggProbeBasis crop n m A B b := by
  unfold braggProbeBasis
  cases crop
  · rfl
  · ext i j
    simp only [if_true, Matrix.of_apply, Matrix.mul_apply, Finset.sum_mul, mul_assoc]

/-- `Bragg2DPtycho.from_dataset` gives the same model in every frame turned about the beam. -/
theorem bragg_from_dataset_turned (D : FancyData n m N) (O : BraggOpts) (φ : ℝ) (os : ℕ) [NeZero os] [NeZero (os * n)]
    [NeZero (os * m)] (c d : ℕ) [NeZero (os * n - 2 * c)] [NeZero (os * m - 2 * d)] (k : ℕ) (rp : Fin k → Wave (os * n - 2 * c) (os * m - 2 * d))
    (ro : ℕ → ℕ → ℝ) :
    braggFromDataset (D.turned φ) (O.turned φ) os c d k rp ro = (braggFromDataset D O os c d k rp ro).map fun M => M.turned φ := by
  unfold braggFromDataset
  rw [show (O.turned φ).crop = O.crop from rfl, show (O.turned φ).scatteringMode = O.scatteringMode from rfl,
    show (O.turned φ).surfaceNormal = O.surfaceNormal.map (turn φ).mulVec from rfl,
    show (D.turned φ).orientation = D.orientation.map (turn φ).mulVec from rfl,
    show (D.turned φ).detBasis = turn φ * D.detBasis from rfl, braggNormal_turn,
    show List.ofFn (D.turned φ).translations = (List.ofFn D.translations).map (turn φ).mulVec by rw [List.map_ofFn]; rfl]
  cases List.ofFn D.translations with
  | nil => rfl
  | cons t0 rest =>
    cases braggNormal O.surfaceNormal O.scatteringMode D.orientation D.detBasis with
    | error e => rfl
    | ok normal =>
      have hE : exitWaveGeometry (turn φ * D.detBasis) ![n, m] (D.turned φ).wavelength (D.turned φ).distance os =
          turn φ * exitWaveGeometry D.detBasis ![n, m] D.wavelength D.distance os := exitWaveGeometry_turn _ _ _ _ _ _
      have hS : ∀ q B pad axis, braggSetup q (turn φ * B) ((turn φ).mulVec t0) (rest.map (turn φ).mulVec) pad axis =
          braggSetup q B t0 rest pad axis := fun q B pad axis => by
        unfold braggSetup
        simp only [projectToSample_turn, List.map_map, Function.comp_def]
      have hM : ∀ B, braggMedian (turn φ * B) ((turn φ).mulVec t0 :: rest.map (turn φ).mulVec) = braggMedian B (t0 :: rest) := fun B => by
        unfold braggMedian
        simp only [List.map_cons, projectToSample_turn, List.map_map, Function.comp_def]
      have hP : (D.turned φ).braggProbe (O.turned φ).propagationDistance os = D.braggProbe O.propagationDistance os := by
        unfold FancyData.braggProbe
        simp only [FancyData.turned, BraggOpts.turned, basisCol_turn, dot_turn]
      simp only [Except.map, List.map_cons, hE, braggObjBasis_turn, hS, hM, hP, braggTilt_turn, braggProbeBasis_turn,
        show (O.turned φ).padding = O.padding from rfl]
      split_ifs <;> rfl

theorem bragg_forward_turned (M : Bragg n m a b N k) (φ : ℝ) (idx : Fin N) (t : Fin 3 → ℝ) :
    (M.turned φ).forward idx ((turn φ).mulVec t) = M.forward idx t := by
  have h0 : (M.turned φ).pixTrans idx ((turn φ).mulVec t) = M.pixTrans idx t := by
    unfold Bragg.pixTrans Bragg.turned
    simp only [projectToSample_turn]
  have hd : (M.turned φ).propagator ((M.turned φ).distance ((turn φ).mulVec t)) = M.propagator (M.distance t) := by
    funext x y
    unfold Bragg.propagator Bragg.distance Bragg.turned
    simp only [projectToSample_turn, universalPropagator_turn]
  have h1 : ∀ w p, (M.turned φ).illumination (a := a) (b := b) w ((M.turned φ).distance ((turn φ).mulVec t)) p = M.illumination w (M.distance t) p :=
    fun w p => by
      unfold Bragg.illumination
      rw [hd]
      rfl
  unfold Bragg.forward
  simp only [h1, h0]
  rfl

theorem bragg_corrected_turned (M : Bragg n m a b N k) (φ : ℝ) (idx : Fin N) (t : Fin 3 → ℝ) :
    (M.turned φ).correctedTranslation idx ((turn φ).mulVec t) = (turn φ).mulVec (M.correctedTranslation idx t) := by
  unfold Bragg.correctedTranslation Bragg.turned
  cases M.offsets with
  | none => rfl
  | some o => simp only [sampleNormal_turn, pixelToTranslations_turn, Matrix.mulVec_add]

/-! ### MultislicePtycho: azimuth -/

/-- A `MultislicePtycho` model in a turned frame, with another propagator between the slices. -/
noncomputable def Multislice.turned {n m a b N k : ℕ} (M : Multislice n m a b N k) (φ : ℝ) (P : Img ℂ) : Multislice n m a b N k :=
  { M with objBasis := turn φ * M.objBasis, detBasis := turn φ * M.detBasis, normal := (turn φ).mulVec M.normal, propagator := P }

/-- `MultislicePtycho.from_dataset` gives the same model in every frame turned about the beam, except for the propagator between the slices. -/
theorem multislice_from_dataset_turned_partial (D : FancyData n m N) (O : MultisliceOpts) (φ : ℝ) (os : ℕ) [NeZero os] [NeZero (os * n)]
    [NeZero (os * m)] (c : ℕ) [NeZero (os * n - 2 * c)] [NeZero (os * m - 2 * c)] (k : ℕ) (rp : Fin k → Wave (os * n - 2 * c) (os * m - 2 * c))
    (ro : ℕ → ℕ → ℕ → ℝ) :
    multisliceFromDataset (D.turned φ) O os c k rp ro = (multisliceFromDataset D O os c k rp ro).map fun M =>
      M.turned φ (waveImg (initialPropagator O (turn φ * M.objBasis) D.wavelength : Wave n m)) := by
  unfold multisliceFromDataset
  rw [start_turned D O.shared φ, show (D.turned φ).orientation = D.orientation.map (turn φ).mulVec from rfl,
    show (D.turned φ).detBasis = turn φ * D.detBasis from rfl, datasetNormal_turn,
    show List.ofFn (D.turned φ).translations = (List.ofFn D.translations).map (turn φ).mulVec by rw [List.map_ofFn]; rfl]
  cases List.ofFn D.translations with
  | nil =>
    cases D.start O.shared os <;> cases datasetNormal O.scatteringMode D.orientation D.detBasis <;> cases initialWeights N (k + 1) O.dmRank <;> rfl
  | cons t0 rest =>
    cases D.start O.shared os with
    | error e => rfl
    | ok S =>
      cases datasetNormal O.scatteringMode D.orientation D.detBasis with
      | error e => rfl
      | ok normal =>
        cases initialWeights N (k + 1) O.dmRank with
        | error e => rfl
        | ok W =>
          simp only [List.map_cons, Except.map, translationsToPixel_turn, List.map_map, Function.comp_def]
          by_cases h1 : O.probeShape = true
          · simp only [h1, if_true]
          · by_cases h2 : O.nz = 0
            · simp only [h1, h2, if_true, Bool.false_eq_true, if_false]
            · simp only [h1, h2, Bool.false_eq_true, if_false]
              rw [show (D.turned φ).intensities = D.intensities from rfl]
              cases multisliceWeights D.intensities W <;> rfl

/-- With the same propagator between the slices all simulations are the same in every frame. -/
theorem multislice_forward_turned_partial (M : Multislice n m a b N k) (φ : ℝ) (idx : Fin N) (t : Fin 3 → ℝ) :
    (M.turned φ M.propagator).forward idx ((turn φ).mulVec t) = M.forward idx t := by
  have h0 : (M.turned φ M.propagator).pixTrans idx ((turn φ).mulVec t) = M.pixTrans idx t := by
    unfold Multislice.pixTrans Multislice.turned
    simp only [translationsToPixel_turn]
  have hr : (M.turned φ M.propagator).ramp ((turn φ).mulVec t) = M.ramp t := by
    unfold Multislice.ramp Multislice.turned
    simp only [translationsToPixel_turn]
  have h1 : ∀ ws p, (M.turned φ M.propagator).toDetector idx ((turn φ).mulVec t) ws p = M.toDetector idx t ws p := fun ws p => by
    unfold Multislice.toDetector
    rw [h0, hr]
    rfl
  unfold Multislice.forward
  simp only [h1, h0]
  rfl

/-- Refined positions come out in the turned frame. -/
theorem multislice_corrected_turned (M : Multislice n m a b N k) (φ : ℝ) (P : Img ℂ) (idx : Fin N) (t : Fin 3 → ℝ) :
    (M.turned φ P).correctedTranslation idx ((turn φ).mulVec t) = (turn φ).mulVec (M.correctedTranslation idx t) := by
  unfold Multislice.correctedTranslation Multislice.turned
  cases M.offsets with
  | none => rfl
  | some o => simp only [pixelToTranslations_turn, Matrix.mulVec_add]

/-- A dataset with square pixels on a detector along the axes. -/
noncomputable def squareFancyData : FancyData 4 4 2 := { toyFancyData with distance := 6 / 5 }

theorem squareFancyData_basis : exitWaveGeometry squareFancyData.detBasis ![4, 4] squareFancyData.wavelength squareFancyData.distance 1 =
    !![0, -3 / 10; -3 / 10, 0; 0, 0] := by
  unfold exitWaveGeometry pinvTall
  ext i j
  fin_cases i <;> fin_cases j <;>
  simp [squareFancyData, toyFancyData, Matrix.inv_def, Matrix.det_fin_two, Matrix.mul_apply, Fin.sum_univ_succ, Matrix.adjugate_fin_two, Matrix.vecMul,
    dotProduct] <;> norm_num

/-- **C124** (violated): the propagator between the slices of `MultislicePtycho` takes the size of the pixels from single components of the basis. For the
same experiment in a frame turned by 45° it is another one: a wave that propagates without loss is damped. -/
theorem multislice_azimuth_violated (k : ℕ) (rp : Fin k → Wave (1 * 4 - 2 * 1) (1 * 4 - 2 * 1)) (ro : ℕ → ℕ → ℕ → ℝ) :
    ∃ M M', multisliceFromDataset squareFancyData { dz := 1, nz := 2 } 1 1 k rp ro = .ok M ∧
      multisliceFromDataset (squareFancyData.turned (Real.pi / 4)) { dz := 1, nz := 2 } 1 1 k rp ro = .ok M' ∧
      M'.objBasis = turn (Real.pi / 4) * M.objBasis ∧ ‖M.propagator.px 0 1‖ = 1 ∧ ‖M'.propagator.px 0 1‖ < 1 := by
  have hI : ∀ i, (squareFancyData.turned (Real.pi / 4)).intensities = i ↔ squareFancyData.intensities = i := fun i => Iff.rfl
  have hok : ∃ M, multisliceFromDataset squareFancyData { dz := 1, nz := 2 } 1 1 k rp ro = .ok M ∧
      M.objBasis = exitWaveGeometry squareFancyData.detBasis ![4, 4] squareFancyData.wavelength squareFancyData.distance 1 ∧
      M.propagator = waveImg (interslicePropagator 4 4 M.objBasis 1 1 : Wave 4 4) := by
    unfold multisliceFromDataset
    simp [FancyData.start, datasetNormal, initialWeights, squareFancyData, toyFancyData, MultisliceOpts.shared, multisliceWeights, initialPropagator]
  have hok' : ∃ M, multisliceFromDataset (squareFancyData.turned (Real.pi / 4)) { dz := 1, nz := 2 } 1 1 k rp ro = .ok M ∧
      M.objBasis = turn (Real.pi / 4) * exitWaveGeometry squareFancyData.detBasis ![4, 4] squareFancyData.wavelength squareFancyData.distance 1 ∧
      M.propagator = waveImg (interslicePropagator 4 4 M.objBasis 1 1 : Wave 4 4) := by
    rw [← exitWaveGeometry_turn]
    unfold multisliceFromDataset
    simp [FancyData.start, datasetNormal, initialWeights, squareFancyData, toyFancyData, MultisliceOpts.shared, multisliceWeights, initialPropagator,
      FancyData.turned]
  obtain ⟨M, h1, h2, h3⟩ := hok
  obtain ⟨M', g1, g2, g3⟩ := hok'
  have hf1 : fftfreq 4 (1 : ZMod 4) = 1 / 4 := by
    unfold fftfreq
    rw [if_pos (by decide), show (1 : ZMod 4).val = 1 from rfl]
    norm_num
  have hf0 : fftfreq 4 (0 : ZMod 4) = 0 := by simp [fftfreq]
  have hpi := Real.pi_pos
  refine ⟨M, M', h1, g1, by rw [g2, h2], ?_, ?_⟩
  · rw [h3]
    show ‖interslicePropagator 4 4 M.objBasis 1 1 ((0 : ℕ) : ZMod 4) ((1 : ℕ) : ZMod 4)‖ = 1
    unfold interslicePropagator
    rw [h2, squareFancyData_basis]
    simp only [Nat.cast_zero, Nat.cast_one]
    refine ((angular_spectrum_group (n := 4) (m := 4) _ _ 1 (by simp) (by simp) one_pos 0 1).2.2.1 ?_ 1).1
    unfold Propagates transverse2
    rw [hf1, hf0]
    simp [abs_div]
    ring_nf
    nlinarith [sq_nonneg Real.pi, sq_pos_of_pos hpi]
  · have hc : Real.cos (Real.pi / 4) = Real.sqrt 2 / 2 := Real.cos_pi_div_four
    have hs2 : Real.sqrt 2 ^ 2 = 2 := Real.sq_sqrt (by norm_num)
    have hs2p : 0 < Real.sqrt 2 := Real.sqrt_pos.mpr (by norm_num)
    rw [g3]
    show ‖interslicePropagator 4 4 M'.objBasis 1 1 ((0 : ℕ) : ZMod 4) ((1 : ℕ) : ZMod 4)‖ < 1
    unfold interslicePropagator
    have e01 : |M'.objBasis 0 1| = 3 / 20 * Real.sqrt 2 := by
      rw [g2, squareFancyData_basis]
      simp [turn, Matrix.mul_apply, Fin.sum_univ_three, Matrix.vecMul, dotProduct, abs_of_pos, hs2p]
      ring
    have e10 : |M'.objBasis 1 0| = 3 / 20 * Real.sqrt 2 := by
      rw [g2, squareFancyData_basis]
      simp [turn, Matrix.mul_apply, Fin.sum_univ_three, Matrix.vecMul, dotProduct, abs_of_pos, hs2p]
      ring
    rw [e01, e10]
    simp only [Nat.cast_zero, Nat.cast_one]
    refine (angular_spectrum_group (n := 4) (m := 4) _ _ 1 (by positivity) (by positivity) one_pos 0 1).2.2.2.2.2 ?_ 1 one_ne_zero
    unfold Propagates transverse2
    rw [hf1, hf0]
    have e : (2 * Real.pi * (1 / 4) / (3 / 20 * Real.sqrt 2)) ^ 2 = Real.pi ^ 2 * (50 / 9) := by
      rw [div_pow, mul_pow (3 / 20 : ℝ), hs2]
      ring
    simp only [mul_zero, zero_div, ne_eq, OfNat.ofNat_ne_zero, not_false_eq_true, zero_pow, e]
    nlinarith [sq_pos_of_pos hpi]

end Cdtools
