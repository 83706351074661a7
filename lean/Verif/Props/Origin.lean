/- Property theorems C127: the origin of the scan does not matter. -/
import Verif.Props.OrderOthers

set_option linter.unusedSectionVars false

namespace Cdtools
open Finset Matrix

variable {n m N k os : ℕ} [NeZero n] [NeZero m]

/-! ### Specification -/

/-- The same dataset with all translations measured from another point. -/
def FancyData.moved (D : FancyData n m N) (d : Vec3) : FancyData n m N :=
  { D with translations := fun i => D.translations i + d }

/-- A `FancyPtycho` model with the corner of its object given from another point. -/
noncomputable def Fancy.moved {n m a b N k : ℕ} (M : Fancy n m a b N k) (d : Vec3) : Fancy n m a b N k :=
  { M with minTranslation := M.minTranslation + translationsToPixel M.objBasis M.normal d }

/-- A `MultislicePtycho` model with the corner of its object given from another point. -/
noncomputable def Multislice.moved {n m a b N k : ℕ} (M : Multislice n m a b N k) (d : Vec3) : Multislice n m a b N k :=
  { M with minTranslation := M.minTranslation + translationsToPixel M.objBasis M.normal d }

/-- A `Bragg2DPtycho` model with the corner of its object and the position of the focus given from another point. -/
noncomputable def Bragg.moved {n m a b N k : ℕ} (M : Bragg n m a b N k) (d : Vec3) : Bragg n m a b N k :=
  { M with
    minTranslation := M.minTranslation + (projectToSample M.objBasis d).1
    medianPropagation := M.medianPropagation + (projectToSample M.objBasis d).2 }

/-- A minibatch with its translations measured from another point. -/
def batchMoved {P : Type} (d : Vec3) (B : Minibatch (Fin N × (Fin 3 → ℝ)) P) : Minibatch (Fin N × (Fin 3 → ℝ)) P :=
  { B with inputs := B.inputs.map fun e => (e.1, e.2 + d) }

/-! ### Geometry -/

theorem translationsToPixel_add (B : Matrix (Fin 3) (Fin 2) ℝ) (nrm t d : Vec3) :
    translationsToPixel B nrm (t + d) = translationsToPixel B nrm t + translationsToPixel B nrm d := Matrix.mulVec_add _ _ _

theorem projectToSample_add (B : Matrix (Fin 3) (Fin 2) ℝ) (t d : Vec3) :
    projectToSample B (t + d) = projectToSample B t + projectToSample B d := by
  unfold projectToSample
  rw [Matrix.mulVec_add, Matrix.mulVec_add]
  refine Prod.ext rfl ?_
  simp only [Pi.add_apply, Prod.snd_add]
  ring

theorem minList_add (a x : ℝ) (l : List ℝ) : minList (a + x) (l.map fun y => y + x) = minList a l + x := by
  unfold minList
  induction l generalizing a with
  | nil => rfl
  | cons b t ih => rw [List.map_cons, List.foldl_cons, List.foldl_cons, min_add_add_right, ih]

theorem maxList_add (a x : ℝ) (l : List ℝ) : maxList (a + x) (l.map fun y => y + x) = maxList a l + x := by
  unfold maxList
  induction l generalizing a with
  | nil => rfl
  | cons b t ih => rw [List.map_cons, List.foldl_cons, List.foldl_cons, max_add_add_right, ih]

theorem objectSetup_add (p : ℕ) (a x : ℝ) (l : List ℝ) (pad : ℤ) :
    objectSetup p (a + x) (l.map fun y => y + x) pad = ((objectSetup p a l pad).1, (objectSetup p a l pad).2 + x) := by
  unfold objectSetup
  rw [minList_add, maxList_add]
  simp only [add_sub_add_right_eq_sub]
  refine Prod.ext rfl ?_
  simp only
  ring

theorem torchMedian_add (x : ℝ) (l : List ℝ) (hl : l ≠ []) : torchMedian (l.map (· + x)) = torchMedian l + x := by
  unfold torchMedian
  rw [← List.map_mergeSort (r := fun x y => decide (x ≤ y)) (f := (· + x)) (fun a _ b _ => by simp)]
  have h0 : (l.length - 1) / 2 < (l.mergeSort fun x y => decide (x ≤ y)).length := by
    have := List.length_pos_iff.mpr hl
    rw [List.length_mergeSort]
    omega
  rw [List.length_map, List.getD_eq_getElem?_getD, List.getD_eq_getElem?_getD, List.getElem?_map, List.getElem?_eq_getElem h0]
  rfl

/-! ### FancyPtycho -/

/-- The same dataset, measured from another point, gives the same model; only the corner of the object moves. -/
theorem from_dataset_moved (D : FancyData n m N) (O : FancyOpts) (d : Vec3) (os : ℕ) [NeZero os] [NeZero (os * n)] [NeZero (os * m)]
    (c : ℕ) [NeZero (os * n - 2 * c)] [NeZero (os * m - 2 * c)] (rp : Fin k → Wave (os * n - 2 * c) (os * m - 2 * c)) (ro : ℕ → ℕ → ℝ) :
    fancyFromDataset (D.moved d) O os c k rp ro = (fancyFromDataset D O os c k rp ro).map fun M => M.moved d := by
  unfold fancyFromDataset
  rw [show (D.moved d).start O os = D.start O os from rfl, show (D.moved d).orientation = D.orientation from rfl,
    show (D.moved d).detBasis = D.detBasis from rfl,
    show List.ofFn (D.moved d).translations = (List.ofFn D.translations).map (· + d) by rw [List.map_ofFn]; rfl]
  cases List.ofFn D.translations with
  | nil =>
    cases D.start O os <;> cases datasetNormal O.scatteringMode D.orientation D.detBasis <;> cases initialWeights N (k + 1) O.dmRank <;> rfl
  | cons t0 rest =>
    cases D.start O os with
    | error e => rfl
    | ok S =>
      cases datasetNormal O.scatteringMode D.orientation D.detBasis with
      | error e => rfl
      | ok normal =>
        cases initialWeights N (k + 1) O.dmRank with
        | error e => rfl
        | ok W =>
          have hs : ∀ q (c : Fin 2), objectSetup q (translationsToPixel S.objBasis normal (t0 + d) c)
              (rest.map fun t => translationsToPixel S.objBasis normal (t + d) c) O.padding =
              ((objectSetup q (translationsToPixel S.objBasis normal t0 c) (rest.map fun t => translationsToPixel S.objBasis normal t c) O.padding).1,
                (objectSetup q (translationsToPixel S.objBasis normal t0 c) (rest.map fun t => translationsToPixel S.objBasis normal t c) O.padding).2 +
                translationsToPixel S.objBasis normal d c) := fun q c => by
            rw [← objectSetup_add, List.map_map]
            simp only [translationsToPixel_add, Pi.add_apply, Function.comp_def]
          simp only [List.map_cons, Except.map, List.map_map, Function.comp_def, hs]
          generalize hI : fancyInit _ = I
          generalize hJ : fancyInit _ = J
          obtain rfl : I = J := hI.symm.trans hJ
          clear hI hJ
          cases I with
          | error e => rfl
          | ok P =>
            refine congrArg Except.ok ?_
            unfold Fancy.moved
            congr 1
            ext i
            fin_cases i <;> rfl

variable {a b H W h w r : ℕ} [NeZero a] [NeZero b]

/-- All simulations are the same, whatever the parameters, for models without `simulate_probe_translation`. -/
theorem forward_moved (M : Fancy n m a b N k) (d : Vec3) (hs : M.simulateTranslation = false) (idx : Fin N) (t : Fin 3 → ℝ) :
    (M.moved d).forward idx (t + d) = M.forward idx t := by
  have h0 : (M.moved d).pixTrans idx (t + d) = M.pixTrans idx t := by
    unfold Fancy.pixTrans Fancy.moved
    simp only [translationsToPixel_add, add_sub_add_right_eq_sub]
  have hr : (M.moved d).ramp idx (t + d) = M.ramp idx t := by
    unfold Fancy.ramp Fancy.moved
    simp only [hs, Bool.false_eq_true, if_false]
  have h1 : ∀ sel p, (M.moved d).toDetector idx (t + d) sel p = M.toDetector idx t sel p := fun sel p => by
    unfold Fancy.toDetector
    rw [h0, hr]
    rfl
  unfold Fancy.forward
  simp only [h1, h0]
  rfl

theorem corrected_translations_moved (M : Fancy n m a b N k) (d : Vec3) (idx : Fin N) (t : Fin 3 → ℝ) :
    (M.moved d).correctedTranslation idx (t + d) = M.correctedTranslation idx t + d := by
  unfold Fancy.correctedTranslation Fancy.moved
  cases M.offsets with
  | none => rfl
  | some o => exact add_right_comm _ _ _

theorem fancyTotal_moved (M : Fancy n m a b N k) (kind : LossKind) (mask : Option (Fin h × Fin w → Bool)) (d : Vec3)
    (hs : M.simulateTranslation = false) (B : Minibatch (Fin N × (Fin 3 → ℝ)) (Fin h × Fin w → ℝ)) (θ : FancyTheta n m H W h w N r k) :
    fancyTotal (M.moved d) kind mask (batchMoved d B) θ = fancyTotal M kind mask B θ := by
  have : ∀ e : Fin N × (Fin 3 → ℝ), ((M.moved d).withTheta θ).shotPixels h w (e.1, e.2 + d) = (M.withTheta θ).shotPixels h w e := fun e => by
    unfold Fancy.shotPixels
    rw [show (M.moved d).withTheta θ = (M.withTheta θ).moved d from rfl, forward_moved (M.withTheta θ) d hs]
  unfold fancyTotal batchMoved
  simp only [List.map_map, Function.comp_def, this]

/-- A reconstruction gives the same parameters: the same optimizer on the same minibatches. -/
theorem reconstruction_moved {τ : Type} (M : Fancy n m a b N k) (kind : LossKind) (mask : Option (Fin h × Fin w → Bool)) (d : Vec3)
    (hs : M.simulateTranslation = false)
    (steps : List (OptStep τ (FancyCoord n m H W h w N r k) × Minibatch (Fin N × (Fin 3 → ℝ)) (Fin h × Fin w → ℝ)))
    (st : τ × FancyTheta n m H W h w N r k) :
    fancyRun (M.moved d) kind mask (steps.map fun x => (x.1, batchMoved d x.2)) st = fancyRun M kind mask steps st := by
  induction steps generalizing st with
  | nil => rfl
  | cons x rest ih =>
    obtain ⟨step, B⟩ := x
    simp only [List.map_cons, fancyRun, fancyTotal_moved M kind mask d hs, ih]
    refine if_congr ?_ rfl rfl
    have : ∀ e : Fin N × (Fin 3 → ℝ), ((M.moved d).withTheta st.2).shotPixels h w (e.1, e.2 + d) = (M.withTheta st.2).shotPixels h w e := fun e => by
      unfold Fancy.shotPixels
      rw [show (M.moved d).withTheta st.2 = (M.withTheta st.2).moved d from rfl, forward_moved (M.withTheta st.2) d hs]
    simp only [batchMoved, List.forall_mem_map, this]

/-! ### MultislicePtycho -/

theorem multislice_from_dataset_moved (D : FancyData n m N) (O : MultisliceOpts) (d : Vec3) (os : ℕ) [NeZero os] [NeZero (os * n)]
    [NeZero (os * m)] (c : ℕ) [NeZero (os * n - 2 * c)] [NeZero (os * m - 2 * c)] (k : ℕ) (rp : Fin k → Wave (os * n - 2 * c) (os * m - 2 * c))
    (ro : ℕ → ℕ → ℕ → ℝ) :
    multisliceFromDataset (D.moved d) O os c k rp ro = (multisliceFromDataset D O os c k rp ro).map fun M => M.moved d := by
  unfold multisliceFromDataset
  rw [show (D.moved d).start O.shared os = D.start O.shared os from rfl, show (D.moved d).orientation = D.orientation from rfl,
    show (D.moved d).detBasis = D.detBasis from rfl,
    show List.ofFn (D.moved d).translations = (List.ofFn D.translations).map (· + d) by rw [List.map_ofFn]; rfl]
  cases List.ofFn D.translations with
  | nil =>
    cases D.start O.shared os <;> cases datasetNormal O.scatteringMode D.orientation D.detBasis <;> cases initialWeights N (k + 1) O.dmRank <;> rfl
  | cons t0 rest =>
    cases D.start O.shared os with
    | error e => rfl
    | ok S =>
      cases datasetNormal O.scatteringMode D.orientation D.detBasis with
      | error e => rfl
      | ok normal =>
        cases initialWeights N (k + 1) O.dmRank with
        | error e => rfl
        | ok W =>
          have hs : ∀ q (c : Fin 2), objectSetup q (translationsToPixel S.objBasis normal (t0 + d) c)
              (rest.map fun t => translationsToPixel S.objBasis normal (t + d) c) O.padding =
              ((objectSetup q (translationsToPixel S.objBasis normal t0 c) (rest.map fun t => translationsToPixel S.objBasis normal t c) O.padding).1,
                (objectSetup q (translationsToPixel S.objBasis normal t0 c) (rest.map fun t => translationsToPixel S.objBasis normal t c) O.padding).2 +
                translationsToPixel S.objBasis normal d c) := fun q c => by
            rw [← objectSetup_add, List.map_map]
            simp only [translationsToPixel_add, Pi.add_apply, Function.comp_def]
          simp only [List.map_cons, Except.map, List.map_map, Function.comp_def, hs]
          by_cases h1 : O.probeShape = true
          · simp only [h1, if_true]
          · by_cases h2 : O.nz = 0
            · simp only [h1, h2, if_true, Bool.false_eq_true, if_false]
            · simp only [h1, h2, Bool.false_eq_true, if_false]
              rw [show (D.moved d).intensities = D.intensities from rfl]
              cases multisliceWeights D.intensities W with
              | error e => rfl
              | ok w =>
                refine congrArg Except.ok ?_
                unfold Multislice.moved
                congr 1
                ext i
                fin_cases i <;> rfl

theorem multislice_forward_moved (M : Multislice n m a b N k) (d : Vec3) (hs : M.simulateTranslation = false) (idx : Fin N) (t : Fin 3 → ℝ) :
    (M.moved d).forward idx (t + d) = M.forward idx t := by
  have h0 : (M.moved d).pixTrans idx (t + d) = M.pixTrans idx t := by
    unfold Multislice.pixTrans Multislice.moved
    simp only [translationsToPixel_add, add_sub_add_right_eq_sub]
  have hr : (M.moved d).ramp (t + d) = M.ramp t := by
    unfold Multislice.ramp Multislice.moved
    simp only [hs, Bool.false_eq_true, if_false]
  have h1 : ∀ ws p, (M.moved d).toDetector idx (t + d) ws p = M.toDetector idx t ws p := fun ws p => by
    unfold Multislice.toDetector
    rw [h0, hr]
    rfl
  unfold Multislice.forward
  simp only [h1, h0]
  rfl

/-! ### Bragg2DPtycho -/

theorem bragg_from_dataset_moved (D : FancyData n m N) (O : BraggOpts) (d : Vec3) (os : ℕ) [NeZero os] [NeZero (os * n)]
    [NeZero (os * m)] (c e : ℕ) [NeZero (os * n - 2 * c)] [NeZero (os * m - 2 * e)] (k : ℕ) (rp : Fin k → Wave (os * n - 2 * c) (os * m - 2 * e))
    (ro : ℕ → ℕ → ℝ) :
    braggFromDataset (D.moved d) O os c e k rp ro = (braggFromDataset D O os c e k rp ro).map fun M => M.moved d := by
  unfold braggFromDataset
  rw [show (D.moved d).orientation = D.orientation from rfl, show (D.moved d).detBasis = D.detBasis from rfl,
    show List.ofFn (D.moved d).translations = (List.ofFn D.translations).map (· + d) by rw [List.map_ofFn]; rfl]
  cases List.ofFn D.translations with
  | nil => rfl
  | cons t0 rest =>
    cases braggNormal O.surfaceNormal O.scatteringMode D.orientation D.detBasis with
    | error e => rfl
    | ok normal =>
      have hS : ∀ q B pad axis, braggSetup q B (t0 + d) (rest.map (· + d)) pad axis =
          ((braggSetup q B t0 rest pad axis).1, (braggSetup q B t0 rest pad axis).2 + (projectToSample B d).1 axis) := fun q B pad axis => by
        unfold braggSetup
        rw [← objectSetup_add, List.map_map, List.map_map]
        simp only [projectToSample_add, Prod.fst_add, Pi.add_apply, Function.comp_def]
      have hM : ∀ B, braggMedian B ((t0 + d) :: rest.map (· + d)) = braggMedian B (t0 :: rest) + (projectToSample B d).2 := fun B => by
        unfold braggMedian
        rw [← torchMedian_add _ _ (by simp), ← List.map_cons (f := (· + d)), List.map_map, List.map_map]
        simp only [projectToSample_add, Prod.snd_add, Function.comp_def]
      simp only [Except.map, List.map_cons, hS, hM, show (D.moved d).braggProbe O.propagationDistance os = D.braggProbe O.propagationDistance os from rfl,
        show (D.moved d).braggTilt O os = D.braggTilt O os from rfl, show (D.moved d).wavelength = D.wavelength from rfl,
        show (D.moved d).distance = D.distance from rfl, show (D.moved d).backgroundGuess = D.backgroundGuess from rfl]
      split_ifs
      · rfl
      · rfl
      · refine congrArg Except.ok ?_
        unfold Bragg.moved
        congr 1
        ext i
        fin_cases i <;> rfl

theorem bragg_forward_moved (M : Bragg n m a b N k) (d : Vec3) (idx : Fin N) (t : Fin 3 → ℝ) :
    (M.moved d).forward idx (t + d) = M.forward idx t := by
  have h0 : (M.moved d).pixTrans idx (t + d) = M.pixTrans idx t := by
    unfold Bragg.pixTrans Bragg.moved
    simp only [projectToSample_add, Prod.fst_add, add_sub_add_right_eq_sub]
  have hd : (M.moved d).distance (t + d) = M.distance t := by
    unfold Bragg.distance Bragg.moved
    simp only [projectToSample_add, Prod.snd_add, add_sub_add_right_eq_sub]
  unfold Bragg.forward
  simp only [h0, hd]
  rfl

/-! ### The exception -/

/-- With `simulate_probe_translation` the phase ramp of an exposure is that of its translation from the origin of the scan; it changes with the
origin. -/
theorem simulated_translation_origin (M : Fancy n m a b N k) (d : Vec3) (hs : M.simulateTranslation = true) (f : Fin N → Fin 2 → ℝ)
    (hf : M.fourierShifts = some f) (idx : Fin N) (t : Fin 3 → ℝ) (x : ZMod n) (y : ZMod m) :
    (M.moved d).ramp idx (t + d) x y = M.ramp idx t x y * Complex.exp (Complex.I *
      (translationsToPixel M.detBasis M.normal d 0 * (2 * Real.pi * (x.val / ((n : ℂ) - 1)) * M.oversampling) +
        translationsToPixel M.detBasis M.normal d 1 * (2 * Real.pi * (y.val / ((m : ℂ) - 1)) * M.oversampling))) := by
  unfold Fancy.ramp Fancy.moved
  simp only [hf, hs, if_true, translationsToPixel_add]
  rw [← Complex.exp_add]
  congr 1
  simp only [Pi.add_apply]
  push_cast
  ring

/-! ### A concrete case -/

/-- Two exposures measured from another point. -/
example (rp : Fin 1 → Wave (1 * 4 - 2 * 1) (1 * 4 - 2 * 1)) (ro : ℕ → ℕ → ℝ) :
    ∃ M M', fancyFromDataset toyFancyData {} 1 1 1 rp ro = .ok M ∧ M.simulateTranslation = false ∧
      fancyFromDataset (toyFancyData.moved ![7, -3, 1]) {} 1 1 1 rp ro = .ok M' ∧
      ∀ idx, M'.forward idx ((toyFancyData.moved ![7, -3, 1]).translations idx) = M.forward idx (toyFancyData.translations idx) := by
  have hM : ∃ M, fancyFromDataset toyFancyData {} 1 1 1 rp ro = .ok M ∧ M.simulateTranslation = false := by
    unfold fancyFromDataset
    simp [FancyData.start, datasetNormal, initialWeights, fancyInit, toyFancyData]
  obtain ⟨M, hM, hs⟩ := hM
  refine ⟨M, M.moved ![7, -3, 1], hM, hs, ?_, fun idx => forward_moved M _ hs idx _⟩
  rw [from_dataset_moved, hM]
  rfl

end Cdtools
