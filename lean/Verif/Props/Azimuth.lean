/- Property theorems C123: the azimuth of the laboratory frame does not matter to `FancyPtycho`. -/
import Verif.Props.Units

set_option linter.unusedSectionVars false

namespace Cdtools
open Finset Matrix

variable {n m N k os : ℕ} [NeZero n] [NeZero m]

/-! ### Specification -/

/-- The rotation by the angle `φ` about the beam (the third axis). -/
noncomputable def turn (φ : ℝ) : Matrix (Fin 3) (Fin 3) ℝ :=
  !![Real.cos φ, -Real.sin φ, 0; Real.sin φ, Real.cos φ, 0; 0, 0, 1]

/-- The same dataset, written in a frame that is turned about the beam: detector, translations and orientation of the sample turn together. -/
noncomputable def FancyData.turned (D : FancyData n m N) (φ : ℝ) : FancyData n m N :=
  { D with
    detBasis := turn φ * D.detBasis
    translations := fun i => (turn φ).mulVec (D.translations i)
    orientation := D.orientation.map (turn φ).mulVec }

/-- The same model in a turned frame. -/
noncomputable def Fancy.turned {n m a b N k : ℕ} (M : Fancy n m a b N k) (φ : ℝ) : Fancy n m a b N k :=
  { M with
    objBasis := turn φ * M.objBasis
    detBasis := turn φ * M.detBasis
    normal := (turn φ).mulVec M.normal }

/-! ### Rotations -/

theorem turn_zero : turn 0 = 1 := by
  ext i j
  fin_cases i <;> fin_cases j <;> simp [turn]

theorem turn_transpose_mul (φ : ℝ) : (turn φ)ᵀ * turn φ = 1 := by
  have h := Real.sin_sq_add_cos_sq φ
  ext i j
  fin_cases i <;> fin_cases j <;> simp [turn, Matrix.mul_apply, Fin.sum_univ_three] <;> nlinarith

theorem turn_mul_transpose (φ : ℝ) : turn φ * (turn φ)ᵀ = 1 := mul_eq_one_comm.mp (turn_transpose_mul φ)

theorem turn_inv (φ : ℝ) : (turn φ)⁻¹ = (turn φ)ᵀ := Matrix.inv_eq_left_inv (turn_transpose_mul φ)

theorem turn_0 (φ : ℝ) (v : Vec3) : (turn φ).mulVec v 0 = Real.cos φ * v 0 - Real.sin φ * v 1 := by
  simp [turn, Matrix.mulVec, dotProduct, Fin.sum_univ_three]
  ring

theorem turn_1 (φ : ℝ) (v : Vec3) : (turn φ).mulVec v 1 = Real.sin φ * v 0 + Real.cos φ * v 1 := by
  simp [turn, Matrix.mulVec, dotProduct, Fin.sum_univ_three]

theorem turn_2 (φ : ℝ) (v : Vec3) : (turn φ).mulVec v 2 = v 2 := by
  simp [turn, Matrix.mulVec, dotProduct, Fin.sum_univ_three]

theorem turn_axis (φ z : ℝ) : (turn φ).mulVec ![0, 0, z] = ![0, 0, z] := by
  ext i
  fin_cases i
  · simpa using turn_0 φ ![0, 0, z]
  · simpa using turn_1 φ ![0, 0, z]
  · simpa using turn_2 φ ![0, 0, z]

theorem dot_turn (φ : ℝ) (v w : Vec3) : Vec3.dot ((turn φ).mulVec v) ((turn φ).mulVec w) = v.dot w := by
  simp only [Vec3.dot, turn_0, turn_1, turn_2]
  linear_combination (v 0 * w 0 + v 1 * w 1) * Real.sin_sq_add_cos_sq φ

theorem cross_turn (φ : ℝ) (v w : Vec3) : Vec3.cross ((turn φ).mulVec v) ((turn φ).mulVec w) = (turn φ).mulVec (v.cross w) := by
  ext i
  fin_cases i
  · show Vec3.cross _ _ 0 = (turn φ).mulVec _ 0
    rw [turn_0]
    simp only [Vec3.cross, Matrix.cons_val_zero, Matrix.cons_val_one, turn_0, turn_1, turn_2]
    ring
  · show Vec3.cross _ _ 1 = (turn φ).mulVec _ 1
    rw [turn_1]
    simp only [Vec3.cross, Matrix.cons_val_zero, Matrix.cons_val_one, turn_0, turn_1, turn_2]
    ring
  · show Vec3.cross _ _ 2 = (turn φ).mulVec _ 2
    rw [turn_2]
    simp only [Vec3.cross, Matrix.cons_val, turn_0, turn_1]
    linear_combination (v 0 * w 1 - v 1 * w 0) * Real.sin_sq_add_cos_sq φ

theorem smul_turn (φ r : ℝ) (v : Vec3) : (fun i => (turn φ).mulVec v i * r) = (turn φ).mulVec fun i => v i * r := by
  have : (fun i => v i * r) = r • v := by ext i; simp [mul_comm]
  rw [this, Matrix.mulVec_smul]
  ext i
  simp [mul_comm]

theorem unit_turn (φ : ℝ) (v : Vec3) : Vec3.unit ((turn φ).mulVec v) = (turn φ).mulVec v.unit := by
  unfold Vec3.unit
  rw [dot_turn]
  simp only [div_eq_mul_inv]
  exact smul_turn φ _ v

/-! ### Geometry -/

theorem pinvTall_turn (φ : ℝ) (B : Matrix (Fin 3) (Fin 2) ℝ) : pinvTall (turn φ * B) = pinvTall B * (turn φ)ᵀ := by
  unfold pinvTall
  rw [Matrix.transpose_mul, Matrix.mul_assoc Bᵀ, ← Matrix.mul_assoc _ (turn φ) B, turn_transpose_mul, Matrix.one_mul, Matrix.mul_assoc]

theorem pinvWide_turn (φ : ℝ) (A : Matrix (Fin 2) (Fin 3) ℝ) : pinvWide (A * (turn φ)ᵀ) = turn φ * pinvWide A := by
  unfold pinvWide
  rw [Matrix.transpose_mul, Matrix.transpose_transpose, Matrix.mul_assoc A, ← Matrix.mul_assoc _ (turn φ), turn_transpose_mul, Matrix.one_mul,
    Matrix.mul_assoc]

theorem exitWaveGeometry_turn (φ : ℝ) (B : Matrix (Fin 3) (Fin 2) ℝ) (shape : Fin 2 → ℕ) (l d : ℝ) (os : ℕ) :
    exitWaveGeometry (turn φ * B) shape l d os = turn φ * exitWaveGeometry B shape l d os := by
  unfold exitWaveGeometry
  have h : (Matrix.of fun i j => (turn φ * B) i j * (shape j : ℝ) : Matrix (Fin 3) (Fin 2) ℝ) =
      turn φ * Matrix.of fun i j => B i j * (shape j : ℝ) := by
    ext i j
    simp only [Matrix.of_apply, Matrix.mul_apply, Finset.sum_mul, mul_assoc]
  dsimp only
  rw [h, pinvTall_turn, Matrix.transpose_mul, Matrix.transpose_transpose, Matrix.mul_smul]

theorem projection2_turn (φ : ℝ) (v : Vec3) : projection2 ((turn φ).mulVec v) = turn φ * projection2 v * (turn φ)ᵀ := by
  have h := Real.sin_sq_add_cos_sq φ
  unfold projection2
  rw [turn_0, turn_1, turn_2]
  ext i j
  fin_cases i <;> fin_cases j <;> simp [turn, Matrix.mul_apply, Fin.sum_univ_three] <;> first | nlinarith | ring

theorem projection1_turn (φ : ℝ) : projection1 * turn φ = turn φ * projection1 := by
  ext i j
  fin_cases i <;> fin_cases j <;> simp [turn, projection1, Matrix.mul_apply, Fin.sum_univ_three]

theorem pixelProjection_turn (φ : ℝ) (B : Matrix (Fin 3) (Fin 2) ℝ) (nrm : Vec3) :
    pixelProjection (turn φ * B) ((turn φ).mulVec nrm) = pixelProjection B nrm * (turn φ)ᵀ := by
  have h1 : (turn φ)ᵀ * projection1 = projection1 * (turn φ)ᵀ := by
    have := congrArg Matrix.transpose (projection1_turn φ)
    rw [Matrix.transpose_mul, Matrix.transpose_mul] at this
    have hs : projection1ᵀ = projection1 := by
      ext i j
      fin_cases i <;> fin_cases j <;> rfl
    rwa [hs] at this
  unfold pixelProjection
  rw [pinvTall_turn, projection2_turn, Matrix.mul_inv_rev, Matrix.mul_inv_rev, ← Matrix.transpose_nonsing_inv, turn_inv, Matrix.transpose_transpose]
  calc pinvTall B * (turn φ)ᵀ * (turn φ * ((projection2 nrm)⁻¹ * (turn φ)ᵀ) * projection1)
      = pinvTall B * (((turn φ)ᵀ * turn φ) * ((projection2 nrm)⁻¹ * ((turn φ)ᵀ * projection1))) := by simp only [Matrix.mul_assoc]
    _ = pinvTall B * ((projection2 nrm)⁻¹ * projection1) * (turn φ)ᵀ := by
      rw [turn_transpose_mul, Matrix.one_mul, h1]
      simp only [Matrix.mul_assoc]

theorem translationsToPixel_turn (φ : ℝ) (B : Matrix (Fin 3) (Fin 2) ℝ) (nrm t : Vec3) :
    translationsToPixel (turn φ * B) ((turn φ).mulVec nrm) ((turn φ).mulVec t) = translationsToPixel B nrm t := by
  unfold translationsToPixel
  rw [pixelProjection_turn, Matrix.mulVec_mulVec, Matrix.mul_assoc, turn_transpose_mul, Matrix.mul_one]

theorem pixelToTranslations_turn (φ : ℝ) (B : Matrix (Fin 3) (Fin 2) ℝ) (nrm : Vec3) (p : Fin 2 → ℝ) :
    pixelToTranslations (turn φ * B) ((turn φ).mulVec nrm) p = (turn φ).mulVec (pixelToTranslations B nrm p) := by
  unfold pixelToTranslations
  rw [pixelProjection_turn, pinvWide_turn, Matrix.mulVec_mulVec]

/-! ### Propagators and normal -/

theorem perpDir_turn (φ : ℝ) (b1 b2 ref : Vec3) :
    perpDir ((turn φ).mulVec b1) ((turn φ).mulVec b2) ((turn φ).mulVec ref) = (turn φ).mulVec (perpDir b1 b2 ref) := by
  unfold perpDir
  simp only [unit_turn, cross_turn, dot_turn]
  exact smul_turn φ _ _

theorem dualBasis_turn (φ : ℝ) (b1 b2 : Vec3) :
    dualBasis ((turn φ).mulVec b1) ((turn φ).mulVec b2) = ((turn φ).mulVec (dualBasis b1 b2).1, (turn φ).mulVec (dualBasis b1 b2).2) := by
  unfold dualBasis
  simp only [dot_turn]
  refine Prod.ext (funext fun i => ?_) (funext fun i => ?_) <;>
  · fin_cases i
    · simp only [Fin.zero_eta, turn_0]; ring
    · simp only [Fin.mk_one, turn_1]; ring
    · simp only [Fin.reduceFinMk, turn_2]

/-- A propagator along a vector does not depend on the azimuth of the frame. -/
theorem generalizedPropagator_turn (φ : ℝ) (b1 b2 : Vec3) (wl : ℝ) (off : Vec3) (ki kj : ℝ) :
    generalizedPropagator ((turn φ).mulVec b1) ((turn φ).mulVec b2) wl ((turn φ).mulVec off) none ki kj =
      generalizedPropagator b1 b2 wl off none ki kj := by
  unfold generalizedPropagator
  simp only [Option.getD_none, perpDir_turn, refWave]
  set perp := perpDir b1 b2 off
  have hK : inPlaneK ((turn φ).mulVec b1) ((turn φ).mulVec b2) wl ((turn φ).mulVec perp) none ki kj =
      (turn φ).mulVec (inPlaneK b1 b2 wl perp none ki kj) := by
    unfold inPlaneK
    simp only [dualBasis_turn]
    ext i
    fin_cases i
    · simp only [Fin.zero_eta, turn_0]; ring
    · simp only [Fin.mk_one, turn_1]; ring
    · simp only [Fin.reduceFinMk, turn_2]
  rw [hK]
  set K := inPlaneK b1 b2 wl perp none ki kj
  rw [dot_turn]
  have key : ∀ (o v p : Vec3) (z : ℂ), ∑ i, (o i : ℂ) * ((v i : ℂ) + p i * z - ((0 : ℝ) : ℂ)) = ((o.dot v : ℝ) : ℂ) + ((o.dot p : ℝ) : ℂ) * z :=
    fun o v p z => by
      simp only [Fin.sum_univ_three, Vec3.dot]
      push_cast
      ring
  rw [key, key, dot_turn, dot_turn]

theorem basisCol_turn (φ : ℝ) (B : Matrix (Fin 3) (Fin 2) ℝ) (c : Fin 2) : basisCol (turn φ * B) c = (turn φ).mulVec (basisCol B c) := by
  ext i
  simp [basisCol, Matrix.mul_apply, Matrix.mulVec, dotProduct]

theorem turn_mulVec_eq_zero (φ : ℝ) (v : Vec3) : (turn φ).mulVec v = 0 ↔ v = 0 := by
  constructor
  · intro h
    have := congrArg (turn φ)ᵀ.mulVec h
    rwa [Matrix.mulVec_mulVec, turn_transpose_mul, Matrix.one_mulVec, Matrix.mulVec_zero] at this
  · rintro rfl
    exact Matrix.mulVec_zero _

/-- The surface normal turns with the frame. -/
theorem datasetNormal_turn (φ : ℝ) (mode : Option String) (o : Option Vec3) (B : Matrix (Fin 3) (Fin 2) ℝ) :
    datasetNormal mode (o.map (turn φ).mulVec) (turn φ * B) = (datasetNormal mode o B).map (turn φ).mulVec := by
  have h1 : ∀ c, (fun i => (turn φ * B) i c) = (turn φ).mulVec fun i => B i c := fun c => basisCol_turn φ B c
  unfold datasetNormal
  simp only [h1, cross_turn, dot_turn, turn_mulVec_eq_zero]
  set c := Vec3.cross (fun i => B i 0) (fun i => B i 1)
  have h2 : (fun i => (turn φ).mulVec c i / Real.sqrt (c.dot c) + ![0, 0, 1] i) =
      (turn φ).mulVec fun i => c i / Real.sqrt (c.dot c) + ![0, 0, 1] i := by
    have e1 : (fun i => c i / Real.sqrt (c.dot c) + ![0, 0, 1] i : Vec3) = (fun i => c i * (Real.sqrt (c.dot c))⁻¹) + ![0, 0, 1] := by
      ext i
      simp [div_eq_mul_inv]
    rw [e1, Matrix.mulVec_add, turn_axis, ← smul_turn]
    ext i
    simp [div_eq_mul_inv]
  have h3 : ∀ i, (turn φ).mulVec c i / Real.sqrt (c.dot c) + ![0, 0, 1] i =
      (turn φ).mulVec (fun i => c i / Real.sqrt (c.dot c) + ![0, 0, 1] i) i := congrFun h2
  simp only [h3]
  have h4 : ((fun i => (turn φ).mulVec (fun i => c i / Real.sqrt (c.dot c) + ![0, 0, 1] i) i) = (0 : Vec3)) ↔
      (fun i => c i / Real.sqrt (c.dot c) + ![0, 0, 1] i : Vec3) = 0 := turn_mulVec_eq_zero φ _
  have h5 := dot_turn φ (fun i => c i / Real.sqrt (c.dot c) + ![0, 0, 1] i) (fun i => c i / Real.sqrt (c.dot c) + ![0, 0, 1] i)
  simp only [h4]
  rw [show Vec3.dot (fun i => (turn φ).mulVec (fun i => c i / Real.sqrt (c.dot c) + ![0, 0, 1] i) i)
    (fun i => (turn φ).mulVec (fun i => c i / Real.sqrt (c.dot c) + ![0, 0, 1] i) i) = _ from h5]
  set s : Vec3 := fun i => c i / Real.sqrt (c.dot c) + ![0, 0, 1] i
  split
  · simp only [Except.map, turn_axis]
  · split
    · split
      · rfl
      · split
        · rfl
        · change Except.ok (fun i => (turn φ).mulVec s i / -Real.sqrt (s.dot s)) = Except.ok ((turn φ).mulVec fun i => s i / -Real.sqrt (s.dot s))
          simp only [div_eq_mul_inv]
          exact congrArg _ (smul_turn φ _ s)
    · cases o <;> simp [Except.map, turn_axis]

theorem nearGeometry_turn (φ : ℝ) (B : Matrix (Fin 3) (Fin 2) ℝ) (d : ℝ) (p : Option ℝ) (os : ℕ) :
    nearGeometry (turn φ * B) d p os = (nearGeometry B d p os).map fun G => ⟨turn φ * G.basis, G.z⟩ := by
  have hB : ∀ x : ℝ, (Matrix.of fun i c => (turn φ * B) i c / x : Matrix (Fin 3) (Fin 2) ℝ) = turn φ * Matrix.of fun i c => B i c / x := fun x => by
    ext i c
    simp only [Matrix.of_apply, Matrix.mul_apply, Finset.sum_div, mul_div_assoc]
  unfold nearGeometry
  cases p with
  | none => simp only [hB, Except.map]
  | some p =>
    simp only [hB]
    split
    · rfl
    · split <;> rfl

theorem nearPropagator_turn (φ : ℝ) (G : NearGeometry) (wl : ℝ) (n m : ℕ) :
    NearGeometry.propagator ⟨turn φ * G.basis, G.z⟩ wl n m = G.propagator wl n m := by
  funext k l
  unfold NearGeometry.propagator
  conv_lhs => rw [← turn_axis φ G.z]
  simp only [basisCol_turn, generalizedPropagator_turn]

/-! ### from_dataset -/

theorem start_turned (D : FancyData n m N) (O : FancyOpts) (φ : ℝ) (os : ℕ) [NeZero os] [NeZero (os * n)] [NeZero (os * m)] :
    (D.turned φ).start O os = (D.start O os).map fun S => { S with objBasis := turn φ * S.objBasis } := by
  unfold FancyData.start
  simp only [FancyData.turned]
  by_cases hn : O.nearField
  · simp only [hn, if_true]
    rw [nearGeometry_turn]
    cases hg : nearGeometry D.detBasis D.distance O.propagationDistance os with
    | error e => rfl
    | ok G =>
      simp only [Except.map]
      have hb : NearGeometry.backward (n := n) (m := m) ⟨turn φ * G.basis, G.z⟩ D.wavelength = G.backward D.wavelength := by
        funext w
        unfold NearGeometry.backward
        rw [nearPropagator_turn]
      rw [nearPropagator_turn, hb]
  · simp only [hn, Bool.false_eq_true, if_false, Except.map]
    rw [exitWaveGeometry_turn]
    simp only [basisCol_turn, dot_turn]

/-- The same experiment, written in a frame turned about the beam, gives the same model: the same probe, weights, object, propagator, corner and
background; bases and surface normal turn with the frame. -/
theorem from_dataset_turned (D : FancyData n m N) (O : FancyOpts) (φ : ℝ) (os : ℕ) [NeZero os] [NeZero (os * n)] [NeZero (os * m)]
    (c : ℕ) [NeZero (os * n - 2 * c)] [NeZero (os * m - 2 * c)] (k : ℕ) (rp : Fin k → Wave (os * n - 2 * c) (os * m - 2 * c)) (ro : ℕ → ℕ → ℝ) :
    fancyFromDataset (D.turned φ) O os c k rp ro = (fancyFromDataset D O os c k rp ro).map fun M => M.turned φ := by
  unfold fancyFromDataset
  rw [start_turned D O φ, show (D.turned φ).orientation = D.orientation.map (turn φ).mulVec from rfl,
    show (D.turned φ).detBasis = turn φ * D.detBasis from rfl, datasetNormal_turn,
    show List.ofFn (D.turned φ).translations = (List.ofFn D.translations).map (turn φ).mulVec by rw [List.map_ofFn]; rfl]
  cases List.ofFn D.translations with
  | nil =>
    cases D.start O os <;> cases datasetNormal O.scatteringMode D.orientation D.detBasis <;> cases initialWeights N (k + 1) O.dmRank <;> rfl
  | cons t0 rest =>
    cases D.start O os with
    | error e => rfl
    | ok S =>
      cases datasetNormal O.scatteringMode D.orientation D.detBasis with
      | error e => rfl
      | ok normal =>
        cases initialWeights N (k + 1) O.dmRank with
        | error e => rfl
        | ok W =>
          simp only [List.map_cons, Except.map, translationsToPixel_turn, List.map_map, Function.comp_def]
          generalize hI : fancyInit _ = I
          generalize hJ : fancyInit _ = J
          obtain rfl : I = J := hI.symm.trans hJ
          clear hI hJ
          cases I <;> rfl

/-! ### Simulation and reconstruction -/

variable {a b H W h w r : ℕ} [NeZero a] [NeZero b]

theorem pixTrans_turned (M : Fancy n m a b N k) (φ : ℝ) (idx : Fin N) (t : Fin 3 → ℝ) :
    (M.turned φ).pixTrans idx ((turn φ).mulVec t) = M.pixTrans idx t := by
  unfold Fancy.pixTrans Fancy.turned
  simp only [translationsToPixel_turn]

theorem ramp_turned (M : Fancy n m a b N k) (φ : ℝ) (idx : Fin N) (t : Fin 3 → ℝ) :
    (M.turned φ).ramp idx ((turn φ).mulVec t) = M.ramp idx t := by
  unfold Fancy.ramp Fancy.turned
  simp only [translationsToPixel_turn]

/-- Every simulated pattern is the same in every frame, whatever the parameters of the model. -/
theorem forward_turned (M : Fancy n m a b N k) (φ : ℝ) (idx : Fin N) (t : Fin 3 → ℝ) :
    (M.turned φ).forward idx ((turn φ).mulVec t) = M.forward idx t := by
  have h1 : ∀ sel p, (M.turned φ).toDetector idx ((turn φ).mulVec t) sel p = M.toDetector idx t sel p := fun sel p => by
    unfold Fancy.toDetector
    rw [pixTrans_turned, ramp_turned]
    rfl
  unfold Fancy.forward
  simp only [h1, pixTrans_turned]
  rfl

/-- The refined positions come out in the frame of the input. -/
theorem corrected_translations_turned (M : Fancy n m a b N k) (φ : ℝ) (idx : Fin N) (t : Fin 3 → ℝ) :
    (M.turned φ).correctedTranslation idx ((turn φ).mulVec t) = (turn φ).mulVec (M.correctedTranslation idx t) := by
  unfold Fancy.correctedTranslation Fancy.turned
  cases M.offsets with
  | none => rfl
  | some o => simp only [pixelToTranslations_turn, Matrix.mulVec_add]

/-- What a freshly made model simulates does not depend on the frame. -/
theorem fresh_simulation_turned (D : FancyData n m N) (O : FancyOpts) (φ : ℝ) (os : ℕ) [NeZero os] [NeZero (os * n)] [NeZero (os * m)]
    (c : ℕ) [NeZero (os * n - 2 * c)] [NeZero (os * m - 2 * c)] (k : ℕ) (rp : Fin k → Wave (os * n - 2 * c) (os * m - 2 * c)) (ro : ℕ → ℕ → ℝ)
    (M : Fancy (os * n - 2 * c) (os * m - 2 * c) (os * n) (os * m) N (k + 1)) (hM : fancyFromDataset D O os c k rp ro = .ok M) :
    ∃ M', fancyFromDataset (D.turned φ) O os c k rp ro = .ok M' ∧
      (∀ idx, M'.forward idx ((D.turned φ).translations idx) = M.forward idx (D.translations idx)) ∧
      (∀ idx, M'.correctedTranslation idx ((D.turned φ).translations idx) = (turn φ).mulVec (M.correctedTranslation idx (D.translations idx))) :=
  ⟨M.turned φ, by rw [from_dataset_turned, hM]; rfl, fun idx => forward_turned M φ idx _, fun idx => corrected_translations_turned M φ idx _⟩

/-- A minibatch in a turned frame. -/
noncomputable def batchTurned {P : Type} (φ : ℝ) (B : Minibatch (Fin N × (Fin 3 → ℝ)) P) : Minibatch (Fin N × (Fin 3 → ℝ)) P :=
  { B with inputs := B.inputs.map fun e => (e.1, (turn φ).mulVec e.2) }

theorem shotPixels_turned (M : Fancy n m a b N k) (φ : ℝ) (e : Fin N × (Fin 3 → ℝ)) :
    (M.turned φ).shotPixels h w (e.1, (turn φ).mulVec e.2) = M.shotPixels h w e := by
  unfold Fancy.shotPixels
  simp only [forward_turned]

theorem withTheta_turned (M : Fancy n m a b N k) (φ : ℝ) (θ : FancyTheta n m H W h w N r k) :
    (M.turned φ).withTheta θ = (M.withTheta θ).turned φ := rfl

theorem fancyTotal_turned (M : Fancy n m a b N k) (kind : LossKind) (mask : Option (Fin h × Fin w → Bool)) (φ : ℝ)
    (B : Minibatch (Fin N × (Fin 3 → ℝ)) (Fin h × Fin w → ℝ)) (θ : FancyTheta n m H W h w N r k) :
    fancyTotal (M.turned φ) kind mask (batchTurned φ B) θ = fancyTotal M kind mask B θ := by
  unfold fancyTotal batchTurned
  simp only [withTheta_turned, List.map_map, Function.comp_def, shotPixels_turned]

/-- A reconstruction gives the same parameters in every frame. -/
theorem reconstruction_turned {σ : Type} (M : Fancy n m a b N k) (kind : LossKind) (mask : Option (Fin h × Fin w → Bool)) (φ : ℝ)
    (steps : List (OptStep σ (FancyCoord n m H W h w N r k) × Minibatch (Fin N × (Fin 3 → ℝ)) (Fin h × Fin w → ℝ)))
    (st : σ × FancyTheta n m H W h w N r k) :
    fancyRun (M.turned φ) kind mask (steps.map fun x => (x.1, batchTurned φ x.2)) st = fancyRun M kind mask steps st := by
  induction steps generalizing st with
  | nil => rfl
  | cons x rest ih =>
    obtain ⟨step, B⟩ := x
    simp only [List.map_cons, fancyRun, fancyTotal_turned M kind mask φ, ih]
    refine if_congr ?_ rfl rfl
    simp only [batchTurned, List.forall_mem_map, withTheta_turned, shotPixels_turned]

/-! ### A concrete case -/

/-- A quarter turn: a detector whose rows are along the other axis. -/
example (rp : Fin 1 → Wave (1 * 4 - 2 * 1) (1 * 4 - 2 * 1)) (ro : ℕ → ℕ → ℝ) :
    ∃ M M', fancyFromDataset toyFancyData {} 1 1 1 rp ro = .ok M ∧ fancyFromDataset (toyFancyData.turned (Real.pi / 2)) {} 1 1 1 rp ro = .ok M' ∧
      M'.objBasis 0 0 = -M.objBasis 1 0 ∧ M'.objBasis 1 0 = M.objBasis 0 0 ∧
      ∀ idx, M'.forward idx ((toyFancyData.turned (Real.pi / 2)).translations idx) = M.forward idx (toyFancyData.translations idx) := by
  have hM : ∃ M, fancyFromDataset toyFancyData {} 1 1 1 rp ro = .ok M := by
    unfold fancyFromDataset
    simp [FancyData.start, datasetNormal, initialWeights, fancyInit, toyFancyData]
  obtain ⟨M, hM⟩ := hM
  refine ⟨M, M.turned (Real.pi / 2), hM, by rw [from_dataset_turned, hM]; rfl, ?_, ?_, fun idx => forward_turned M _ idx _⟩ <;>
  simp [Fancy.turned, turn, Fin.sum_univ_three, Matrix.vecMul, dotProduct]

end Cdtools
