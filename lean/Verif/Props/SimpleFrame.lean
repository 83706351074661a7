/- Property theorems C131: SimplePtycho does not depend on the unit of length, the orientation of the laboratory frame, the origin of the scan and
the order of the exposures. -/
import Verif.Props.StepsFrame
import Verif.Props.Units
import Verif.Props.Azimuth
import Verif.Props.Simple

set_option linter.unusedSectionVars false

namespace Cdtools
open Finset Matrix

variable {n m H W h w : ℕ} [NeZero n] [NeZero m]

/-! ### Specification -/

/-- A `SimplePtycho` model with its basis in another unit of length. -/
noncomputable def Simple.inUnits (M : Simple n m) (s : ℝ) : Simple n m := { M with basis := s • M.basis }

/-- A `SimplePtycho` model in a frame turned about the beam. -/
noncomputable def Simple.turned (M : Simple n m) (φ : ℝ) : Simple n m := { M with basis := turn φ * M.basis }

/-- A `SimplePtycho` model with the corner of its object given from another point. -/
noncomputable def Simple.moved (M : Simple n m) (d : Vec3) : Simple n m :=
  { M with minTranslation := M.minTranslation + translationsToPixel M.basis ![0, 0, 1] d }

/-- The same predictions, and the same results of every reconstruction, with `f` applied to all translations. -/
structure SimpleSame (M M' : Simple n m) (f : (Fin 3 → ℝ) → (Fin 3 → ℝ)) : Prop where
  forward : ∀ t, M'.forward (f t) = M.forward t
  adam : ∀ (H W h w : ℕ) (kind : LossKind) (mask : Option (Fin h × Fin w → Bool)) (θ : SimpleTheta n m H W) steps,
    shotAdam simpleCoords M'.simulate kind mask (renamedSteps f steps) θ = shotAdam simpleCoords M.simulate kind mask steps θ
  sgd : ∀ (H W h w : ℕ) (kind : LossKind) (mask : Option (Fin h × Fin w → Bool)) (θ : SimpleTheta n m H W) steps,
    shotSgd simpleCoords M'.simulate kind mask (renamedSteps f steps) θ = shotSgd simpleCoords M.simulate kind mask steps θ

/-! ### Any description -/

theorem simple_same {M M' : Simple n m} {f : (Fin 3 → ℝ) → (Fin 3 → ℝ)} (hn : M'.probeNorm = M.probeNorm) (hp : M'.probe = M.probe)
    (ho : M'.obj = M.obj) (hx : ∀ t, M'.pixTrans (f t) = M.pixTrans t) : SimpleSame M M' f := by
  have hs : ∀ (H W : ℕ) (θ : SimpleTheta n m H W) t, M'.simulate θ (f t) = M.simulate θ t := fun H W θ t => by
    have : (M'.withTheta θ).pixTrans (f t) = (M.withTheta θ).pixTrans t := hx t
    unfold Simple.simulate Simple.forward
    rw [this, show (M'.withTheta θ).probeNorm = (M.withTheta θ).probeNorm from hn]
    rfl
  have hq : ∀ (H W h w : ℕ), SamePhysics simpleCoords h w (M.simulate (H := H) (W := W)) M'.simulate id (Equiv.refl _) f := fun H W h w =>
    ⟨fun θ e => congrArg _ (hs H W θ e), fun _ => rfl, fun _ => rfl⟩
  refine ⟨fun t => ?_, fun H W h w kind mask θ steps => ?_, fun H W h w kind mask θ steps => ?_⟩
  · unfold Simple.forward
    rw [hx, hn, hp, ho]
  · exact (shot_adam_same (hq H W h w) kind mask steps θ).trans (by rw [Option.map_id]; rfl)
  · exact (shot_sgd_same (hq H W h w) kind mask steps θ).trans (by rw [Option.map_id]; rfl)

theorem simple_from_dataset_change (B B' : Matrix (Fin 3) (Fin 2) ℝ) (f : Vec3 → Vec3) (d : Fin 2 → ℝ) (t0 : Vec3) (rest : List Vec3)
    (mask : RealIm n m) (patterns : List (RealIm n m)) (background : Option (RealIm n m))
    (hf : ∀ t c, translationsToPixel B' ![0, 0, 1] (f t) c = translationsToPixel B ![0, 0, 1] t c + d c) :
    simpleFromDataset B' (f t0) (rest.map f) mask patterns background =
      (simpleFromDataset B t0 rest mask patterns background).map fun M => { M with basis := B', minTranslation := M.minTranslation + d } := by
  have hs : ∀ p c, simpleSetup p B' (f t0) (rest.map f) c = ((simpleSetup p B t0 rest c).1, (simpleSetup p B t0 rest c).2 + d c) := fun p c => by
    unfold simpleSetup
    rw [← objectSetup_add, List.map_map, List.map_map]
    simp only [Function.comp_def, hf]
  unfold simpleFromDataset Simple.init
  simp only [hs]
  split_ifs
  · rfl
  · refine congrArg some ?_
    simp only [Simple.mk.injEq, true_and]
    ext i
    fin_cases i <;> rfl

/-! ### The descriptions -/

/-- **C131** (unit of length): a dataset in another unit gives the same model with its basis in that unit. -/
theorem simple_from_dataset_units (detBasis : Matrix (Fin 3) (Fin 2) ℝ) (wavelength distance s : ℝ) (hs : s ≠ 0) (t0 : Vec3) (rest : List Vec3)
    (mask : RealIm n m) (patterns : List (RealIm n m)) (background : Option (RealIm n m)) :
    simpleFromDataset (exitWaveGeometry (s • detBasis) ![n, m] (s * wavelength) (s * distance) 1) (s • t0) (rest.map fun t => s • t) mask patterns
        background =
      (simpleFromDataset (exitWaveGeometry detBasis ![n, m] wavelength distance 1) t0 rest mask patterns background).map fun M => M.inUnits s := by
  rw [exitWaveGeometry_units s hs,
    simple_from_dataset_change (exitWaveGeometry detBasis ![n, m] wavelength distance 1) _ (fun t => s • t) 0 t0 rest mask patterns background
      fun t c => by rw [translationsToPixel_units s hs]; simp]
  unfold simpleFromDataset Simple.init
  dsimp only
  split_ifs
  · rfl
  · simp only [Option.map_some, add_zero, Simple.inUnits]

/-- **C131** (orientation): a dataset in a frame turned about the beam gives the same model with a turned basis. -/
theorem simple_from_dataset_turned (detBasis : Matrix (Fin 3) (Fin 2) ℝ) (wavelength distance φ : ℝ) (t0 : Vec3) (rest : List Vec3)
    (mask : RealIm n m) (patterns : List (RealIm n m)) (background : Option (RealIm n m)) :
    simpleFromDataset (exitWaveGeometry (turn φ * detBasis) ![n, m] wavelength distance 1) ((turn φ).mulVec t0) (rest.map (turn φ).mulVec) mask
        patterns background =
      (simpleFromDataset (exitWaveGeometry detBasis ![n, m] wavelength distance 1) t0 rest mask patterns background).map fun M => M.turned φ := by
  have hz : (turn φ).mulVec ![0, 0, 1] = ![0, 0, 1] := by
    ext i
    fin_cases i <;> simp [turn, Matrix.mulVec, dotProduct, Fin.sum_univ_three]
  rw [exitWaveGeometry_turn,
    simple_from_dataset_change (exitWaveGeometry detBasis ![n, m] wavelength distance 1) _ (turn φ).mulVec 0 t0 rest mask patterns background
      fun t c => by
        have := translationsToPixel_turn φ (exitWaveGeometry detBasis ![n, m] wavelength distance 1) ![0, 0, 1] t
        rw [hz] at this
        rw [this]
        simp]
  unfold simpleFromDataset Simple.init
  dsimp only
  split_ifs
  · rfl
  · simp only [Option.map_some, add_zero, Simple.turned]

/-- **C131** (origin): a dataset measured from another point gives the same model; only the corner of the object moves. -/
theorem simple_from_dataset_moved (B : Matrix (Fin 3) (Fin 2) ℝ) (d t0 : Vec3) (rest : List Vec3)
    (mask : RealIm n m) (patterns : List (RealIm n m)) (background : Option (RealIm n m)) :
    simpleFromDataset B (t0 + d) (rest.map fun t => t + d) mask patterns background =
      (simpleFromDataset B t0 rest mask patterns background).map fun M => M.moved d := by
  rw [simple_from_dataset_change B B (fun t => t + d) (translationsToPixel B ![0, 0, 1] d) t0 rest mask patterns background
      fun t c => by rw [translationsToPixel_add]; rfl]
  unfold simpleFromDataset Simple.init
  dsimp only
  split_ifs
  · rfl
  · simp only [Option.map_some, Simple.moved]

/-- **C131** (order): the same exposures in another order give the same model. -/
theorem simple_from_dataset_reorder (B : Matrix (Fin 3) (Fin 2) ℝ) {t0 t0' : Vec3} {rest rest' : List Vec3} (ht : (t0 :: rest).Perm (t0' :: rest'))
    (mask : RealIm n m) {patterns patterns' : List (RealIm n m)} (hp : patterns.Perm patterns') (background : Option (RealIm n m)) :
    simpleFromDataset B t0 rest mask patterns background = simpleFromDataset B t0' rest' mask patterns' background := by
  have hs : ∀ p c, simpleSetup p B t0 rest c = simpleSetup p B t0' rest' c := fun p c =>
    objectSetup_perm p (ht.map fun t => translationsToPixel B ![0, 0, 1] t c) 0
  have hg : simpleGuess mask patterns background = simpleGuess mask patterns' background := by
    unfold simpleGuess sharpProbe
    rw [sharpIntensities_perm mask hp background]
  unfold simpleFromDataset
  rw [hg, hs, hs]

/-- **C131** (unit of length): predictions and reconstructions. -/
theorem simple_same_units (M : Simple n m) (s : ℝ) (hs : s ≠ 0) : SimpleSame M (M.inUnits s) fun t => s • t :=
  simple_same rfl rfl rfl fun t => by
    unfold Simple.pixTrans Simple.inUnits
    simp only [translationsToPixel_units s hs]

/-- **C131** (orientation): predictions and reconstructions. -/
theorem simple_same_turned (M : Simple n m) (φ : ℝ) : SimpleSame M (M.turned φ) (turn φ).mulVec :=
  simple_same rfl rfl rfl fun t => by
    have hz : (turn φ).mulVec ![0, 0, 1] = ![0, 0, 1] := by
      ext i
      fin_cases i <;> simp [turn, Matrix.mulVec, dotProduct, Fin.sum_univ_three]
    have := translationsToPixel_turn φ M.basis ![0, 0, 1] t
    rw [hz] at this
    unfold Simple.pixTrans Simple.turned
    simp only [this]

/-- **C131** (origin): predictions and reconstructions. -/
theorem simple_same_moved (M : Simple n m) (d : Vec3) : SimpleSame M (M.moved d) fun t => t + d :=
  simple_same rfl rfl rfl fun t => by
    unfold Simple.pixTrans Simple.moved
    simp only [translationsToPixel_add, add_sub_add_right_eq_sub]

/-! ### A concrete case -/

/-- A scan of two exposures, moved by a metre in every direction and then given in millimetres: the first exposure is simulated all the same. -/
example : ∃ M, simpleFromDataset (n := 4) (m := 2) !![0, -1; -1, 0; 0, 0] ![0, 0, 0] [![0, 1, 0]] (fun _ _ => 1)
    [fun _ _ => 3, fun _ _ => 5] (some fun _ _ => 1) = some M ∧
    ∃ Q, M.forward ![0, 0, 0] = .ok Q ∧ ((M.moved ![1, 1, 1]).inUnits 1000).forward ((1000 : ℝ) • (![0, 0, 0] + ![1, 1, 1])) = .ok Q := by
  have hM : ∃ M, simpleFromDataset (n := 4) (m := 2) !![0, -1; -1, 0; 0, 0] ![0, 0, 0] [![0, 1, 0]] (fun _ _ => 1)
      [fun _ _ => 3, fun _ _ => 5] (some fun _ _ => 1) = some M := by
    refine Option.ne_none_iff_exists'.1 fun h => ?_
    have := (simple_dark_data (n := 4) (m := 2) _ _ _ _ _ _ (fun _ _ => zero_le_one) (by simp)).1 h 0 0
    simp [meanCounts] at this
    norm_num at this
  obtain ⟨M, hM⟩ := hM
  obtain ⟨I, hI⟩ := simple_forward_succeeds _ _ _ _ _ _ M hM M.probe M.obj.px ![0, 0, 0] List.mem_cons_self
  refine ⟨M, hM, _, hI, ?_⟩
  rw [(simple_same_units (M.moved ![1, 1, 1]) 1000 (by norm_num)).forward, (simple_same_moved M ![1, 1, 1]).forward]
  exact hI

end Cdtools
