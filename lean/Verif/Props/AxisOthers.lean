/- Property theorems C133 (MultislicePtycho, SimplePtycho): the two axes of the detector are treated alike. -/
import Verif.Props.AxisSteps
import Verif.Props.SimpleFrame

set_option linter.unusedSectionVars false

namespace Cdtools
open Finset Matrix

variable {n m a b H W h w N r k nz : ℕ} [NeZero n] [NeZero m] [NeZero a] [NeZero b]

/-! ### Specification -/

/-- The `MultislicePtycho` model with the axes of the detector (and of probe, slices, propagator, background, bases, offsets) exchanged. -/
def Multislice.swapAxes (M : Multislice n m a b N k) : Multislice m n b a N k where
  probe := fun j => swapWave (M.probe j)
  probeNorm := M.probeNorm
  support := fun x y => M.support y x
  weights := M.weights
  fourierProbe := M.fourierProbe
  slices := M.slices.map Img.swapAxes
  exponentiate := M.exponentiate
  propagator := M.propagator.swapAxes
  objBasis := swapBasis M.objBasis
  detBasis := swapBasis M.detBasis
  normal := M.normal
  minTranslation := swapPix M.minTranslation
  translationScale := M.translationScale
  offsets := M.offsets.map fun o i => swapPix (o i)
  simulateTranslation := M.simulateTranslation
  oversampling := M.oversampling
  background := M.background.swapAxes
  saturation := M.saturation

/-- The parameters of `MultislicePtycho` with their axes exchanged. -/
def multisliceThetaSwap (θ : MultisliceTheta n m nz H W h w N r k) : MultisliceTheta m n nz W H w h N r k :=
  (fun j => swapWave (θ.1 j), fun s i j => θ.2.1 s j i, fun i j => θ.2.2.1 j i, θ.2.2.2.1, θ.2.2.2.2.1, fun i => swapPix (θ.2.2.2.2.2 i))

/-- The `SimplePtycho` model with the axes of the detector (and of probe, object, basis) exchanged. -/
def Simple.swapAxes (M : Simple n m) : Simple m n where
  probe := swapWave M.probe
  probeNorm := M.probeNorm
  obj := M.obj.swapAxes
  basis := swapBasis M.basis
  minTranslation := swapPix M.minTranslation

/-- The parameters of `SimplePtycho` with their axes exchanged. -/
def simpleThetaSwap (θ : SimpleTheta n m H W) : SimpleTheta m n W H := (swapWave θ.1, fun i j => θ.2 j i)

/-! ### MultislicePtycho -/

theorem multislice_pixTrans_swap (M : Multislice n m a b N k) (idx : Fin N) (t : Fin 3 → ℝ) :
    M.swapAxes.pixTrans idx t = swapPix (M.pixTrans idx t) := by
  unfold Multislice.pixTrans Multislice.swapAxes
  dsimp only
  rw [translationsToPixel_swap]
  cases M.offsets <;> rfl

theorem multislice_ramp_swap (M : Multislice n m a b N k) (t : Fin 3 → ℝ) : M.swapAxes.ramp t = swapWave (M.ramp t) := by
  unfold Multislice.ramp
  rw [show M.swapAxes.simulateTranslation = M.simulateTranslation from rfl]
  cases M.simulateTranslation with
  | false => rfl
  | true =>
    funext x y
    simp only [if_true, swapWave]
    rw [show M.swapAxes.detBasis = swapBasis M.detBasis from rfl, translationsToPixel_swap, show M.swapAxes.oversampling = M.oversampling from rfl,
      show M.swapAxes.normal = M.normal from rfl]
    rw [show swapPix (translationsToPixel M.detBasis M.normal t) 0 = translationsToPixel M.detBasis M.normal t 1 from rfl,
      show swapPix (translationsToPixel M.detBasis M.normal t) 1 = translationsToPixel M.detBasis M.normal t 0 from rfl, add_comm]

theorem passSlices_swap (t0 t1 : ℝ) (P : Wave a b) (S : List (Wave a b)) (u : Wave a b) :
    passSlices (t1, t0) (swapWave P) (S.map swapWave) (swapWave u) = swapWave (passSlices (t0, t1) P S u) := by
  unfold passSlices
  induction S generalizing u with
  | nil => rfl
  | cons sel rest ih =>
    simp only [List.map_cons, List.foldl_cons]
    rw [sincApply_swap, nearField_swap]
    exact ih _

theorem multislice_toDetector_swap (M : Multislice n m a b N k) (idx : Fin N) (t : Fin 3 → ℝ) (S : List (Wave a b)) (p : Wave n m) :
    M.swapAxes.toDetector idx t (S.map swapWave) (swapWave p) = swapWave (M.toDetector idx t S p) := by
  have h1 : (fun x y => swapWave p x y * M.swapAxes.ramp t x y) = swapWave fun x y => p x y * M.ramp t x y := by
    rw [multislice_ramp_swap]
    rfl
  unfold Multislice.toDetector
  dsimp only
  rw [h1, padProbe_swap, multislice_pixTrans_swap, show swapPix (M.pixTrans idx t) 0 = M.pixTrans idx t 1 from rfl,
    show swapPix (M.pixTrans idx t) 1 = M.pixTrans idx t 0 from rfl, ← farField_swap, ← passSlices_swap]
  rfl

theorem mapM_swap (f : Img ℂ → Img ℂ) (g : Img ℂ → Img ℂ) (hfg : ∀ o, g o.swapAxes = (f o).swapAxes) (p q : ℤ) (L : List (Img ℂ)) :
    (L.map Img.swapAxes).mapM (fun o => objWindow b a (g o) q p) =
      (L.mapM fun o => objWindow a b (f o) p q).map fun S : List (Wave a b) => S.map swapWave := by
  induction L with
  | nil => rfl
  | cons o rest ih =>
    simp only [List.map_cons, List.mapM_cons, hfg, objWindow_swap, ih]
    cases objWindow a b (f o) p q with
    | error e => rfl
    | ok s =>
      cases rest.mapM fun o => objWindow a b (f o) p q with
      | error e => rfl
      | ok S => rfl

theorem sumModes_swap {q : ℕ} (F : Fin q → Wave b a) (G : Fin q → Wave a b) (hF : ∀ i, F i = swapWave (G i)) :
    sumModes b a (List.ofFn fun i => fun x y => F i x y) = (sumModes a b (List.ofFn fun i => fun x y => G i x y)).swapAxes := by
  obtain rfl : F = fun i => swapWave (G i) := funext hF
  unfold sumModes Img.swapAxes
  simp only [Img.mk.injEq, true_and]
  funext x y
  rw [List.map_ofFn, List.map_ofFn]
  rfl

theorem multislice_realSpace_swap (M : Multislice n m a b N k) (p : Wave n m) :
    M.swapAxes.realSpace (swapWave p) = swapWave (M.realSpace p) := by
  unfold Multislice.realSpace
  rw [show M.swapAxes.fourierProbe = M.fourierProbe from rfl]
  cases M.fourierProbe with
  | false => rfl
  | true => exact inverseFarField_swap fun x y => p x y * (if M.support x y then 1 else 0)

theorem shotProbes_swap (V : Weights N k) (idx : Fin N) (P : Fin k → Wave n m) (i : Fin (V.rank)) :
    shotProbes V idx (fun j => swapWave (P j)) i = swapWave (shotProbes V idx P i) := by
  cases V <;> rfl

theorem multislice_modes_swap (M : Multislice n m a b N k) (idx : Fin N) (t : Fin 3 → ℝ) (S : List (Wave a b)) :
    sumModes b a (List.ofFn fun i => fun x y => M.swapAxes.toDetector idx t (S.map swapWave)
      (shotProbes M.swapAxes.effectiveWeights idx (fun j => M.swapAxes.realSpace (M.swapAxes.probe j)) i) x y) =
      (sumModes a b (List.ofFn fun i => fun x y => M.toDetector idx t S
        (shotProbes M.effectiveWeights idx (fun j => M.realSpace (M.probe j)) i) x y)).swapAxes := by
  have hb : (fun j => M.swapAxes.realSpace (M.swapAxes.probe j)) = fun j => swapWave (M.realSpace (M.probe j)) :=
    funext fun j => multislice_realSpace_swap M (M.probe j)
  rw [hb, show M.swapAxes.effectiveWeights = M.effectiveWeights from rfl]
  refine sumModes_swap _ _ fun i => ?_
  rw [shotProbes_swap, multislice_toDetector_swap]

theorem multislice_windows_swap (M : Multislice n m a b N k) (idx : Fin N) (t : Fin 3 → ℝ) :
    (M.swapAxes.slices.mapM fun o => objWindow b a (M.swapAxes.transmission o) ⌊M.swapAxes.pixTrans idx t 0⌋ ⌊M.swapAxes.pixTrans idx t 1⌋) =
      (M.slices.mapM fun o => objWindow a b (M.transmission o) ⌊M.pixTrans idx t 0⌋ ⌊M.pixTrans idx t 1⌋).map fun S => S.map swapWave := by
  rw [multislice_pixTrans_swap]
  refine mapM_swap M.transmission M.swapAxes.transmission (fun o => ?_) _ _ M.slices
  unfold Multislice.transmission
  rw [show M.swapAxes.exponentiate = M.exponentiate from rfl]
  cases M.exponentiate <;> rfl

/-- **C133** (MultislicePtycho): exchanging the axes of the detector exchanges the axes of every simulated pattern. -/
theorem multislice_forward_axes (M : Multislice n m a b N k) (idx : Fin N) (t : Fin 3 → ℝ) :
    M.swapAxes.forward idx t = (M.forward idx t).map Img.swapAxes := by
  have hq : (M.swapAxes.slices ≠ [] ∧ ¬ (M.swapAxes.propagator.h = b ∧ M.swapAxes.propagator.w = a)) ↔
      (M.slices ≠ [] ∧ ¬ (M.propagator.h = a ∧ M.propagator.w = b)) :=
    and_congr (not_congr List.map_eq_nil_iff) (not_congr and_comm)
  unfold Multislice.forward
  dsimp only
  rw [multislice_windows_swap]
  generalize (M.slices.mapM fun o => objWindow a b (M.transmission o) ⌊M.pixTrans idx t 0⌋ ⌊M.pixTrans idx t 1⌋) = X
  cases X with
  | error e => rfl
  | ok S =>
    simp only [Except.map]
    rw [multislice_modes_swap]
    by_cases hp : M.slices ≠ [] ∧ ¬ (M.propagator.h = a ∧ M.propagator.w = b)
    · rw [if_pos hp, if_pos (hq.mpr hp)]
    · rw [if_neg hp, if_neg fun h' => hp (hq.mp h')]
      generalize sumModes a b _ = Q
      exact congrArg Except.ok (measQuadratic_swap M.oversampling M.saturation M.background none Q)

theorem multislice_withTheta_swap (M : Multislice n m a b N k) (θ : MultisliceTheta n m nz H W h w N r k) :
    M.swapAxes.withTheta (multisliceThetaSwap θ) = (M.withTheta θ).swapAxes := by
  unfold Multislice.withTheta Multislice.swapAxes multisliceThetaSwap
  simp only [imgOf_swap, Option.map_map, List.map_ofFn]
  rfl

/-- **C133** (MultislicePtycho, reconstructions). -/
theorem multislice_reconstruction_axes (M : Multislice n m a b N k) (kind : LossKind) (mask : Option (Fin h × Fin w → Bool))
    (θ : MultisliceTheta n m nz H W h w N r k) :
    (∀ steps, shotAdam multisliceCoords M.swapAxes.simulate kind (mask.map swapPattern) (swapSteps steps) (multisliceThetaSwap θ) =
      (shotAdam multisliceCoords M.simulate kind mask steps θ).map multisliceThetaSwap) ∧
    ∀ steps, shotSgd multisliceCoords M.swapAxes.simulate kind (mask.map swapPattern) (swapSteps steps) (multisliceThetaSwap θ) =
      (shotSgd multisliceCoords M.simulate kind mask steps θ).map multisliceThetaSwap := by
  let p : MultisliceCoord m n nz W H w h N r k ≃ MultisliceCoord n m nz H W h w N r k :=
    { toFun := fun
        | .probe j x y im => .probe j y x im
        | .obj s i j im => .obj s j i im
        | .background i j => .background j i
        | .weight i => .weight i
        | .weights i q j im => .weights i q j im
        | .offset i c => .offset i (Equiv.swap 0 1 c)
      invFun := fun
        | .probe j x y im => .probe j y x im
        | .obj s i j im => .obj s j i im
        | .background i j => .background j i
        | .weight i => .weight i
        | .weights i q j im => .weights i q j im
        | .offset i c => .offset i (Equiv.swap 0 1 c)
      left_inv := fun c => by cases c <;> simp
      right_inv := fun c => by cases c <;> simp }
  have hp : SwappedPhysics multisliceCoords multisliceCoords h w M.simulate M.swapAxes.simulate
      (multisliceThetaSwap (n := n) (m := m) (nz := nz) (H := H) (W := W) (h := h) (w := w) (N := N) (r := r) (k := k)) p :=
    ⟨fun θ e => by
        unfold Multislice.simulate
        rw [multislice_withTheta_swap, multislice_forward_axes, simPixels_swap],
      fun θ => by funext c; cases c <;> rfl, fun c => by cases c <;> rfl⟩
  exact ⟨fun steps => hp.adam kind mask steps θ, fun steps => hp.sgd kind mask steps θ⟩

/-! ### SimplePtycho -/

/-- **C133** (SimplePtycho): exchanging the axes of the detector exchanges the axes of every simulated pattern. -/
theorem simple_forward_axes (M : Simple n m) (t : Fin 3 → ℝ) : M.swapAxes.forward t = (M.forward t).map Img.swapAxes := by
  have ht : M.swapAxes.pixTrans t = swapPix (M.pixTrans t) := by
    unfold Simple.pixTrans Simple.swapAxes
    dsimp only
    rw [translationsToPixel_swap]
    rfl
  unfold Simple.forward roundExit
  rw [ht, show swapPix (M.pixTrans t) 0 = M.pixTrans t 1 from rfl, show swapPix (M.pixTrans t) 1 = M.pixTrans t 0 from rfl,
    show M.swapAxes.obj = M.obj.swapAxes from rfl]
  dsimp only
  rw [objWindow_swap]
  cases objWindow n m M.obj (roundHalfEven (M.pixTrans t 0)) (roundHalfEven (M.pixTrans t 1)) with
  | error e => rfl
  | ok sel =>
    simp only [Except.map]
    have h1 : (fun i j => (M.swapAxes.probeNorm : ℂ) * M.swapAxes.probe i j * swapWave sel i j) =
        swapWave fun i j => (M.probeNorm : ℂ) * M.probe i j * sel i j := rfl
    rw [h1, farField_swap]
    rfl

/-- **C133** (SimplePtycho, reconstructions). -/
theorem simple_reconstruction_axes (M : Simple n m) (kind : LossKind) (mask : Option (Fin h × Fin w → Bool)) (θ : SimpleTheta n m H W) :
    (∀ steps, shotAdam simpleCoords M.swapAxes.simulate kind (mask.map swapPattern) (swapSteps steps) (simpleThetaSwap θ) =
      (shotAdam simpleCoords M.simulate kind mask steps θ).map simpleThetaSwap) ∧
    ∀ steps, shotSgd simpleCoords M.swapAxes.simulate kind (mask.map swapPattern) (swapSteps steps) (simpleThetaSwap θ) =
      (shotSgd simpleCoords M.simulate kind mask steps θ).map simpleThetaSwap := by
  let p : SimpleCoord m n W H ≃ SimpleCoord n m H W :=
    { toFun := fun
        | .probe x y im => .probe y x im
        | .obj i j im => .obj j i im
      invFun := fun
        | .probe x y im => .probe y x im
        | .obj i j im => .obj j i im
      left_inv := fun c => by cases c <;> rfl
      right_inv := fun c => by cases c <;> rfl }
  have hp : SwappedPhysics simpleCoords simpleCoords h w M.simulate M.swapAxes.simulate
      (simpleThetaSwap (n := n) (m := m) (H := H) (W := W)) p :=
    ⟨fun θ e => by
        have hw : M.swapAxes.withTheta (simpleThetaSwap θ) = (M.withTheta θ).swapAxes := by
          unfold Simple.withTheta Simple.swapAxes simpleThetaSwap
          simp only [imgOf_swap]
        unfold Simple.simulate
        rw [hw, simple_forward_axes, simPixels_swap],
      fun θ => by funext c; cases c <;> rfl, fun c => by cases c <;> rfl⟩
  exact ⟨fun steps => hp.adam kind mask steps θ, fun steps => hp.sgd kind mask steps θ⟩

/-! ### A concrete case -/

/-- A detector of 4 × 2 pixels, and the same detector with 2 × 4 pixels. -/
example : ∃ M, simpleFromDataset (n := 4) (m := 2) !![0, -1; -1, 0; 0, 0] ![0, 0, 0] [![0, 1, 0]] (fun _ _ => 1)
    [fun _ _ => 3, fun _ _ => 5] (some fun _ _ => 1) = some M ∧
    ∃ Q, M.forward ![0, 0, 0] = .ok Q ∧ M.swapAxes.forward ![0, 0, 0] = .ok Q.swapAxes := by
  have hM : ∃ M, simpleFromDataset (n := 4) (m := 2) !![0, -1; -1, 0; 0, 0] ![0, 0, 0] [![0, 1, 0]] (fun _ _ => 1)
      [fun _ _ => 3, fun _ _ => 5] (some fun _ _ => 1) = some M := by
    refine Option.ne_none_iff_exists'.1 fun h => ?_
    have := (simple_dark_data (n := 4) (m := 2) _ _ _ _ _ _ (fun _ _ => zero_le_one) (by simp)).1 h 0 0
    simp [meanCounts] at this
    norm_num at this
  obtain ⟨M, hM⟩ := hM
  obtain ⟨I, hI⟩ := simple_forward_succeeds _ _ _ _ _ _ M hM M.probe M.obj.px ![0, 0, 0] List.mem_cons_self
  refine ⟨M, hM, _, hI, ?_⟩
  rw [simple_forward_axes]
  exact congrArg (Except.map Img.swapAxes) hI

end Cdtools
