/- Property theorems C132: the probe modes are interchangeable. -/
import Verif.Props.StepsFrame
import Verif.Props.Padding

set_option linter.unusedSectionVars false

namespace Cdtools
open Finset

variable {n m a b H W h w N r k nz : ℕ} [NeZero n] [NeZero m] [NeZero a] [NeZero b]

/-! ### Specification -/

/-- Weights of the probe modes in another order: mode `j` of the new order is mode `τ j` of the old one. -/
def Weights.modeOrder (τ : Equiv.Perm (Fin k)) : Weights N k → Weights N k
  | .perShot w => .perShot w
  | .matrices r V => .matrices r fun i => (V i).submatrix id τ

/-- The `FancyPtycho` model with its probe modes in another order. -/
def Fancy.modeOrder (M : Fancy n m a b N k) (τ : Equiv.Perm (Fin k)) : Fancy n m a b N k :=
  { M with probe := fun j => M.probe (τ j), weights := M.weights.modeOrder τ }

/-- The `MultislicePtycho` model with its probe modes in another order. -/
def Multislice.modeOrder (M : Multislice n m a b N k) (τ : Equiv.Perm (Fin k)) : Multislice n m a b N k :=
  { M with probe := fun j => M.probe (τ j), weights := M.weights.map fun V => V.modeOrder τ }

/-- The `Bragg2DPtycho` model with its probe modes in another order. -/
def Bragg.modeOrder (M : Bragg n m a b N k) (τ : Equiv.Perm (Fin k)) : Bragg n m a b N k :=
  { M with probe := fun j => M.probe (τ j) }

/-- The parameters of `FancyPtycho` with the probe modes in another order. -/
def fancyThetaModes (τ : Equiv.Perm (Fin k)) (θ : FancyTheta n m H W h w N r k) : FancyTheta n m H W h w N r k :=
  (fun j => θ.1 (τ j), θ.2.1, θ.2.2.1, θ.2.2.2.1, fun i q j => θ.2.2.2.2.1 i q (τ j), θ.2.2.2.2.2.1, θ.2.2.2.2.2.2)

/-- The parameters of `MultislicePtycho` with the probe modes in another order. -/
def multisliceThetaModes (τ : Equiv.Perm (Fin k)) (θ : MultisliceTheta n m nz H W h w N r k) : MultisliceTheta n m nz H W h w N r k :=
  (fun j => θ.1 (τ j), θ.2.1, θ.2.2.1, θ.2.2.2.1, fun i q j => θ.2.2.2.2.1 i q (τ j), θ.2.2.2.2.2)

/-- The parameters of `Bragg2DPtycho` with the probe modes in another order. -/
def braggThetaModes (τ : Equiv.Perm (Fin k)) (θ : BraggTheta n m H W h w N k) : BraggTheta n m H W h w N k :=
  (fun j => θ.1 (τ j), θ.2)

/-! ### Patterns -/

theorem sumModes_order (h w : ℕ) (F : Fin k → ℕ → ℕ → ℂ) (τ : Equiv.Perm (Fin k)) :
    sumModes h w (List.ofFn fun j => F (τ j)) = sumModes h w (List.ofFn F) := by
  unfold sumModes
  simp only [Img.mk.injEq, true_and]
  funext i j
  rw [List.map_ofFn, List.map_ofFn, List.sum_ofFn, List.sum_ofFn]
  exact Equiv.sum_comp τ fun q => ‖F q i j‖ ^ 2

/-- The sum over the modes of an exposure, whatever is done to each of them, does not depend on their order. -/
theorem shotProbes_order (V : Weights N k) (τ : Equiv.Perm (Fin k)) (idx : Fin N) (P : Fin k → Wave n m) (h w : ℕ) (F : Wave n m → ℕ → ℕ → ℂ) :
    sumModes h w (List.ofFn fun i => F (shotProbes (V.modeOrder τ) idx (fun j => P (τ j)) i)) =
      sumModes h w (List.ofFn fun i => F (shotProbes V idx P i)) := by
  cases V with
  | perShot v => exact sumModes_order h w (fun j => F fun x y => (v idx : ℂ) * P j x y) τ
  | matrices r V =>
    have : shotProbes ((Weights.matrices r V).modeOrder τ) idx (fun j => P (τ j)) = shotProbes (Weights.matrices r V) idx P := by
      funext i x y
      exact Equiv.sum_comp τ fun j => V idx i j * P j x y
    exact congrArg (fun S : Fin r → Wave n m => sumModes h w (List.ofFn fun i => F (S i))) this

/-- **C132** (FancyPtycho): the order of the probe modes does not change a pattern. -/
theorem forward_mode_order (M : Fancy n m a b N k) (τ : Equiv.Perm (Fin k)) (idx : Fin N) (t : Fin 3 → ℝ) :
    (M.modeOrder τ).forward idx t = M.forward idx t := by
  unfold Fancy.forward
  dsimp only
  refine if_congr Iff.rfl rfl ?_
  refine congrArg (fun g => Except.map g (objWindow a b M.transmission ⌊M.pixTrans idx t 0⌋ ⌊M.pixTrans idx t 1⌋)) ?_
  funext sel
  exact congrArg (measQuadratic _ M.background M.qe)
    (shotProbes_order M.weights τ idx M.basisProbes a b fun p => fun x y => M.toDetector idx t sel p x y)

/-- **C132** (MultislicePtycho). -/
theorem multislice_forward_mode_order (M : Multislice n m a b N k) (τ : Equiv.Perm (Fin k)) (idx : Fin N) (t : Fin 3 → ℝ) :
    (M.modeOrder τ).forward idx t = M.forward idx t := by
  have hw : (M.modeOrder τ).effectiveWeights = M.effectiveWeights.modeOrder τ := by
    unfold Multislice.effectiveWeights Multislice.modeOrder
    cases M.weights <;> rfl
  have hs : ∀ ws, sumModes a b (List.ofFn fun i => fun x y => (M.modeOrder τ).toDetector idx t ws
      (shotProbes (M.modeOrder τ).effectiveWeights idx (fun j => (M.modeOrder τ).realSpace ((M.modeOrder τ).probe j)) i) x y) =
      sumModes a b (List.ofFn fun i => fun x y => M.toDetector idx t ws (shotProbes M.effectiveWeights idx (fun j => M.realSpace (M.probe j)) i) x y) :=
    fun ws => by
      rw [hw]
      exact shotProbes_order M.effectiveWeights τ idx (fun j => M.realSpace (M.probe j)) a b fun p => fun x y => M.toDetector idx t ws p x y
  unfold Multislice.forward
  simp only [hs]
  rfl

/-- **C132** (Bragg2DPtycho). -/
theorem bragg_forward_mode_order (M : Bragg n m a b N k) (τ : Equiv.Perm (Fin k)) (idx : Fin N) (t : Fin 3 → ℝ) :
    (M.modeOrder τ).forward idx t = M.forward idx t := by
  unfold Bragg.forward
  rw [show (M.modeOrder τ).weights = M.weights from rfl]
  cases M.weights with
  | none => rfl
  | some V =>
    dsimp only
    rw [show (M.modeOrder τ).pixTrans idx t = M.pixTrans idx t from rfl, show (M.modeOrder τ).obj = M.obj from rfl]
    cases objWindow a b M.obj ⌊M.pixTrans idx t 0⌋ ⌊M.pixTrans idx t 1⌋ with
    | error e => rfl
    | ok sel =>
      exact congrArg (fun I => Except.ok (measQuadratic _ M.background none I)) (sumModes_order a b (fun j => M.toDetector fun x y =>
        (M.probeNorm : ℂ) * sincApply false (M.pixTrans idx t 0, M.pixTrans idx t 1) sel (M.illumination (V idx) (M.distance t) (M.probe j)) x y) τ)

/-! ### Reconstructions -/

/-- The coordinates of the parameters of `FancyPtycho`. -/
def fancyCoords : Coords (FancyTheta n m H W h w N r k) (FancyCoord n m H W h w N r k) where
  read := fancyRead
  write := fancyWrite
  group := fancyGroup
  write_read _ := rfl
  read_write v := fancyRead_write v

/-- The simulation of an exposure by `FancyPtycho`. -/
noncomputable def Fancy.simulate (M : Fancy n m a b N k) (θ : FancyTheta n m H W h w N r k) (e : Fin N × (Fin 3 → ℝ)) : Except String (Img ℝ) :=
  (M.withTheta θ).forward e.1 e.2

theorem shotPixels_eq (M : Fancy n m a b N k) (θ : FancyTheta n m H W h w N r k) (e : Fin N × (Fin 3 → ℝ)) :
    (M.withTheta θ).shotPixels h w e = simPixels h w (M.simulate θ e) := by
  unfold Fancy.shotPixels Fancy.simulate simPixels
  cases (M.withTheta θ).forward e.1 e.2 <;> rfl

theorem fancyRun_eq {τ : Type} (M : Fancy n m a b N k) (kind : LossKind) (mask : Option (Fin h × Fin w → Bool))
    (steps : List (OptStep τ (FancyCoord n m H W h w N r k) × Minibatch (Fin N × (Fin 3 → ℝ)) (Fin h × Fin w → ℝ)))
    (s : τ × FancyTheta n m H W h w N r k) : fancyRun M kind mask steps s = shotRun fancyCoords M.simulate kind mask steps s := by
  induction steps generalizing s with
  | nil => rfl
  | cons x rest ih =>
    obtain ⟨step, B⟩ := x
    have ht : ∀ θ : FancyTheta n m H W h w N r k, fancyTotal M kind mask B θ = shotTotal M.simulate kind mask B θ := fun θ => by
      unfold fancyTotal shotTotal
      simp only [shotPixels_eq]
    unfold fancyRun shotRun
    simp only [shotPixels_eq, ht, ih]
    rfl

/-- **C132** (FancyPtycho, Adam): a reconstruction with the probe modes in another order gives the same parameters in that order. -/
theorem adam_mode_order (M : Fancy n m a b N k) (τ : Equiv.Perm (Fin k)) (kind : LossKind) (mask : Option (Fin h × Fin w → Bool))
    (steps : List (AdamHyper × Minibatch (Fin N × (Fin 3 → ℝ)) (Fin h × Fin w → ℝ))) (θ : FancyTheta n m H W h w N r k) :
    fancyAdam M kind mask steps (fancyThetaModes τ θ) = (fancyAdam M kind mask steps θ).map (fancyThetaModes τ) ∧
    ∀ steps : List (SgdHyper × Minibatch (Fin N × (Fin 3 → ℝ)) (Fin h × Fin w → ℝ)),
      fancySgd M kind mask steps (fancyThetaModes τ θ) = (fancySgd M kind mask steps θ).map (fancyThetaModes τ) := by
  have hwt : ∀ θ : FancyTheta n m H W h w N r k, M.withTheta (fancyThetaModes τ θ) = (M.withTheta θ).modeOrder τ := fun θ => by
    unfold Fancy.withTheta Fancy.modeOrder
    cases M.weights <;> rfl
  let p : FancyCoord n m H W h w N r k ≃ FancyCoord n m H W h w N r k :=
    Equiv.sumCongr (Equiv.prodCongr τ (Equiv.refl _)) (Equiv.sumCongr (Equiv.refl _) (Equiv.sumCongr (Equiv.refl _) (Equiv.sumCongr (Equiv.refl _)
      (Equiv.sumCongr (Equiv.prodCongr (Equiv.refl _) (Equiv.prodCongr (Equiv.refl _) (Equiv.prodCongr τ (Equiv.refl _)))) (Equiv.refl _)))))
  have hp : SamePhysics fancyCoords h w M.simulate M.simulate (fancyThetaModes τ) p id :=
    ⟨fun θ e => by
        unfold Fancy.simulate
        rw [hwt, id, forward_mode_order],
      fun θ => by
        funext c
        rcases c with ⟨j, x, y, im⟩ | ⟨i, j, im⟩ | ⟨i, j⟩ | i | ⟨i, q, j, im⟩ | ⟨i, c⟩ | ⟨i, c⟩ <;> rfl,
      fun c => by rcases c with ⟨j, x, y, im⟩ | ⟨i, j, im⟩ | ⟨i, j⟩ | i | ⟨i, q, j, im⟩ | ⟨i, c⟩ | ⟨i, c⟩ <;> rfl⟩
  have hid : ∀ {χ : Type} (l : List (χ × Minibatch (Fin N × (Fin 3 → ℝ)) (Fin h × Fin w → ℝ))), renamedSteps id l = l := fun l => by
    unfold renamedSteps Minibatch.renamed
    simp
  constructor
  · have h1 := shot_adam_same hp kind mask steps θ
    rw [hid] at h1
    unfold fancyAdam
    rw [fancyRun_eq, fancyRun_eq]
    exact h1
  · intro steps
    have h1 := shot_sgd_same hp kind mask steps θ
    rw [hid] at h1
    unfold fancySgd
    rw [fancyRun_eq, fancyRun_eq]
    exact h1

/-- **C132** (MultislicePtycho): reconstructions. -/
theorem multislice_reconstruction_mode_order (M : Multislice n m a b N k) (τ : Equiv.Perm (Fin k)) :
    MultisliceSameRuns (nz := nz) (H := H) (W := W) (h := h) (w := w) (r := r) M M (multisliceThetaModes τ) id := fun kind mask θ =>
  have hwt : ∀ θ : MultisliceTheta n m nz H W h w N r k, M.withTheta (multisliceThetaModes τ θ) = (M.withTheta θ).modeOrder τ := fun θ => by
    unfold Multislice.withTheta Multislice.modeOrder
    rcases M.weights with _ | (_ | _) <;> rfl
  let p : MultisliceCoord n m nz H W h w N r k ≃ MultisliceCoord n m nz H W h w N r k :=
    { toFun := fun
        | .probe j x y im => .probe (τ j) x y im
        | .weights i q j im => .weights i q (τ j) im
        | c => c
      invFun := fun
        | .probe j x y im => .probe (τ.symm j) x y im
        | .weights i q j im => .weights i q (τ.symm j) im
        | c => c
      left_inv := fun c => by cases c <;> simp
      right_inv := fun c => by cases c <;> simp }
  have hp : SamePhysics multisliceCoords h w M.simulate M.simulate (multisliceThetaModes τ) p id :=
    ⟨fun θ e => by
        unfold Multislice.simulate
        rw [hwt, id, multislice_forward_mode_order],
      fun θ => by funext c; cases c <;> rfl, fun c => by cases c <;> rfl⟩
  ⟨fun steps => shot_adam_same hp kind mask steps θ, fun steps => shot_sgd_same hp kind mask steps θ⟩

/-- **C132** (Bragg2DPtycho): reconstructions. -/
theorem bragg_reconstruction_mode_order (M : Bragg n m a b N k) (τ : Equiv.Perm (Fin k)) :
    BraggSameRuns (H := H) (W := W) (h := h) (w := w) M M (braggThetaModes τ) id := fun kind mask θ =>
  let p : BraggCoord n m H W h w N k ≃ BraggCoord n m H W h w N k :=
    { toFun := fun
        | .probe j x y im => .probe (τ j) x y im
        | c => c
      invFun := fun
        | .probe j x y im => .probe (τ.symm j) x y im
        | c => c
      left_inv := fun c => by cases c <;> simp
      right_inv := fun c => by cases c <;> simp }
  have hp : SamePhysics braggCoords h w M.simulate M.simulate (braggThetaModes τ) p id :=
    ⟨fun θ e => congrArg _ (bragg_forward_mode_order (M.withTheta θ) τ e.1 e.2),
      fun θ => by funext c; cases c <;> rfl, fun c => by cases c <;> rfl⟩
  ⟨fun steps => shot_adam_same hp kind mask steps θ, fun steps => shot_sgd_same hp kind mask steps θ⟩

/-! ### A concrete case -/

/-- A new model with two modes simulates its exposures, and does so with the modes exchanged. -/
example (rp : Fin 1 → Wave (1 * 4 - 2 * 1) (1 * 4 - 2 * 1)) (ro : ℕ → ℕ → ℝ) :
    ∃ M, fancyFromDataset toyFancyData {} 1 1 1 rp ro = .ok M ∧ (M.modeOrder (Equiv.swap 0 1)).probe 0 = M.probe 1 ∧
      ∀ idx, ∃ Q, M.forward idx (toyFancyData.translations idx) = .ok Q ∧
        (M.modeOrder (Equiv.swap 0 1)).forward idx (toyFancyData.translations idx) = .ok Q := by
  have hM : ∃ M, fancyFromDataset toyFancyData {} 1 1 1 rp ro = .ok M := by
    unfold fancyFromDataset
    simp [FancyData.start, datasetNormal, initialWeights, fancyInit, toyFancyData]
  obtain ⟨M, hM⟩ := hM
  obtain ⟨E, peak, -, -, -, -, h4⟩ := initial_patterns_far toyFancyData toyFancyData_nonneg {} 1 1 rp ro M hM rfl rfl rfl rfl rfl
    (fun h => absurd rfl h) ⟨1, 1, by norm_num, by norm_num, by norm_num, by norm_num, by rw [toyFancyData_mean]; norm_num⟩
  refine ⟨M, hM, rfl, fun idx => ?_⟩
  obtain ⟨Q, hQ, -⟩ := h4 idx
  exact ⟨Q, hQ, by rw [forward_mode_order]; exact hQ⟩

end Cdtools
