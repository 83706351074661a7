/- Property theorems C130: reconstructions with MultislicePtycho and Bragg2DPtycho do not depend on the unit of length, the orientation of the
laboratory frame, the origin of the scan and the numbering of the exposures. -/
import Verif.Props.ModelSteps
import Verif.Props.Origin
import Verif.Props.OrderOthers
import Verif.Props.FrameOthers

set_option linter.unusedSectionVars false

namespace Cdtools
open Finset

variable {n m a b H W h w N r k nz : ℕ}

/-! ### Specification -/

/-- The minibatch with every input renamed by `f`; the patterns are the same. -/
def Minibatch.renamed {I J P : Type} (f : I → J) (B : Minibatch I P) : Minibatch J P :=
  { B with inputs := B.inputs.map f }

/-- Every step of the list with its minibatch renamed. -/
def renamedSteps {χ I J P : Type} (f : I → J) (steps : List (χ × Minibatch I P)) : List (χ × Minibatch J P) :=
  steps.map fun x => (x.1, x.2.renamed f)

/-- The parameters of `MultislicePtycho` with those of exposure `i` taken from exposure `σ i`. -/
def multisliceThetaReorder (σ : Equiv.Perm (Fin N)) (θ : MultisliceTheta n m nz H W h w N r k) : MultisliceTheta n m nz H W h w N r k :=
  (θ.1, θ.2.1, θ.2.2.1, fun i => θ.2.2.2.1 (σ i), fun i => θ.2.2.2.2.1 (σ i), fun i => θ.2.2.2.2.2 (σ i))

/-- The parameters of `Bragg2DPtycho` with those of exposure `i` taken from exposure `σ i`. -/
def braggThetaReorder (σ : Equiv.Perm (Fin N)) (θ : BraggTheta n m H W h w N k) : BraggTheta n m H W h w N k :=
  (θ.1, θ.2.1, θ.2.2.1, fun i => θ.2.2.2.1 (σ i), fun i => θ.2.2.2.2 (σ i))

/-! ### Any model -/

section General
variable {Θ I J ι ε ε' : Type} [DecidableEq ι]

theorem gradOf_renumber (e : ι ≃ ι) (L L' : (ι → ℝ) → ℝ) (hL : ∀ v, L' (v ∘ e) = L v) (v : ι → ℝ) :
    gradOf L' (v ∘ e) = gradOf L v ∘ e := by
  funext i
  unfold gradOf
  have : ∀ x, L' (Function.update (v ∘ e) i x) = L (Function.update v (e i) x) := fun x => by
    rw [← hL, Function.update_comp_equiv, Equiv.symm_apply_apply]
  simp only [this, Function.comp_apply]

/-- The same physics in another description: `P` translates the parameters, moving coordinates as `p` says, and `f` the inputs. -/
structure SamePhysics (K : Coords Θ ι) (h w : ℕ) (sim : Θ → I → Except ε (Img ℝ)) (sim' : Θ → J → Except ε' (Img ℝ)) (P : Θ → Θ) (p : ι ≃ ι)
    (f : I → J) : Prop where
  pixels : ∀ θ e, simPixels h w (sim' (P θ) (f e)) = simPixels h w (sim θ e)
  read : ∀ θ, K.read (P θ) = K.read θ ∘ p
  group : ∀ c, K.group (p c) = K.group c

variable {K : Coords Θ ι} {sim : Θ → I → Except ε (Img ℝ)} {sim' : Θ → J → Except ε' (Img ℝ)} {P : Θ → Θ} {p : ι ≃ ι} {f : I → J}

theorem SamePhysics.write (hp : SamePhysics K h w sim sim' P p f) (v : ι → ℝ) : K.write (v ∘ p) = P (K.write v) := by
  have h1 := hp.read (K.write v)
  rw [K.read_write] at h1
  rw [← h1, K.write_read]

theorem SamePhysics.total (hp : SamePhysics K h w sim sim' P p f) (kind : LossKind) (mask : Option (Fin h × Fin w → Bool))
    (B : Minibatch I (Fin h × Fin w → ℝ)) (θ : Θ) : shotTotal sim' kind mask (B.renamed f) (P θ) = shotTotal sim kind mask B θ := by
  unfold shotTotal
  simp only [Minibatch.renamed, List.map_map, Function.comp_def, hp.pixels]

theorem SamePhysics.run {τ : Type} (hp : SamePhysics K h w sim sim' P p f) (kind : LossKind) (mask : Option (Fin h × Fin w → Bool)) (E : τ → τ)
    (steps : List (OptStep τ ι × Minibatch I (Fin h × Fin w → ℝ)))
    (hE : ∀ x ∈ steps, ∀ g s v, x.1 (g ∘ p) (E s, v ∘ p) = (E (x.1 g (s, v)).1, (x.1 g (s, v)).2 ∘ p)) (s : τ) (θ : Θ) :
    shotRun K sim' kind mask (renamedSteps f steps) (E s, P θ) = (shotRun K sim kind mask steps (s, θ)).map fun u => (E u.1, P u.2) := by
  unfold renamedSteps
  induction steps generalizing s θ with
  | nil => rfl
  | cons x rest ih =>
    obtain ⟨step, B⟩ := x
    have hg : gradOf (fun v => shotTotal sim' kind mask (B.renamed f) (K.write v)) (K.read (P θ)) =
        gradOf (fun v => shotTotal sim kind mask B (K.write v)) (K.read θ) ∘ p := by
      rw [hp.read]
      exact gradOf_renumber _ _ _ (fun v => by rw [hp.write, hp.total]) _
    have hc : (∀ e ∈ (B.renamed f).inputs, (simPixels h w (sim' (P θ) e)).isSome) ↔ ∀ e ∈ B.inputs, (simPixels h w (sim θ e)).isSome := by
      simp only [Minibatch.renamed, List.forall_mem_map, hp.pixels]
    simp only [List.map_cons, shotRun, hg]
    by_cases hB : ∀ e ∈ B.inputs, (simPixels h w (sim θ e)).isSome
    · rw [if_pos hB, if_pos (hc.mpr hB), hp.read, show step _ _ = _ from hE _ (List.mem_cons_self ..) _ _ _]
      simp only [hp.write]
      exact ih (fun x hx => hE x (List.mem_cons_of_mem _ hx)) _ _
    · rw [if_neg hB, if_neg fun h => hB (hc.mp h)]
      rfl

/-- **C130** (any model, Adam): a reconstruction in another description of the same physics is the old one, translated. -/
theorem shot_adam_same (hp : SamePhysics K h w sim sim' P p f) (kind : LossKind) (mask : Option (Fin h × Fin w → Bool))
    (steps : List (AdamHyper × Minibatch I (Fin h × Fin w → ℝ))) (θ : Θ) :
    shotAdam K sim' kind mask (renamedSteps f steps) (P θ) = (shotAdam K sim kind mask steps θ).map P := by
  have := hp.run kind mask (fun s : AdamMemory _ => ⟨s.step, s.avg ∘ p, s.avgSq ∘ p, s.maxSq ∘ p⟩)
    (steps.map fun x => (adamUpdate x.1 K.group, x.2)) (by
      intro x hx g s v
      obtain ⟨y, -, rfl⟩ := List.mem_map.mp hx
      simp only [adamUpdate, Function.comp_def, hp.group]) AdamMemory.start θ
  unfold shotAdam
  unfold renamedSteps at this ⊢
  rw [List.map_map] at this ⊢
  refine (congrArg (Option.map Prod.snd) this).trans ?_
  rw [Option.map_map, Option.map_map]
  rfl

/-- **C130** (any model, SGD): the same for SGD. -/
theorem shot_sgd_same (hp : SamePhysics K h w sim sim' P p f) (kind : LossKind) (mask : Option (Fin h × Fin w → Bool))
    (steps : List (SgdHyper × Minibatch I (Fin h × Fin w → ℝ))) (θ : Θ) :
    shotSgd K sim' kind mask (renamedSteps f steps) (P θ) = (shotSgd K sim kind mask steps θ).map P := by
  have := hp.run kind mask (fun s : Option _ => s.map fun b => b ∘ p)
    (steps.map fun x => (sgdUpdate x.1 K.group, x.2)) (by
      intro x hx g s v
      obtain ⟨y, -, rfl⟩ := List.mem_map.mp hx
      unfold sgdUpdate
      by_cases h0 : y.1.momentum = 0
      · simp only [h0, if_true, Function.comp_def, hp.group]
      · cases s <;> cases y.1.nesterov <;>
          simp only [h0, if_false, if_true, Bool.false_eq_true, Function.comp_def, hp.group, sgdBuffer, Option.map_none, Option.map_some]) none θ
  unfold shotSgd
  unfold renamedSteps at this ⊢
  rw [List.map_map] at this ⊢
  refine (congrArg (Option.map Prod.snd) this).trans ?_
  rw [Option.map_map, Option.map_map]
  rfl

end General

/-! ### MultislicePtycho -/

variable [NeZero n] [NeZero m] [NeZero a] [NeZero b]

/-- A reconstruction of the model `M'` from the steps with their exposures renamed by `f` is that of `M`, with its parameters translated by `P`. -/
def MultisliceSameRuns (M M' : Multislice n m a b N k) (P : MultisliceTheta n m nz H W h w N r k → MultisliceTheta n m nz H W h w N r k)
    (f : Fin N × (Fin 3 → ℝ) → Fin N × (Fin 3 → ℝ)) : Prop :=
  ∀ (kind : LossKind) (mask : Option (Fin h × Fin w → Bool)) (θ : MultisliceTheta n m nz H W h w N r k),
    (∀ steps, shotAdam multisliceCoords M'.simulate kind mask (renamedSteps f steps) (P θ) =
      (shotAdam multisliceCoords M.simulate kind mask steps θ).map P) ∧
    ∀ steps, shotSgd multisliceCoords M'.simulate kind mask (renamedSteps f steps) (P θ) =
      (shotSgd multisliceCoords M.simulate kind mask steps θ).map P

theorem multislice_same_runs {M M' : Multislice n m a b N k} {f : Fin N × (Fin 3 → ℝ) → Fin N × (Fin 3 → ℝ)}
    (hs : ∀ (θ : MultisliceTheta n m nz H W h w N r k) e, M'.simulate θ (f e) = M.simulate θ e) :
    MultisliceSameRuns (nz := nz) (H := H) (W := W) (h := h) (w := w) (r := r) M M' id f := fun kind mask θ =>
  have hp : SamePhysics multisliceCoords h w M.simulate M'.simulate id (Equiv.refl (MultisliceCoord n m nz H W h w N r k)) f :=
    ⟨fun θ e => congrArg _ (hs θ e), fun _ => rfl, fun _ => rfl⟩
  ⟨fun steps => shot_adam_same hp kind mask steps θ, fun steps => shot_sgd_same hp kind mask steps θ⟩

/-- **C130** (MultislicePtycho, unit of length): with all lengths in another unit every reconstruction gives the same parameters. -/
theorem multislice_reconstruction_units (M : Multislice n m a b N k) (s : ℝ) (hs : s ≠ 0) :
    MultisliceSameRuns (nz := nz) (H := H) (W := W) (h := h) (w := w) (r := r) M (M.inUnits s) id (fun e => (e.1, s • e.2)) :=
  multislice_same_runs fun θ e => multislice_forward_units (M.withTheta θ) s hs e.1 e.2

/-- **C130** (MultislicePtycho, orientation): with the laboratory frame turned about its z axis and the same propagator every reconstruction gives
the same parameters. -/
theorem multislice_reconstruction_turned_partial (M : Multislice n m a b N k) (φ : ℝ) :
    MultisliceSameRuns (nz := nz) (H := H) (W := W) (h := h) (w := w) (r := r) M (M.turned φ M.propagator) id
      (fun e => (e.1, (turn φ).mulVec e.2)) :=
  multislice_same_runs fun θ e => multislice_forward_turned_partial (M.withTheta θ) φ e.1 e.2

/-- **C130** (MultislicePtycho, origin): with every translation moved by `d` every reconstruction gives the same parameters. -/
theorem multislice_reconstruction_moved (M : Multislice n m a b N k) (d : Vec3) (hs : M.simulateTranslation = false) :
    MultisliceSameRuns (nz := nz) (H := H) (W := W) (h := h) (w := w) (r := r) M (M.moved d) id (fun e => (e.1, e.2 + d)) :=
  multislice_same_runs fun θ e => multislice_forward_moved (M.withTheta θ) d hs e.1 e.2

/-- The old number of a coordinate of `MultislicePtycho`. -/
def multisliceOld (σ : Equiv.Perm (Fin N)) : MultisliceCoord n m nz H W h w N r k ≃ MultisliceCoord n m nz H W h w N r k where
  toFun
    | .weight i => .weight (σ i)
    | .weights i q j im => .weights (σ i) q j im
    | .offset i c => .offset (σ i) c
    | c => c
  invFun
    | .weight i => .weight (σ.symm i)
    | .weights i q j im => .weights (σ.symm i) q j im
    | .offset i c => .offset (σ.symm i) c
    | c => c
  left_inv c := by cases c <;> simp
  right_inv c := by cases c <;> simp

theorem multislice_withTheta_reorder (M : Multislice n m a b N k) (σ : Equiv.Perm (Fin N)) (θ : MultisliceTheta n m nz H W h w N r k) :
    (M.reorder σ).withTheta (multisliceThetaReorder σ θ) = (M.withTheta θ).reorder σ := by
  obtain ⟨probe, probeNorm, support, weights, fourierProbe, slices, exponentiate, propagator, objBasis, detBasis, normal, minTranslation,
    translationScale, offsets, simulateTranslation, oversampling, background, saturation⟩ := M
  rcases weights with _ | (_ | _) <;> cases offsets <;> rfl

/-- **C130** (MultislicePtycho, numbering): with the exposures numbered in another order every reconstruction gives the same parameters, those of
the exposures in the new order. -/
theorem multislice_reconstruction_reordered (M : Multislice n m a b N k) (σ : Equiv.Perm (Fin N)) :
    MultisliceSameRuns (nz := nz) (H := H) (W := W) (h := h) (w := w) (r := r) M (M.reorder σ) (multisliceThetaReorder σ)
      (fun e => (σ.symm e.1, e.2)) := fun kind mask θ =>
  have hp : SamePhysics multisliceCoords h w M.simulate (M.reorder σ).simulate (multisliceThetaReorder σ)
      (multisliceOld (n := n) (m := m) (nz := nz) (H := H) (W := W) (h := h) (w := w) (r := r) (k := k) σ) (fun e => (σ.symm e.1, e.2)) :=
    ⟨fun θ e => by
        unfold Multislice.simulate
        rw [multislice_withTheta_reorder, multislice_forward_reorder, Equiv.apply_symm_apply],
      fun θ => by funext c; cases c <;> rfl, fun c => by cases c <;> rfl⟩
  ⟨fun steps => shot_adam_same hp kind mask steps θ, fun steps => shot_sgd_same hp kind mask steps θ⟩

/-! ### Bragg2DPtycho -/

/-- A reconstruction of the model `M'` from the steps with their exposures renamed by `f` is that of `M`, with its parameters translated by `P`. -/
def BraggSameRuns (M M' : Bragg n m a b N k) (P : BraggTheta n m H W h w N k → BraggTheta n m H W h w N k)
    (f : Fin N × (Fin 3 → ℝ) → Fin N × (Fin 3 → ℝ)) : Prop :=
  ∀ (kind : LossKind) (mask : Option (Fin h × Fin w → Bool)) (θ : BraggTheta n m H W h w N k),
    (∀ steps, shotAdam braggCoords M'.simulate kind mask (renamedSteps f steps) (P θ) =
      (shotAdam braggCoords M.simulate kind mask steps θ).map P) ∧
    ∀ steps, shotSgd braggCoords M'.simulate kind mask (renamedSteps f steps) (P θ) =
      (shotSgd braggCoords M.simulate kind mask steps θ).map P

theorem bragg_same_runs {M M' : Bragg n m a b N k} {f : Fin N × (Fin 3 → ℝ) → Fin N × (Fin 3 → ℝ)}
    (hs : ∀ (θ : BraggTheta n m H W h w N k) e, M'.simulate θ (f e) = M.simulate θ e) :
    BraggSameRuns (H := H) (W := W) (h := h) (w := w) M M' id f := fun kind mask θ =>
  have hp : SamePhysics braggCoords h w M.simulate M'.simulate id (Equiv.refl (BraggCoord n m H W h w N k)) f :=
    ⟨fun θ e => congrArg _ (hs θ e), fun _ => rfl, fun _ => rfl⟩
  ⟨fun steps => shot_adam_same hp kind mask steps θ, fun steps => shot_sgd_same hp kind mask steps θ⟩

/-- **C130** (Bragg2DPtycho, unit of length). -/
theorem bragg_reconstruction_units (M : Bragg n m a b N k) (s : ℝ) (hs : 0 < s) :
    BraggSameRuns (H := H) (W := W) (h := h) (w := w) M (M.inUnits s) id (fun e => (e.1, s • e.2)) :=
  bragg_same_runs fun θ e => bragg_forward_units (M.withTheta θ) s hs e.1 e.2

/-- **C130** (Bragg2DPtycho, orientation). -/
theorem bragg_reconstruction_turned (M : Bragg n m a b N k) (φ : ℝ) :
    BraggSameRuns (H := H) (W := W) (h := h) (w := w) M (M.turned φ) id (fun e => (e.1, (turn φ).mulVec e.2)) :=
  bragg_same_runs fun θ e => bragg_forward_turned (M.withTheta θ) φ e.1 e.2

/-- **C130** (Bragg2DPtycho, origin). -/
theorem bragg_reconstruction_moved (M : Bragg n m a b N k) (d : Vec3) :
    BraggSameRuns (H := H) (W := W) (h := h) (w := w) M (M.moved d) id (fun e => (e.1, e.2 + d)) :=
  bragg_same_runs fun θ e => bragg_forward_moved (M.withTheta θ) d e.1 e.2

/-- The old number of a coordinate of `Bragg2DPtycho`. -/
def braggOld (σ : Equiv.Perm (Fin N)) : BraggCoord n m H W h w N k ≃ BraggCoord n m H W h w N k where
  toFun
    | .weight i => .weight (σ i)
    | .offset i c => .offset (σ i) c
    | c => c
  invFun
    | .weight i => .weight (σ.symm i)
    | .offset i c => .offset (σ.symm i) c
    | c => c
  left_inv c := by cases c <;> simp
  right_inv c := by cases c <;> simp

theorem bragg_withTheta_reorder (M : Bragg n m a b N k) (σ : Equiv.Perm (Fin N)) (θ : BraggTheta n m H W h w N k) :
    (M.reorder σ).withTheta (braggThetaReorder σ θ) = (M.withTheta θ).reorder σ := by
  obtain ⟨probe, probeNorm, support, weights, obj, objBasis, probeBasis, wavelength, minTranslation, medianPropagation, translationScale, offsets,
    propagateProbe, tilt, oversampling, background, saturation⟩ := M
  cases weights <;> cases offsets <;> rfl

/-- **C130** (Bragg2DPtycho, numbering). -/
theorem bragg_reconstruction_reordered (M : Bragg n m a b N k) (σ : Equiv.Perm (Fin N)) :
    BraggSameRuns (H := H) (W := W) (h := h) (w := w) M (M.reorder σ) (braggThetaReorder σ) (fun e => (σ.symm e.1, e.2)) := fun kind mask θ =>
  have hp : SamePhysics braggCoords h w M.simulate (M.reorder σ).simulate (braggThetaReorder σ)
      (braggOld (n := n) (m := m) (H := H) (W := W) (h := h) (w := w) (k := k) σ) (fun e => (σ.symm e.1, e.2)) :=
    ⟨fun θ e => by
        unfold Bragg.simulate
        rw [bragg_withTheta_reorder, bragg_forward_reorder, Equiv.apply_symm_apply],
      fun θ => by funext c; cases c <;> rfl, fun c => by cases c <;> rfl⟩
  ⟨fun steps => shot_adam_same hp kind mask steps θ, fun steps => shot_sgd_same hp kind mask steps θ⟩

/-! ### Non-vacuity -/

/-- A step of Adam for the toy model with any data, in metres and in units of half a metre: both succeed with the same parameters. -/
example (kind : LossKind) (mask : Option (Fin 2 × Fin 2 → Bool)) (θ : BraggTheta 2 2 4 4 2 2 1 1) (hθ : θ.2.2.2.2 = fun _ _ => 1 / 2)
    (hp : AdamHyper) (p : Fin 2 × Fin 2 → ℝ) :
    ∃ θ', shotAdam braggCoords toyBraggOffsets.simulate kind mask [(hp, ⟨[(0, ![-1, -2, 0])], [p]⟩)] θ = some θ' ∧
      shotAdam braggCoords (toyBraggOffsets.inUnits 2).simulate kind mask [(hp, ⟨[(0, (2 : ℝ) • ![-1, -2, 0])], [p]⟩)] θ = some θ' := by
  have hrun : ∃ θ', shotAdam braggCoords toyBraggOffsets.simulate kind mask [(hp, ⟨[(0, ![-1, -2, 0])], [p]⟩)] θ = some θ' := by
    unfold shotAdam
    rw [List.map_cons, List.map_nil]
    unfold shotRun
    rw [if_pos fun e he => by rw [List.mem_singleton.1 he]; exact toyBragg_simulated θ hθ]
    exact ⟨_, rfl⟩
  obtain ⟨θ', hrun⟩ := hrun
  refine ⟨θ', hrun, ?_⟩
  have h1 := (bragg_reconstruction_units toyBraggOffsets 2 (by norm_num) kind mask θ).1 [(hp, ⟨[(0, ![-1, -2, 0])], [p]⟩)]
  rw [hrun] at h1
  exact h1

end Cdtools
