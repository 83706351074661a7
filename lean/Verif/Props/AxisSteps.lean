/- Property theorems C133 (reconstructions): the two axes of the detector are treated alike. -/
import Verif.Props.AxisSwap

set_option linter.unusedSectionVars false

namespace Cdtools
open Finset

variable {n m a b H W h w N r k : ℕ} [NeZero n] [NeZero m] [NeZero a] [NeZero b]

/-! ### Specification -/

/-- A pattern, or a mask, with its axes exchanged. -/
def swapPattern {α : Type} (I : Fin h × Fin w → α) : Fin w × Fin h → α := fun p => I p.swap

/-- A minibatch with the axes of its patterns exchanged. -/
def Minibatch.swapAxes {I : Type} (B : Minibatch I (Fin h × Fin w → ℝ)) : Minibatch I (Fin w × Fin h → ℝ) :=
  ⟨B.inputs, B.patterns.map swapPattern⟩

/-- The steps of a reconstruction with the axes of all patterns exchanged. -/
def swapSteps {χ I : Type} (steps : List (χ × Minibatch I (Fin h × Fin w → ℝ))) : List (χ × Minibatch I (Fin w × Fin h → ℝ)) :=
  steps.map fun x => (x.1, x.2.swapAxes)

/-- The parameters of `FancyPtycho` with the axes of probe, object and background and the components of offsets and Fourier shifts exchanged. -/
def fancyThetaSwap (θ : FancyTheta n m H W h w N r k) : FancyTheta m n W H w h N r k :=
  (fun j => swapWave (θ.1 j), fun i j => θ.2.1 j i, fun i j => θ.2.2.1 j i, θ.2.2.2.1, θ.2.2.2.2.1, fun i => swapPix (θ.2.2.2.2.2.1 i),
    fun i => swapPix (θ.2.2.2.2.2.2 i))

/-! ### Losses -/

theorem batchSum_swap (mask : Option (Fin h × Fin w → Bool)) (f : ℝ → ℝ → ℝ) (B : List ((Fin h × Fin w → ℝ) × (Fin h × Fin w → ℝ))) :
    batchSum (mask.map swapPattern) f (B.map fun x => (swapPattern x.1, swapPattern x.2)) = batchSum mask f B := by
  unfold batchSum
  rw [List.map_map]
  congr 1
  refine List.map_congr_left fun x _ => ?_
  refine Finset.sum_equiv (Equiv.prodComm _ _) (fun p => ?_) fun p _ => rfl
  cases mask with
  | none => simp [selectedPixels]
  | some m =>
    have h1 : p ∈ selectedPixels (some (swapPattern m)) ↔ m p.swap = true := Finset.mem_filter.trans (and_iff_right (mem_univ _))
    have h2 : p.swap ∈ selectedPixels (some m) ↔ m p.swap = true := Finset.mem_filter.trans (and_iff_right (mem_univ _))
    exact h1.trans h2.symm

theorem chunk_swap (kind : LossKind) (mask : Option (Fin h × Fin w → Bool)) (B : List ((Fin h × Fin w → ℝ) × (Fin h × Fin w → ℝ))) :
    kind.chunk (mask.map swapPattern) (B.map fun x => (swapPattern x.1, swapPattern x.2)) = kind.chunk mask B := by
  cases kind <;> simp [LossKind.chunk, amplitudeMse, intensityMse, poissonNll, batchSum_swap]

/-! ### Steps -/

theorem gradOf_renumber2 {ι κ : Type} [DecidableEq ι] [DecidableEq κ] (e : κ ≃ ι) (L : (ι → ℝ) → ℝ) (L' : (κ → ℝ) → ℝ)
    (hL : ∀ v, L' (v ∘ e) = L v) (v : ι → ℝ) : gradOf L' (v ∘ e) = gradOf L v ∘ e := by
  funext i
  unfold gradOf
  have : ∀ x, L' (Function.update (v ∘ e) i x) = L (Function.update v (e i) x) := fun x => by
    rw [← hL, Function.update_comp_equiv, Equiv.symm_apply_apply]
  simp only [this, Function.comp_apply]

section General
variable {Θ Θ' I ι κ ε ε' : Type} [DecidableEq ι] [DecidableEq κ]

/-- The same physics with the axes exchanged: `P` translates the parameters, whose coordinates are those that `p` says. -/
structure SwappedPhysics (K : Coords Θ ι) (K' : Coords Θ' κ) (h w : ℕ) (sim : Θ → I → Except ε (Img ℝ)) (sim' : Θ' → I → Except ε' (Img ℝ))
    (P : Θ → Θ') (p : κ ≃ ι) : Prop where
  pixels : ∀ θ e, simPixels w h (sim' (P θ) e) = (simPixels h w (sim θ e)).map swapPattern
  read : ∀ θ, K'.read (P θ) = K.read θ ∘ p
  group : ∀ c, K'.group c = K.group (p c)

variable {K : Coords Θ ι} {K' : Coords Θ' κ} {sim : Θ → I → Except ε (Img ℝ)} {sim' : Θ' → I → Except ε' (Img ℝ)} {P : Θ → Θ'} {p : κ ≃ ι}

theorem SwappedPhysics.write (hp : SwappedPhysics K K' h w sim sim' P p) (v : ι → ℝ) : K'.write (v ∘ p) = P (K.write v) := by
  have h1 := hp.read (K.write v)
  rw [K.read_write] at h1
  rw [← h1, K'.write_read]

theorem SwappedPhysics.total (hp : SwappedPhysics K K' h w sim sim' P p) (kind : LossKind) (mask : Option (Fin h × Fin w → Bool))
    (B : Minibatch I (Fin h × Fin w → ℝ)) (θ : Θ) :
    shotTotal sim' kind (mask.map swapPattern) B.swapAxes (P θ) = shotTotal sim kind mask B θ := by
  unfold shotTotal
  rw [← chunk_swap kind mask]
  refine congrArg (kind.chunk (mask.map swapPattern)) ?_
  rw [show (B.patterns.zip (B.inputs.map fun e => (simPixels h w (sim θ e)).getD 0)).map (fun x => (swapPattern x.1, swapPattern x.2)) =
    (B.patterns.map swapPattern).zip ((B.inputs.map fun e => (simPixels h w (sim θ e)).getD 0).map swapPattern) from by
      rw [List.zip_map]
      rfl, List.map_map]
  refine congrArg _ (List.map_congr_left fun e _ => ?_)
  rw [hp.pixels, Function.comp_apply]
  cases simPixels h w (sim θ e) <;> rfl

theorem SwappedPhysics.run {τ τ' : Type} (hp : SwappedPhysics K K' h w sim sim' P p) (kind : LossKind) (mask : Option (Fin h × Fin w → Bool))
    (E : τ → τ') (steps : List ((OptStep τ ι × OptStep τ' κ) × Minibatch I (Fin h × Fin w → ℝ)))
    (hE : ∀ x ∈ steps, ∀ g s v, x.1.2 (g ∘ p) (E s, v ∘ p) = (E (x.1.1 g (s, v)).1, (x.1.1 g (s, v)).2 ∘ p)) (s : τ) (θ : Θ) :
    shotRun K' sim' kind (mask.map swapPattern) (steps.map fun x => (x.1.2, x.2.swapAxes)) (E s, P θ) =
      (shotRun K sim kind mask (steps.map fun x => (x.1.1, x.2)) (s, θ)).map fun u => (E u.1, P u.2) := by
  induction steps generalizing s θ with
  | nil => rfl
  | cons x rest ih =>
    obtain ⟨⟨step, step'⟩, B⟩ := x
    have hg : gradOf (fun v => shotTotal sim' kind (mask.map swapPattern) B.swapAxes (K'.write v)) (K'.read (P θ)) =
        gradOf (fun v => shotTotal sim kind mask B (K.write v)) (K.read θ) ∘ p := by
      rw [hp.read]
      exact gradOf_renumber2 p (fun v => shotTotal sim kind mask B (K.write v)) _ (fun v => by rw [hp.write, hp.total]) _
    have hc : (∀ e ∈ B.swapAxes.inputs, (simPixels w h (sim' (P θ) e)).isSome) ↔ ∀ e ∈ B.inputs, (simPixels h w (sim θ e)).isSome := by
      simp only [Minibatch.swapAxes, hp.pixels, Option.isSome_map]
    simp only [List.map_cons, shotRun, hg]
    by_cases hB : ∀ e ∈ B.inputs, (simPixels h w (sim θ e)).isSome
    · rw [if_pos hB, if_pos (hc.mpr hB), hp.read, show step' _ _ = _ from hE _ (List.mem_cons_self ..) _ _ _]
      simp only [hp.write]
      exact ih (fun x hx => hE x (List.mem_cons_of_mem _ hx)) _ _
    · rw [if_neg hB, if_neg fun h => hB (hc.mp h)]
      rfl

theorem SwappedPhysics.adam (hp : SwappedPhysics K K' h w sim sim' P p) (kind : LossKind) (mask : Option (Fin h × Fin w → Bool))
    (steps : List (AdamHyper × Minibatch I (Fin h × Fin w → ℝ))) (θ : Θ) :
    shotAdam K' sim' kind (mask.map swapPattern) (swapSteps steps) (P θ) = (shotAdam K sim kind mask steps θ).map P := by
  have := hp.run kind mask (fun s : AdamMemory _ => (⟨s.step, s.avg ∘ p, s.avgSq ∘ p, s.maxSq ∘ p⟩ : AdamMemory _))
    (steps.map fun x => ((adamUpdate x.1 K.group, adamUpdate x.1 K'.group), x.2)) (by
      intro x hx g s v
      obtain ⟨y, -, rfl⟩ := List.mem_map.mp hx
      simp only [adamUpdate, Function.comp_def, hp.group]) AdamMemory.start θ
  unfold shotAdam swapSteps
  simp only [List.map_map, Function.comp_def] at this ⊢
  refine (congrArg (Option.map Prod.snd) this).trans ?_
  rw [Option.map_map, Option.map_map]
  rfl

theorem SwappedPhysics.sgd (hp : SwappedPhysics K K' h w sim sim' P p) (kind : LossKind) (mask : Option (Fin h × Fin w → Bool))
    (steps : List (SgdHyper × Minibatch I (Fin h × Fin w → ℝ))) (θ : Θ) :
    shotSgd K' sim' kind (mask.map swapPattern) (swapSteps steps) (P θ) = (shotSgd K sim kind mask steps θ).map P := by
  have := hp.run kind mask (fun s : Option _ => s.map fun b => b ∘ p)
    (steps.map fun x => ((sgdUpdate x.1 K.group, sgdUpdate x.1 K'.group), x.2)) (by
      intro x hx g s v
      obtain ⟨y, -, rfl⟩ := List.mem_map.mp hx
      unfold sgdUpdate
      by_cases h0 : y.1.momentum = 0
      · simp only [h0, if_true, Function.comp_def, hp.group]
      · cases s <;> cases y.1.nesterov <;>
          simp only [h0, if_false, if_true, Bool.false_eq_true, Function.comp_def, hp.group, sgdBuffer, Option.map_none, Option.map_some]) none θ
  unfold shotSgd swapSteps
  simp only [List.map_map, Function.comp_def] at this ⊢
  refine (congrArg (Option.map Prod.snd) this).trans ?_
  rw [Option.map_map, Option.map_map]
  rfl

end General

/-! ### FancyPtycho -/

theorem imgOf_swap {α : Type} [Zero α] (f : Fin H → Fin W → α) : imgOf (fun i j => f j i) = (imgOf f).swapAxes := by
  unfold imgOf Img.swapAxes
  simp only [Img.mk.injEq, true_and]
  funext i j
  by_cases hij : i < W ∧ j < H
  · rw [dif_pos hij, dif_pos hij.symm]
  · rw [dif_neg hij, dif_neg fun h' => hij h'.symm]

theorem withTheta_swap (M : Fancy n m a b N k) (θ : FancyTheta n m H W h w N r k) :
    M.swapAxes.withTheta (fancyThetaSwap θ) = (M.withTheta θ).swapAxes := by
  unfold Fancy.withTheta Fancy.swapAxes fancyThetaSwap
  simp only [imgOf_swap, Option.map_map]
  rfl

theorem simPixels_swap {ε : Type} (Q : Except ε (Img ℝ)) : simPixels w h (Q.map Img.swapAxes) = (simPixels h w Q).map swapPattern := by
  cases Q with
  | error e => rfl
  | ok Q =>
    unfold simPixels Img.swapAxes
    simp only [Except.map]
    by_cases hQ : Q.h = h ∧ Q.w = w
    · rw [if_pos hQ, if_pos hQ.symm]
      rfl
    · rw [if_neg hQ, if_neg fun h' => hQ h'.symm]
      rfl

/-- Where a coordinate of the parameters was before the axes were exchanged. -/
def fancyOldAxes : FancyCoord m n W H w h N r k ≃ FancyCoord n m H W h w N r k :=
  Equiv.sumCongr (Equiv.prodCongr (Equiv.refl _) ((Equiv.prodAssoc _ _ _).symm.trans ((Equiv.prodCongr (Equiv.prodComm _ _) (Equiv.refl _)).trans
      (Equiv.prodAssoc _ _ _))))
    (Equiv.sumCongr ((Equiv.prodAssoc _ _ _).symm.trans ((Equiv.prodCongr (Equiv.prodComm _ _) (Equiv.refl _)).trans (Equiv.prodAssoc _ _ _)))
      (Equiv.sumCongr (Equiv.prodComm _ _) (Equiv.sumCongr (Equiv.refl _) (Equiv.sumCongr (Equiv.refl _)
        (Equiv.sumCongr (Equiv.prodCongr (Equiv.refl _) (Equiv.swap 0 1)) (Equiv.prodCongr (Equiv.refl _) (Equiv.swap 0 1)))))))

/-- **C133** (FancyPtycho, reconstructions): from data and parameters with their axes exchanged every reconstruction with Adam or SGD gives the
parameters with their axes exchanged, or fails in both cases. -/
theorem reconstruction_axes (M : Fancy n m a b N k) (kind : LossKind) (mask : Option (Fin h × Fin w → Bool))
    (θ : FancyTheta n m H W h w N r k) :
    (∀ steps : List (AdamHyper × Minibatch (Fin N × (Fin 3 → ℝ)) (Fin h × Fin w → ℝ)),
      fancyAdam M.swapAxes kind (mask.map swapPattern) (swapSteps steps) (fancyThetaSwap θ) =
        (fancyAdam M kind mask steps θ).map fancyThetaSwap) ∧
    ∀ steps : List (SgdHyper × Minibatch (Fin N × (Fin 3 → ℝ)) (Fin h × Fin w → ℝ)),
      fancySgd M.swapAxes kind (mask.map swapPattern) (swapSteps steps) (fancyThetaSwap θ) =
        (fancySgd M kind mask steps θ).map fancyThetaSwap := by
  have hp : SwappedPhysics fancyCoords fancyCoords h w M.simulate M.swapAxes.simulate
      (fancyThetaSwap (n := n) (m := m) (H := H) (W := W) (h := h) (w := w) (r := r) (k := k)) fancyOldAxes :=
    ⟨fun θ e => by
        unfold Fancy.simulate
        rw [withTheta_swap, forward_axes, simPixels_swap],
      fun θ => by
        funext c
        rcases c with ⟨j, x, y, im⟩ | ⟨i, j, im⟩ | ⟨i, j⟩ | i | ⟨i, q, j, im⟩ | ⟨i, c⟩ | ⟨i, c⟩ <;> rfl,
      fun c => by rcases c with ⟨j, x, y, im⟩ | ⟨i, j, im⟩ | ⟨i, j⟩ | i | ⟨i, q, j, im⟩ | ⟨i, c⟩ | ⟨i, c⟩ <;> rfl⟩
  constructor
  · intro steps
    have h1 := hp.adam kind mask steps θ
    unfold fancyAdam
    rw [fancyRun_eq, fancyRun_eq]
    exact h1
  · intro steps
    have h1 := hp.sgd kind mask steps θ
    unfold fancySgd
    rw [fancyRun_eq, fancyRun_eq]
    exact h1

end Cdtools
