/- Property theorems C125: the order of the exposures does not matter to `FancyPtycho`. -/
import Verif.Props.Units
import Mathlib.Data.List.FinRange

set_option linter.unusedSectionVars false

namespace Cdtools
open Finset

variable {n m N k os : ℕ} [NeZero n] [NeZero m]

/-! ### Specification -/

/-- The same dataset with its exposures in another order: exposure `i` of the new dataset is exposure `σ i` of the old one. -/
def FancyData.reorder (D : FancyData n m N) (σ : Equiv.Perm (Fin N)) : FancyData n m N :=
  { D with
    patterns := fun i => D.patterns (σ i)
    translations := fun i => D.translations (σ i)
    intensities := D.intensities.map fun I i => I (σ i) }

/-- Weights in another order. -/
def Weights.reorder {N k : ℕ} (W : Weights N k) (σ : Equiv.Perm (Fin N)) : Weights N k :=
  match W with
  | .perShot w => .perShot fun i => w (σ i)
  | .matrices r V => .matrices r fun i => V (σ i)

/-- The same model with the parameters of its exposures in another order. -/
def Fancy.reorder {n m a b N k : ℕ} (M : Fancy n m a b N k) (σ : Equiv.Perm (Fin N)) : Fancy n m a b N k :=
  { M with
    weights := M.weights.reorder σ
    offsets := M.offsets.map fun o i => o (σ i)
    fourierShifts := M.fourierShifts.map fun f i => f (σ i) }

/-- The parameters of the exposures in another order. -/
def thetaReorder {n m H W h w N r k : ℕ} (σ : Equiv.Perm (Fin N)) (θ : FancyTheta n m H W h w N r k) : FancyTheta n m H W h w N r k :=
  (θ.1, θ.2.1, θ.2.2.1, fun i => θ.2.2.2.1 (σ i), fun i => θ.2.2.2.2.1 (σ i), fun i => θ.2.2.2.2.2.1 (σ i), fun i => θ.2.2.2.2.2.2 (σ i))

/-- A minibatch of the same exposures, named by their new numbers. -/
def batchReorder {P : Type} (σ : Equiv.Perm (Fin N)) (B : Minibatch (Fin N × (Fin 3 → ℝ)) P) : Minibatch (Fin N × (Fin 3 → ℝ)) P :=
  { B with inputs := B.inputs.map fun e => (σ.symm e.1, e.2) }

/-- Two minibatches with the same exposures and patterns, possibly in another order. -/
def SameBatch {I P : Type} (B B' : Minibatch I P) : Prop :=
  B.inputs.length = B.patterns.length ∧ B'.inputs.length = B'.patterns.length ∧ (B.patterns.zip B.inputs).Perm (B'.patterns.zip B'.inputs)

/-! ### Construction -/

theorem minList_le (a : ℝ) (l : List ℝ) : ∀ x ∈ a :: l, minList a l ≤ x := by
  unfold minList
  induction l generalizing a with
  | nil => simp
  | cons b t ih =>
    intro x hx
    rcases List.mem_cons.mp hx with rfl | hx
    · exact (ih (min x b) _ (List.mem_cons_self ..)).trans (min_le_left _ _)
    · rcases List.mem_cons.mp hx with rfl | hx
      · exact (ih (min a x) _ (List.mem_cons_self ..)).trans (min_le_right _ _)
      · exact ih (min a b) x (List.mem_cons_of_mem _ hx)

theorem minList_mem (a : ℝ) (l : List ℝ) : minList a l ∈ a :: l := by
  unfold minList
  induction l generalizing a with
  | nil => simp
  | cons b t ih =>
    rcases List.mem_cons.mp (ih (min a b)) with h | h
    · rw [List.foldl_cons, h]
      rcases min_choice a b with h' | h' <;> simp [h']
    · exact List.mem_cons_of_mem _ (List.mem_cons_of_mem _ h)

theorem le_maxList (a : ℝ) (l : List ℝ) : ∀ x ∈ a :: l, x ≤ maxList a l := by
  unfold maxList
  induction l generalizing a with
  | nil => simp
  | cons b t ih =>
    intro x hx
    rcases List.mem_cons.mp hx with rfl | hx
    · exact (le_max_left _ _).trans (ih (max x b) _ (List.mem_cons_self ..))
    · rcases List.mem_cons.mp hx with rfl | hx
      · exact (le_max_right _ _).trans (ih (max a x) _ (List.mem_cons_self ..))
      · exact ih (max a b) x (List.mem_cons_of_mem _ hx)

theorem maxList_mem (a : ℝ) (l : List ℝ) : maxList a l ∈ a :: l := by
  unfold maxList
  induction l generalizing a with
  | nil => simp
  | cons b t ih =>
    rcases List.mem_cons.mp (ih (max a b)) with h | h
    · rw [List.foldl_cons, h]
      rcases max_choice a b with h' | h' <;> simp [h']
    · exact List.mem_cons_of_mem _ (List.mem_cons_of_mem _ h)

theorem objectSetup_perm (p : ℕ) {a b : ℝ} {l l' : List ℝ} (h : (a :: l).Perm (b :: l')) (pad : ℤ) :
    objectSetup p a l pad = objectSetup p b l' pad := by
  have h1 : minList a l = minList b l' :=
    le_antisymm (minList_le _ _ _ (h.mem_iff.mpr (minList_mem _ _))) (minList_le _ _ _ (h.mem_iff.mp (minList_mem _ _)))
  have h2 : maxList a l = maxList b l' :=
    le_antisymm (le_maxList _ _ _ (h.mem_iff.mp (maxList_mem _ _))) (le_maxList _ _ _ (h.mem_iff.mpr (maxList_mem _ _)))
  unfold objectSetup
  rw [h1, h2]

theorem sharpIntensities_perm (mask : RealIm n m) {l l' : List (RealIm n m)} (h : l.Perm l') (bg : Option (RealIm n m)) :
    sharpIntensities mask l bg = sharpIntensities mask l' bg := by
  funext i j
  unfold sharpIntensities
  rw [(h.map fun p => mask i j * p i j).sum_eq, h.length_eq]

theorem start_reorder (D : FancyData n m N) (σ : Equiv.Perm (Fin N)) (O : FancyOpts) (os : ℕ) [NeZero os] [NeZero (os * n)] [NeZero (os * m)] :
    (D.reorder σ).start O os = D.start O os := by
  have h : ∀ bg, sharpIntensities D.mask (List.ofFn fun i => D.patterns (σ i)) bg = sharpIntensities D.mask (List.ofFn D.patterns) bg := fun bg =>
    sharpIntensities_perm _ (Equiv.Perm.ofFn_comp_perm σ D.patterns) bg
  unfold FancyData.start
  simp only [FancyData.reorder, sharpNearOversampled, sharpNearGuess, sharpProbePropagated, sharpProbe, h]

theorem initialWeights_reorder (σ : Equiv.Perm (Fin N)) (d : Option ℤ) (W : Weights N k) (h : initialWeights N k d = .ok W) :
    W.reorder σ = W := by
  unfold initialWeights at h
  cases d with
  | none => cases h; rfl
  | some d =>
    simp only at h
    split_ifs at h <;> cases h <;> rfl

theorem scaleWeights_reorder (σ : Equiv.Perm (Fin N)) (I : Option (Fin N → ℝ)) (W : Weights N k) :
    scaleWeights (I.map fun I i => I (σ i)) (W.reorder σ) = (scaleWeights I W).reorder σ := by
  cases I with
  | none => rfl
  | some I =>
    have hs : ∑ i, Real.sqrt (I (σ i)) = ∑ i, Real.sqrt (I i) := Equiv.sum_comp σ fun i => Real.sqrt (I i)
    cases W <;> simp only [Option.map_some, scaleWeights, Weights.reorder, hs]

/-- The same exposures in another order give the same model: the same probe, object, background, propagator and corner; weights, offsets and
Fourier shifts are those of the exposures they belong to. -/
theorem from_dataset_reorder (D : FancyData n m N) (O : FancyOpts) (σ : Equiv.Perm (Fin N)) (os : ℕ) [NeZero os] [NeZero (os * n)] [NeZero (os * m)]
    (c : ℕ) [NeZero (os * n - 2 * c)] [NeZero (os * m - 2 * c)] (rp : Fin k → Wave (os * n - 2 * c) (os * m - 2 * c)) (ro : ℕ → ℕ → ℝ) :
    fancyFromDataset (D.reorder σ) O os c k rp ro = (fancyFromDataset D O os c k rp ro).map fun M => M.reorder σ := by
  have hp : (List.ofFn (D.reorder σ).translations).Perm (List.ofFn D.translations) := Equiv.Perm.ofFn_comp_perm σ D.translations
  unfold fancyFromDataset
  rw [start_reorder D σ O, show (D.reorder σ).orientation = D.orientation from rfl, show (D.reorder σ).detBasis = D.detBasis from rfl]
  cases h1 : List.ofFn D.translations with
  | nil =>
    rw [h1, List.perm_nil] at hp
    rw [hp]
    cases D.start O os <;> cases datasetNormal O.scatteringMode D.orientation D.detBasis <;> cases initialWeights N (k + 1) O.dmRank <;> rfl
  | cons t0 rest =>
    cases h2 : List.ofFn (D.reorder σ).translations with
    | nil =>
      rw [h1, h2] at hp
      exact absurd hp.symm (by simp)
    | cons u0 urest =>
      rw [h1, h2] at hp
      cases D.start O os with
      | error e => rfl
      | ok S =>
        cases datasetNormal O.scatteringMode D.orientation D.detBasis with
        | error e => rfl
        | ok normal =>
          cases hW : initialWeights N (k + 1) O.dmRank with
          | error e => rfl
          | ok W =>
            have hs : ∀ q (c : Fin 2), objectSetup q (translationsToPixel S.objBasis normal u0 c)
                (urest.map fun t => translationsToPixel S.objBasis normal t c) O.padding =
                objectSetup q (translationsToPixel S.objBasis normal t0 c) (rest.map fun t => translationsToPixel S.objBasis normal t c) O.padding :=
              fun q c => objectSetup_perm q (hp.map fun t => translationsToPixel S.objBasis normal t c) _
            have hw : scaleWeights (D.reorder σ).intensities W = (scaleWeights D.intensities W).reorder σ := by
              rw [← scaleWeights_reorder, initialWeights_reorder σ _ W hW]
              rfl
            simp only [Except.map, hs, hw]
            unfold fancyInit
            cases O.allowFourierShifts <;> rfl

/-! ### Simulation -/

variable {a b H W h w r : ℕ} [NeZero a] [NeZero b]

/-- Exposure `i` of the new model is exposure `σ i` of the old one. -/
theorem forward_reorder (M : Fancy n m a b N k) (σ : Equiv.Perm (Fin N)) (idx : Fin N) (t : Fin 3 → ℝ) :
    (M.reorder σ).forward idx t = M.forward (σ idx) t := by
  have hc : ((M.reorder σ).simulateTranslation = true ∧ (M.reorder σ).fourierShifts = none) ↔ (M.simulateTranslation = true ∧ M.fourierShifts = none) := by
    simp [Fancy.reorder]
  unfold Fancy.forward
  by_cases h : M.simulateTranslation = true ∧ M.fourierShifts = none
  · rw [if_pos h, if_pos (hc.mpr h)]
  rw [if_neg h, if_neg fun h' => h (hc.mp h')]
  clear hc h
  obtain ⟨probe, probeNorm, support, weights, fourierProbe, obj, exponentiate, phaseOnly, nearField, propagator, objBasis, detBasis, normal,
    minTranslation, translationScale, offsets, fourierShifts, simulateTranslation, oversampling, background, qe, saturation⟩ := M
  cases weights <;> cases offsets <;> cases fourierShifts <;> rfl

/-- All exposures of a new model are simulated as before. -/
theorem fresh_simulation_reorder (D : FancyData n m N) (O : FancyOpts) (σ : Equiv.Perm (Fin N)) (os : ℕ) [NeZero os] [NeZero (os * n)]
    [NeZero (os * m)] (c : ℕ) [NeZero (os * n - 2 * c)] [NeZero (os * m - 2 * c)] (rp : Fin k → Wave (os * n - 2 * c) (os * m - 2 * c))
    (ro : ℕ → ℕ → ℝ) (M : Fancy (os * n - 2 * c) (os * m - 2 * c) (os * n) (os * m) N (k + 1))
    (hM : fancyFromDataset D O os c k rp ro = .ok M) :
    ∃ M', fancyFromDataset (D.reorder σ) O os c k rp ro = .ok M' ∧ M'.probe = M.probe ∧ M'.obj = M.obj ∧ M'.background = M.background ∧
      M'.minTranslation = M.minTranslation ∧
      ∀ i, M'.forward i ((D.reorder σ).translations i) = M.forward (σ i) (D.translations (σ i)) := by
  refine ⟨M.reorder σ, by rw [from_dataset_reorder, hM]; rfl, rfl, rfl, rfl, rfl, fun i => forward_reorder M σ i _⟩

theorem corrected_translations_reorder (M : Fancy n m a b N k) (σ : Equiv.Perm (Fin N)) (idx : Fin N) (t : Fin 3 → ℝ) :
    (M.reorder σ).correctedTranslation idx t = M.correctedTranslation (σ idx) t := by
  unfold Fancy.correctedTranslation Fancy.reorder
  cases M.offsets <;> rfl

/-! ### Reconstruction -/

theorem withTheta_reorder (M : Fancy n m a b N k) (σ : Equiv.Perm (Fin N)) (θ : FancyTheta n m H W h w N r k) :
    (M.reorder σ).withTheta (thetaReorder σ θ) = (M.withTheta θ).reorder σ := by
  obtain ⟨probe, probeNorm, support, weights, fourierProbe, obj, exponentiate, phaseOnly, nearField, propagator, objBasis, detBasis, normal,
    minTranslation, translationScale, offsets, fourierShifts, simulateTranslation, oversampling, background, qe, saturation⟩ := M
  cases weights <;> cases offsets <;> cases fourierShifts <;> rfl

theorem shotPixels_reorder (M : Fancy n m a b N k) (σ : Equiv.Perm (Fin N)) (e : Fin N × (Fin 3 → ℝ)) :
    (M.reorder σ).shotPixels h w (σ.symm e.1, e.2) = M.shotPixels h w e := by
  unfold Fancy.shotPixels
  rw [forward_reorder, Equiv.apply_symm_apply]

theorem fancyTotal_reorder (M : Fancy n m a b N k) (kind : LossKind) (mask : Option (Fin h × Fin w → Bool)) (σ : Equiv.Perm (Fin N))
    (B : Minibatch (Fin N × (Fin 3 → ℝ)) (Fin h × Fin w → ℝ)) (θ : FancyTheta n m H W h w N r k) :
    fancyTotal (M.reorder σ) kind mask (batchReorder σ B) (thetaReorder σ θ) = fancyTotal M kind mask B θ := by
  unfold fancyTotal
  simp only [batchReorder, List.map_map, Function.comp_def, withTheta_reorder, shotPixels_reorder]

/-- The old number of a coordinate. -/
def coordReorder (σ : Equiv.Perm (Fin N)) : FancyCoord n m H W h w N r k ≃ FancyCoord n m H W h w N r k :=
  Equiv.sumCongr (Equiv.refl _) (Equiv.sumCongr (Equiv.refl _) (Equiv.sumCongr (Equiv.refl _) (Equiv.sumCongr σ
    (Equiv.sumCongr (Equiv.prodCongr σ (Equiv.refl _)) (Equiv.sumCongr (Equiv.prodCongr σ (Equiv.refl _)) (Equiv.prodCongr σ (Equiv.refl _)))))))

theorem fancyRead_reorder (σ : Equiv.Perm (Fin N)) (θ : FancyTheta n m H W h w N r k) :
    fancyRead (thetaReorder σ θ) = fancyRead θ ∘ coordReorder σ := by
  funext c
  rcases c with ⟨j, x, y, im⟩ | ⟨i, j, im⟩ | ⟨i, j⟩ | i | ⟨i, q, j, im⟩ | ⟨i, c⟩ | ⟨i, c⟩ <;> rfl

theorem fancyWrite_reorder (σ : Equiv.Perm (Fin N)) (v : FancyCoord n m H W h w N r k → ℝ) :
    fancyWrite (v ∘ coordReorder σ) = thetaReorder σ (fancyWrite v) := rfl

theorem fancyGroup_reorder (σ : Equiv.Perm (Fin N)) (c : FancyCoord n m H W h w N r k) : fancyGroup (coordReorder σ c) = fancyGroup c := by
  rcases c with ⟨j, x, y, im⟩ | ⟨i, j, im⟩ | ⟨i, j⟩ | i | ⟨i, q, j, im⟩ | ⟨i, c⟩ | ⟨i, c⟩ <;> rfl

theorem gradOf_reindex {ι : Type} [Fintype ι] [DecidableEq ι] (e : ι ≃ ι) (L L' : (ι → ℝ) → ℝ) (hL : ∀ v, L' (v ∘ e) = L v) (v : ι → ℝ) :
    gradOf L' (v ∘ e) = gradOf L v ∘ e := by
  funext i
  unfold gradOf
  have : ∀ x, L' (Function.update (v ∘ e) i x) = L (Function.update v (e i) x) := fun x => by
    rw [← hL, Function.update_comp_equiv, Equiv.symm_apply_apply]
  simp only [this, Function.comp_apply]

/-- A run in another numbering of the exposures, for steps of an optimizer that do not depend on the numbering. -/
theorem fancyRun_reorder {τ : Type} (M : Fancy n m a b N k) (kind : LossKind) (mask : Option (Fin h × Fin w → Bool)) (σ : Equiv.Perm (Fin N))
    (E : τ → τ)
    (steps : List (OptStep τ (FancyCoord n m H W h w N r k) × Minibatch (Fin N × (Fin 3 → ℝ)) (Fin h × Fin w → ℝ)))
    (hE : ∀ x ∈ steps, ∀ g s v, x.1 (g ∘ coordReorder σ) (E s, v ∘ coordReorder σ) =
      (E (x.1 g (s, v)).1, (x.1 g (s, v)).2 ∘ coordReorder σ)) (s : τ) (θ : FancyTheta n m H W h w N r k) :
    fancyRun (M.reorder σ) kind mask (steps.map fun x => (x.1, batchReorder σ x.2)) (E s, thetaReorder σ θ) =
      (fancyRun M kind mask steps (s, θ)).map fun u => (E u.1, thetaReorder σ u.2) := by
  induction steps generalizing s θ with
  | nil => rfl
  | cons x rest ih =>
    obtain ⟨step, B⟩ := x
    have hg : gradOf (fun v => fancyTotal (M.reorder σ) kind mask (batchReorder σ B) (fancyWrite v)) (fancyRead (thetaReorder σ θ)) =
        gradOf (fun v => fancyTotal M kind mask B (fancyWrite v)) (fancyRead θ) ∘ coordReorder σ := by
      rw [fancyRead_reorder]
      exact gradOf_reindex _ _ _ (fun v => by rw [fancyWrite_reorder, fancyTotal_reorder]) _
    have hc : (∀ e ∈ (batchReorder σ B).inputs, (((M.reorder σ).withTheta (thetaReorder σ θ)).shotPixels h w e).isSome) ↔
        ∀ e ∈ B.inputs, ((M.withTheta θ).shotPixels h w e).isSome := by
      simp only [batchReorder, List.forall_mem_map, withTheta_reorder, shotPixels_reorder]
    simp only [List.map_cons, fancyRun, hg]
    by_cases hB : ∀ e ∈ B.inputs, ((M.withTheta θ).shotPixels h w e).isSome
    · rw [if_pos hB, if_pos (hc.mpr hB), fancyRead_reorder, show step _ _ = _ from hE _ (List.mem_cons_self ..) _ _ _]
      simp only [fancyWrite_reorder]
      exact ih (fun x hx => hE x (List.mem_cons_of_mem _ hx)) _ _
    · rw [if_neg hB, if_neg fun h => hB (hc.mp h)]
      rfl

/-- Reconstruction with Adam: the same result in every numbering of the exposures. -/
theorem adam_reorder (M : Fancy n m a b N k) (kind : LossKind) (mask : Option (Fin h × Fin w → Bool)) (σ : Equiv.Perm (Fin N))
    (steps : List (AdamHyper × Minibatch (Fin N × (Fin 3 → ℝ)) (Fin h × Fin w → ℝ))) (θ : FancyTheta n m H W h w N r k) :
    fancyAdam (M.reorder σ) kind mask (steps.map fun x => (x.1, batchReorder σ x.2)) (thetaReorder σ θ) =
      (fancyAdam M kind mask steps θ).map (thetaReorder σ) := by
  have := fancyRun_reorder M kind mask σ (fun s : AdamMemory _ => ⟨s.step, s.avg ∘ coordReorder σ, s.avgSq ∘ coordReorder σ, s.maxSq ∘ coordReorder σ⟩)
    (steps.map fun x => (adamUpdate x.1 fancyGroup, x.2)) (by
      intro x hx g s v
      obtain ⟨y, -, rfl⟩ := List.mem_map.mp hx
      simp only [adamUpdate, Function.comp_def, fancyGroup_reorder]) AdamMemory.start θ
  unfold fancyAdam
  rw [List.map_map] at this ⊢
  refine (congrArg (Option.map Prod.snd) this).trans ?_
  rw [Option.map_map, Option.map_map]
  rfl

/-- Reconstruction with SGD: the same result in every numbering of the exposures. -/
theorem sgd_reorder (M : Fancy n m a b N k) (kind : LossKind) (mask : Option (Fin h × Fin w → Bool)) (σ : Equiv.Perm (Fin N))
    (steps : List (SgdHyper × Minibatch (Fin N × (Fin 3 → ℝ)) (Fin h × Fin w → ℝ))) (θ : FancyTheta n m H W h w N r k) :
    fancySgd (M.reorder σ) kind mask (steps.map fun x => (x.1, batchReorder σ x.2)) (thetaReorder σ θ) =
      (fancySgd M kind mask steps θ).map (thetaReorder σ) := by
  have := fancyRun_reorder M kind mask σ (fun s : Option _ => s.map fun b => b ∘ coordReorder σ)
    (steps.map fun x => (sgdUpdate x.1 fancyGroup, x.2)) (by
      intro x hx g s v
      obtain ⟨y, -, rfl⟩ := List.mem_map.mp hx
      unfold sgdUpdate
      by_cases h0 : y.1.momentum = 0
      · simp only [h0, if_true, Function.comp_def, fancyGroup_reorder]
      · cases s <;> cases y.1.nesterov <;>
          simp only [h0, if_false, if_true, Bool.false_eq_true, Function.comp_def, fancyGroup_reorder, sgdBuffer, Option.map_none, Option.map_some]) none θ
  unfold fancySgd
  rw [List.map_map] at this ⊢
  refine (congrArg (Option.map Prod.snd) this).trans ?_
  rw [Option.map_map, Option.map_map]
  rfl

/-! ### Order inside a minibatch -/

theorem chunk_perm (kind : LossKind) (mask : Option (Fin h × Fin w → Bool)) {l l' : List ((Fin h × Fin w → ℝ) × (Fin h × Fin w → ℝ))} (hl : l.Perm l') :
    kind.chunk mask l = kind.chunk mask l' := by
  have hb : ∀ f : ℝ → ℝ → ℝ, batchSum mask f l = batchSum mask f l' := fun f => by
    unfold batchSum
    exact (hl.map _).sum_eq
  cases kind <;> simp only [LossKind.chunk, amplitudeMse, intensityMse, poissonNll, hb, if_true]

theorem zip_map_snd {α β γ : Type} (f : β → γ) (l : List α) (l' : List β) : l.zip (l'.map f) = (l.zip l').map fun x => (x.1, f x.2) := by
  rw [List.zip_map_right]
  rfl

/-- The loss of a minibatch does not depend on the order of its exposures. -/
theorem fancyTotal_order (M : Fancy n m a b N k) (kind : LossKind) (mask : Option (Fin h × Fin w → Bool))
    {B B' : Minibatch (Fin N × (Fin 3 → ℝ)) (Fin h × Fin w → ℝ)} (hB : SameBatch B B') (θ : FancyTheta n m H W h w N r k) :
    fancyTotal M kind mask B θ = fancyTotal M kind mask B' θ := by
  unfold fancyTotal
  rw [zip_map_snd, zip_map_snd]
  exact chunk_perm kind mask (hB.2.2.map _)

theorem sameBatch_mem {I P : Type} {B B' : Minibatch I P} (hB : SameBatch B B') (e : I) : e ∈ B.inputs ↔ e ∈ B'.inputs := by
  have h : ∀ C : Minibatch I P, C.inputs.length = C.patterns.length → C.inputs = (C.patterns.zip C.inputs).map Prod.snd := fun C hC =>
    (List.map_snd_zip hC.le).symm
  rw [h B hB.1, h B' hB.2.1]
  exact (hB.2.2.map _).mem_iff

/-- A reconstruction does not depend on the order of the exposures in its minibatches. -/
theorem fancyRun_order {τ : Type} (M : Fancy n m a b N k) (kind : LossKind) (mask : Option (Fin h × Fin w → Bool))
    {steps steps' : List (OptStep τ (FancyCoord n m H W h w N r k) × Minibatch (Fin N × (Fin 3 → ℝ)) (Fin h × Fin w → ℝ))}
    (hs : List.Forall₂ (fun x y => x.1 = y.1 ∧ SameBatch x.2 y.2) steps steps') (st : τ × FancyTheta n m H W h w N r k) :
    fancyRun M kind mask steps st = fancyRun M kind mask steps' st := by
  induction hs generalizing st with
  | nil => rfl
  | @cons x y l l' hxy _ ih =>
    obtain ⟨step, B⟩ := x
    obtain ⟨step', B'⟩ := y
    obtain ⟨h1, hB⟩ := hxy
    obtain rfl : step = step' := h1
    have ht : (fun v => fancyTotal M kind mask B (fancyWrite v)) = fun v : FancyCoord n m H W h w N r k → ℝ => fancyTotal M kind mask B' (fancyWrite v) :=
      funext fun v => fancyTotal_order M kind mask hB _
    simp only [fancyRun, ht, ih]
    exact if_congr (forall_congr' fun e => imp_congr_left (sameBatch_mem hB e)) rfl rfl

/-- The minibatch of all exposures in the order of the dataset, `t.utils.data.DataLoader` with `batch_size=len(dataset)`. -/
def fullBatch {P : Type} (ts : Fin N → Fin 3 → ℝ) (ps : Fin N → P) : Minibatch (Fin N × (Fin 3 → ℝ)) P :=
  ⟨List.ofFn fun i => (i, ts i), List.ofFn ps⟩

theorem fullBatch_zip {P : Type} (f : Fin N → P) (g : Fin N → Fin N × (Fin 3 → ℝ)) : (List.ofFn f).zip (List.ofFn g) = List.ofFn fun i => (f i, g i) := by
  refine List.ext_getElem (by simp) fun i h1 h2 => ?_
  simp

theorem fullBatch_reorder {P : Type} (σ : Equiv.Perm (Fin N)) (ts : Fin N → Fin 3 → ℝ) (ps : Fin N → P) :
    SameBatch (fullBatch (fun i => ts (σ i)) fun i => ps (σ i)) (batchReorder σ (fullBatch ts ps)) := by
  refine ⟨by simp [fullBatch], by simp [fullBatch, batchReorder], ?_⟩
  simp only [fullBatch, batchReorder, List.map_ofFn, Function.comp_def, fullBatch_zip]
  have := Equiv.Perm.ofFn_comp_perm σ fun i => (ps i, (σ.symm i, ts i))
  simpa [Function.comp_def] using this

/-- Training on all exposures at once gives the same result for the same dataset stored in another order. -/
theorem full_batch_reorder (M : Fancy n m a b N k) (kind : LossKind) (mask : Option (Fin h × Fin w → Bool)) (σ : Equiv.Perm (Fin N))
    (hps : List AdamHyper) (ts : Fin N → Fin 3 → ℝ) (ps : Fin N → Fin h × Fin w → ℝ) (θ : FancyTheta n m H W h w N r k) :
    fancyAdam (M.reorder σ) kind mask (hps.map fun hp => (hp, fullBatch (fun i => ts (σ i)) fun i => ps (σ i))) (thetaReorder σ θ) =
      (fancyAdam M kind mask (hps.map fun hp => (hp, fullBatch ts ps)) θ).map (thetaReorder σ) := by
  rw [← adam_reorder]
  unfold fancyAdam
  congr 1
  refine fancyRun_order _ kind mask ?_ _
  simp only [List.map_map]
  induction hps with
  | nil => exact .nil
  | cons hp rest ih => exact .cons ⟨rfl, fullBatch_reorder σ ts ps⟩ ih

/-! ### A concrete case -/

/-- The two exposures of a dataset exchanged. -/
example (rp : Fin 1 → Wave (1 * 4 - 2 * 1) (1 * 4 - 2 * 1)) (ro : ℕ → ℕ → ℝ) :
    ∃ M M', fancyFromDataset toyFancyData {} 1 1 1 rp ro = .ok M ∧
      fancyFromDataset (toyFancyData.reorder (Equiv.swap 0 1)) {} 1 1 1 rp ro = .ok M' ∧
      M'.forward 0 (toyFancyData.translations 1) = M.forward 1 (toyFancyData.translations 1) ∧
      toyFancyData.translations 0 ≠ toyFancyData.translations 1 := by
  have hM : ∃ M, fancyFromDataset toyFancyData {} 1 1 1 rp ro = .ok M := by
    unfold fancyFromDataset
    simp [FancyData.start, datasetNormal, initialWeights, fancyInit, toyFancyData]
  obtain ⟨M, hM⟩ := hM
  refine ⟨M, M.reorder (Equiv.swap 0 1), hM, ?_, ?_, ?_⟩
  · rw [from_dataset_reorder, hM]
    rfl
  · rw [forward_reorder, Equiv.swap_apply_left]
  · intro h
    have := congrFun h 0
    have := congrFun h 1
    simp [toyFancyData] at *

end Cdtools
