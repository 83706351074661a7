/- Property theorems C126: the order of the exposures and `Bragg2DPtycho`, `MultislicePtycho`. -/
import Verif.Props.Order
import Verif.Props.FrameOthers

set_option linter.unusedSectionVars false

namespace Cdtools
open Finset

variable {n m N k os : ℕ} [NeZero n] [NeZero m]

/-! ### Specification -/

/-- The same `Bragg2DPtycho` model with the parameters of its exposures in another order. -/
def Bragg.reorder {n m a b N k : ℕ} (M : Bragg n m a b N k) (σ : Equiv.Perm (Fin N)) : Bragg n m a b N k :=
  { M with weights := M.weights.map fun w i => w (σ i), offsets := M.offsets.map fun o i => o (σ i) }

/-- The same `MultislicePtycho` model with the parameters of its exposures in another order. -/
def Multislice.reorder {n m a b N k : ℕ} (M : Multislice n m a b N k) (σ : Equiv.Perm (Fin N)) : Multislice n m a b N k :=
  { M with weights := M.weights.map fun W => W.reorder σ, offsets := M.offsets.map fun o i => o (σ i) }

/-! ### Bragg2DPtycho -/

theorem mergeSort_perm {l l' : List ℝ} (h : l.Perm l') :
    l.mergeSort (fun x y => decide (x ≤ y)) = l'.mergeSort (fun x y => decide (x ≤ y)) := by
  refine List.Perm.eq_of_pairwise (le := fun x y : ℝ => x ≤ y) (fun a b _ _ => le_antisymm) ?_ ?_
    ((List.mergeSort_perm l _).trans (h.trans (List.mergeSort_perm l' _).symm))
  · simpa using List.pairwise_mergeSort (le := fun x y : ℝ => decide (x ≤ y)) (by simpa using fun a b c : ℝ => le_trans) (by simpa using le_total) l
  · simpa using List.pairwise_mergeSort (le := fun x y : ℝ => decide (x ≤ y)) (by simpa using fun a b c : ℝ => le_trans) (by simpa using le_total) l'

theorem torchMedian_perm {l l' : List ℝ} (h : l.Perm l') : torchMedian l = torchMedian l' := by
  unfold torchMedian
  rw [mergeSort_perm h, h.length_eq]

/-- The same exposures in another order give the same `Bragg2DPtycho` model. -/
theorem bragg_from_dataset_reorder (D : FancyData n m N) (O : BraggOpts) (σ : Equiv.Perm (Fin N)) (os : ℕ) [NeZero os] [NeZero (os * n)]
    [NeZero (os * m)] (c d : ℕ) [NeZero (os * n - 2 * c)] [NeZero (os * m - 2 * d)] (k : ℕ) (rp : Fin k → Wave (os * n - 2 * c) (os * m - 2 * d))
    (ro : ℕ → ℕ → ℝ) :
    braggFromDataset (D.reorder σ) O os c d k rp ro = (braggFromDataset D O os c d k rp ro).map fun M => M.reorder σ := by
  have hp : (List.ofFn (D.reorder σ).translations).Perm (List.ofFn D.translations) := Equiv.Perm.ofFn_comp_perm σ D.translations
  have hi : ∀ bg, sharpIntensities D.mask (List.ofFn fun i => D.patterns (σ i)) bg = sharpIntensities D.mask (List.ofFn D.patterns) bg := fun bg =>
    sharpIntensities_perm _ (Equiv.Perm.ofFn_comp_perm σ D.patterns) bg
  have hP : (D.reorder σ).braggProbe O.propagationDistance os = D.braggProbe O.propagationDistance os := by
    unfold FancyData.braggProbe
    simp only [FancyData.reorder, sharpProbePropagated, sharpProbe, hi]
  unfold braggFromDataset
  rw [hP, show (D.reorder σ).orientation = D.orientation from rfl, show (D.reorder σ).detBasis = D.detBasis from rfl]
  cases h1 : List.ofFn D.translations with
  | nil =>
    rw [h1, List.perm_nil] at hp
    rw [hp]
    rfl
  | cons t0 rest =>
    cases h2 : List.ofFn (D.reorder σ).translations with
    | nil =>
      rw [h1, h2] at hp
      exact absurd hp.symm (by simp)
    | cons u0 urest =>
      rw [h1, h2] at hp
      cases braggNormal O.surfaceNormal O.scatteringMode D.orientation D.detBasis with
      | error e => rfl
      | ok normal =>
        have hS : ∀ q B pad axis, braggSetup q B u0 urest pad axis = braggSetup q B t0 rest pad axis := fun q B pad axis =>
          objectSetup_perm q (hp.map fun t => (projectToSample B t).1 axis) pad
        have hM : ∀ B, braggMedian B (u0 :: urest) = braggMedian B (t0 :: rest) := fun B => torchMedian_perm (hp.map _)
        simp only [Except.map, hS, hM]
        split_ifs <;> rfl

variable {a b : ℕ} [NeZero a] [NeZero b]

theorem bragg_forward_reorder (M : Bragg n m a b N k) (σ : Equiv.Perm (Fin N)) (idx : Fin N) (t : Fin 3 → ℝ) :
    (M.reorder σ).forward idx t = M.forward (σ idx) t := by
  obtain ⟨probe, probeNorm, support, weights, obj, objBasis, probeBasis, wavelength, minTranslation, medianPropagation, translationScale, offsets,
    propagateProbe, tilt, oversampling, background, saturation⟩ := M
  cases weights <;> cases offsets <;> rfl

theorem bragg_corrected_reorder (M : Bragg n m a b N k) (σ : Equiv.Perm (Fin N)) (idx : Fin N) (t : Fin 3 → ℝ) :
    (M.reorder σ).correctedTranslation idx t = M.correctedTranslation (σ idx) t := by
  unfold Bragg.correctedTranslation Bragg.reorder
  cases M.offsets <;> rfl

/-! ### MultislicePtycho -/

theorem multisliceWeights_reorder (σ : Equiv.Perm (Fin N)) (I : Option (Fin N → ℝ)) (w : Fin N → ℝ) :
    multisliceWeights (k := k) (I.map fun I i => I (σ i)) (.perShot fun i => w (σ i)) =
      (multisliceWeights (k := k) I (.perShot w)).map fun W => W.reorder σ := by
  cases I with
  | none => rfl
  | some I =>
    have hs : ∑ i, I (σ i) = ∑ i, I i := Equiv.sum_comp σ I
    simp only [Option.map_some, multisliceWeights, hs]
    rfl

/-- The same exposures in another order give the same `MultislicePtycho` model, for datasets without recorded intensities or models without weight
matrices. -/
theorem multislice_from_dataset_reorder_partial (D : FancyData n m N) (O : MultisliceOpts) (σ : Equiv.Perm (Fin N)) (os : ℕ) [NeZero os]
    [NeZero (os * n)] [NeZero (os * m)] (c : ℕ) [NeZero (os * n - 2 * c)] [NeZero (os * m - 2 * c)] (k : ℕ)
    (rp : Fin k → Wave (os * n - 2 * c) (os * m - 2 * c)) (ro : ℕ → ℕ → ℕ → ℝ) (hI : D.intensities = none ∨ O.dmRank = none) :
    multisliceFromDataset (D.reorder σ) O os c k rp ro = (multisliceFromDataset D O os c k rp ro).map fun M => M.reorder σ := by
  have hp : (List.ofFn (D.reorder σ).translations).Perm (List.ofFn D.translations) := Equiv.Perm.ofFn_comp_perm σ D.translations
  unfold multisliceFromDataset
  rw [start_reorder D σ O.shared, show (D.reorder σ).orientation = D.orientation from rfl, show (D.reorder σ).detBasis = D.detBasis from rfl]
  cases h1 : List.ofFn D.translations with
  | nil =>
    rw [h1, List.perm_nil] at hp
    rw [hp]
    cases D.start O.shared os <;> cases datasetNormal O.scatteringMode D.orientation D.detBasis <;> cases initialWeights N (k + 1) O.dmRank <;> rfl
  | cons t0 rest =>
    cases h2 : List.ofFn (D.reorder σ).translations with
    | nil =>
      rw [h1, h2] at hp
      exact absurd hp.symm (by simp)
    | cons u0 urest =>
      rw [h1, h2] at hp
      cases D.start O.shared os with
      | error e => rfl
      | ok S =>
        cases datasetNormal O.scatteringMode D.orientation D.detBasis with
        | error e => rfl
        | ok normal =>
          cases hW : initialWeights N (k + 1) O.dmRank with
          | error e => rfl
          | ok W =>
            have hs : ∀ q (c : Fin 2), objectSetup q (translationsToPixel S.objBasis normal u0 c)
                (urest.map fun t => translationsToPixel S.objBasis normal t c) O.padding =
                objectSetup q (translationsToPixel S.objBasis normal t0 c) (rest.map fun t => translationsToPixel S.objBasis normal t c) O.padding :=
              fun q c => objectSetup_perm q (hp.map fun t => translationsToPixel S.objBasis normal t c) _
            have hw : multisliceWeights (D.reorder σ).intensities W = (multisliceWeights D.intensities W).map fun W => W.reorder σ := by
              rcases hI with h | h
              · have h' : (D.reorder σ).intensities = none := by simp [FancyData.reorder, h]
                rw [h, h']
                exact congrArg Except.ok (initialWeights_reorder σ _ W hW).symm
              · rw [h] at hW
                cases hW
                exact multisliceWeights_reorder σ D.intensities fun _ => 1
            simp only [Except.map, hs, hw]
            by_cases h1 : O.probeShape = true
            · simp only [h1, if_true]
            · by_cases h2 : O.nz = 0
              · simp only [h1, h2, if_true, Bool.false_eq_true, if_false]
              · simp only [h1, h2, Bool.false_eq_true, if_false]
                cases multisliceWeights D.intensities W <;> rfl

theorem multislice_forward_reorder (M : Multislice n m a b N k) (σ : Equiv.Perm (Fin N)) (idx : Fin N) (t : Fin 3 → ℝ) :
    (M.reorder σ).forward idx t = M.forward (σ idx) t := by
  obtain ⟨probe, probeNorm, support, weights, fourierProbe, slices, exponentiate, propagator, objBasis, detBasis, normal, minTranslation,
    translationScale, offsets, simulateTranslation, oversampling, background, saturation⟩ := M
  rcases weights with _ | (_ | _) <;> cases offsets <;> rfl

theorem multislice_corrected_reorder (M : Multislice n m a b N k) (σ : Equiv.Perm (Fin N)) (idx : Fin N) (t : Fin 3 → ℝ) :
    (M.reorder σ).correctedTranslation idx t = M.correctedTranslation (σ idx) t := by
  unfold Multislice.correctedTranslation Multislice.reorder
  cases M.offsets <;> rfl

/-- **C126** (violated): with weight matrices and as many modes as exposures, the recorded intensities scale the modes instead of the exposures; the two
exposures of a dataset exchanged give another model, whose weights are not those of the exposures they belong to. -/
theorem multislice_order_violated (rp : Fin 1 → Wave (1 * 4 - 2 * 1) (1 * 4 - 2 * 1)) (ro : ℕ → ℕ → ℕ → ℝ) :
    ∃ M M', multisliceFromDataset squareFancyData { dz := 1, nz := 2, dmRank := some (-1) } 1 1 1 rp ro = .ok M ∧
      multisliceFromDataset (squareFancyData.reorder (Equiv.swap 0 1)) { dz := 1, nz := 2, dmRank := some (-1) } 1 1 1 rp ro = .ok M' ∧
      M'.weights ≠ (M.reorder (Equiv.swap 0 1)).weights := by
  have hz : ∀ D : FancyData 4 4 2, D.detBasis = squareFancyData.detBasis → D.wavelength = squareFancyData.wavelength →
      D.distance = squareFancyData.distance → D.orientation = none → ∀ I : Fin 2 → ℝ, D.intensities = some I → I 0 + I 1 = 3 →
      ∃ M, multisliceFromDataset D { dz := 1, nz := 2, dmRank := some (-1) } 1 1 1 rp ro = .ok M ∧
      M.weights = some (.matrices 2 fun _ => !![((I 0 * 2 / 3 : ℝ) : ℂ), 0; 0, ((I 1 * 2 / 3 : ℝ) : ℂ)]) := by
    intro D e1 e2 e3 e4 I e5 e6
    have hw : multisliceWeights (N := 2) (k := 1 + 1) (some I) (.matrices 2 fun _ => Matrix.of fun i j => if i.val = j.val then 1 else 0) =
        .ok (.matrices 2 fun _ => !![((I 0 * 2 / 3 : ℝ) : ℂ), 0; 0, ((I 1 * 2 / 3 : ℝ) : ℂ)]) := by
      simp only [multisliceWeights, Fin.sum_univ_two, e6]
      rw [dif_pos trivial]
      congr 2
      funext i
      ext u v
      fin_cases u <;> fin_cases v <;> simp <;> push_cast <;> ring
    have hi : initialWeights 2 (1 + 1) (some (-1)) = .ok (.matrices 2 fun _ => Matrix.of fun i j => if i.val = j.val then 1 else 0) := by
      simp [initialWeights]
    have ht : List.ofFn D.translations = [D.translations 0, D.translations 1] := by simp [List.ofFn_succ]
    unfold multisliceFromDataset
    simp only [hi, e5, ht, e4]
    have hw2 : multisliceWeights (N := 2) (k := 2) (some I) (.matrices 2 fun _ => Matrix.of fun i j => if i.val = j.val then 1 else 0) =
        .ok (.matrices 2 fun _ => !![((I 0 * 2 / 3 : ℝ) : ℂ), 0; 0, ((I 1 * 2 / 3 : ℝ) : ℂ)]) := hw
    simp [FancyData.start, datasetNormal, MultisliceOpts.shared, hw2]
  have hok := hz squareFancyData rfl rfl rfl rfl ![1, 2] rfl (by norm_num)
  have hok' := hz (squareFancyData.reorder (Equiv.swap 0 1)) rfl rfl rfl rfl (fun i => ![1, 2] (Equiv.swap 0 1 i)) rfl (by
    simp [Equiv.swap_apply_left, Equiv.swap_apply_right]; norm_num)
  obtain ⟨M, h1, h2⟩ := hok
  obtain ⟨M', g1, g2⟩ := hok'
  refine ⟨M, M', h1, g1, fun h => ?_⟩
  unfold Multislice.reorder at h
  rw [g2, h2] at h
  simp only [Option.map_some, Weights.reorder, Option.some.injEq, Weights.matrices.injEq, heq_eq_eq, true_and] at h
  have h3 := congrFun (congrFun (congrFun h 0) 0) 0
  simp at h3

end Cdtools
