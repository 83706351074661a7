/- Property theorems C133: the two axes of the detector are treated alike. -/
import Verif.Props.ModeOrder

set_option linter.unusedSectionVars false

namespace Cdtools
open Finset Matrix

variable {n m a b N k : ℕ}

/-! ### Specification -/

/-- A wave with its axes exchanged. -/
def swapWave (w : Wave n m) : Wave m n := fun x y => w y x

/-- An image with its axes exchanged. -/
def Img.swapAxes {α : Type} (I : Img α) : Img α := ⟨I.w, I.h, fun i j => I.px j i⟩

/-- A basis with its vectors exchanged. -/
def swapBasis (B : Matrix (Fin 3) (Fin 2) ℝ) : Matrix (Fin 3) (Fin 2) ℝ := B.submatrix id (Equiv.swap 0 1)

/-- A pixel vector with its components exchanged. -/
def swapPix (v : Fin 2 → ℝ) : Fin 2 → ℝ := fun c => v (Equiv.swap 0 1 c)

/-- The `FancyPtycho` model with the axes of the detector (and of probe, object, background, bases, offsets) exchanged. The sample, its normal and
the laboratory frame are the same. -/
def Fancy.swapAxes (M : Fancy n m a b N k) : Fancy m n b a N k where
  probe := fun j => swapWave (M.probe j)
  probeNorm := M.probeNorm
  support := fun x y => M.support y x
  weights := M.weights
  fourierProbe := M.fourierProbe
  obj := M.obj.swapAxes
  exponentiate := M.exponentiate
  phaseOnly := M.phaseOnly
  nearField := M.nearField
  propagator := swapWave M.propagator
  objBasis := swapBasis M.objBasis
  detBasis := swapBasis M.detBasis
  normal := M.normal
  minTranslation := swapPix M.minTranslation
  translationScale := M.translationScale
  offsets := M.offsets.map fun o i => swapPix (o i)
  fourierShifts := M.fourierShifts.map fun o i => swapPix (o i)
  simulateTranslation := M.simulateTranslation
  oversampling := M.oversampling
  background := M.background.swapAxes
  qe := M.qe.map Img.swapAxes
  saturation := M.saturation

/-! ### Geometry -/

theorem pinvTall_swap (B : Matrix (Fin 3) (Fin 2) ℝ) : pinvTall (swapBasis B) = (pinvTall B).submatrix (Equiv.swap 0 1) id := by
  unfold pinvTall swapBasis
  have h1 : (B.submatrix id (Equiv.swap 0 1))ᵀ * B.submatrix id (Equiv.swap 0 1) = (Bᵀ * B).submatrix (Equiv.swap 0 1) (Equiv.swap 0 1) := by
    ext i j
    simp [Matrix.mul_apply]
  rw [h1, Matrix.inv_submatrix_equiv, Matrix.transpose_submatrix, Matrix.submatrix_mul_equiv]

theorem pixelProjection_swap (B : Matrix (Fin 3) (Fin 2) ℝ) (nrm : Fin 3 → ℝ) :
    pixelProjection (swapBasis B) nrm = (pixelProjection B nrm).submatrix (Equiv.swap 0 1) id := by
  unfold pixelProjection
  rw [pinvTall_swap]
  ext i j
  simp [Matrix.mul_apply]

theorem translationsToPixel_swap (B : Matrix (Fin 3) (Fin 2) ℝ) (nrm t : Fin 3 → ℝ) :
    translationsToPixel (swapBasis B) nrm t = swapPix (translationsToPixel B nrm t) := by
  unfold translationsToPixel
  rw [pixelProjection_swap]
  rfl

theorem pixelToTranslations_swap (B : Matrix (Fin 3) (Fin 2) ℝ) (nrm : Fin 3 → ℝ) (p : Fin 2 → ℝ) :
    pixelToTranslations (swapBasis B) nrm (swapPix p) = pixelToTranslations B nrm p := by
  unfold pixelToTranslations
  rw [pixelProjection_swap]
  generalize pixelProjection B nrm = Q
  have h1 : pinvWide (Q.submatrix (Equiv.swap 0 1) id) = (pinvWide Q).submatrix id (Equiv.swap 0 1) := by
    unfold pinvWide
    have h1 : Q.submatrix (Equiv.swap 0 1) id * (Q.submatrix (Equiv.swap 0 1) id)ᵀ = (Q * Qᵀ).submatrix (Equiv.swap 0 1) (Equiv.swap 0 1) := by
      ext i j
      simp [Matrix.mul_apply]
    rw [h1, Matrix.inv_submatrix_equiv, Matrix.transpose_submatrix, Matrix.submatrix_mul_equiv]
  rw [h1]
  funext i
  exact Equiv.sum_comp (Equiv.swap (0 : Fin 2) 1) fun j => pinvWide Q i j * p j

/-! ### Waves -/

variable [NeZero n] [NeZero m] [NeZero a] [NeZero b]

theorem fft2_swap (w : Wave n m) : fft2 (swapWave w) = swapWave (fft2 w) := by
  funext k l
  unfold fft2 swapWave
  rw [Finset.sum_comm]
  refine sum_congr rfl fun i _ => sum_congr rfl fun j _ => ?_
  ring

theorem ifft2_swap (w : Wave n m) : ifft2 (swapWave w) = swapWave (ifft2 w) := by
  funext k l
  unfold ifft2 swapWave
  rw [Finset.sum_comm, mul_comm (m : ℂ)]
  refine congrArg (· / _) (sum_congr rfl fun i _ => sum_congr rfl fun j _ => ?_)
  ring

theorem farField_swap (w : Wave n m) : farField (swapWave w) = swapWave (farField w) := by
  unfold farField
  rw [show ifftshift2 (swapWave w) = swapWave (ifftshift2 w) from rfl, fft2_swap, mul_comm (m : ℝ)]
  rfl

theorem inverseFarField_swap (w : Wave n m) : inverseFarField (swapWave w) = swapWave (inverseFarField w) := by
  unfold inverseFarField
  rw [show ifftshift2 (swapWave w) = swapWave (ifftshift2 w) from rfl, ifft2_swap, mul_comm (m : ℝ)]
  rfl

theorem nearField_swap (p w : Wave n m) : nearField (swapWave p) (swapWave w) = swapWave (nearField p w) := by
  unfold nearField
  rw [fft2_swap]
  exact ifft2_swap fun x y => p x y * fft2 w x y

theorem padProbe_swap (p : Wave n m) : padProbe b a (swapWave p) = swapWave (padProbe a b p) := by
  unfold padProbe
  dsimp only
  rw [farField_swap, ← inverseFarField_swap]
  refine congrArg inverseFarField ?_
  funext x y
  unfold swapWave
  refine if_congr ?_ rfl rfl
  tauto

theorem phaseMask_swap (s0 s1 : ℝ) : (phaseMask s1 s0 : Wave m n) = swapWave (phaseMask s0 s1 : Wave n m) := by
  funext x y
  unfold phaseMask swapWave
  congr 2
  ring

theorem sincApply_swap (sb : Bool) (t0 t1 : ℝ) (sel probe : Wave n m) :
    sincApply sb (t1, t0) (swapWave sel) (swapWave probe) = swapWave (sincApply sb (t0, t1) sel probe) := by
  unfold sincApply
  dsimp only
  rw [phaseMask_swap, fft2_swap]
  have h1 : ifft2 (ifftshift2 fun x y => fftshift2 (swapWave (fft2 probe)) x y *
      swapWave (phaseMask (t0 - ⌊t0⌋) (t1 - ⌊t1⌋) : Wave n m) x y) =
      swapWave (ifft2 (ifftshift2 fun x y => fftshift2 (fft2 probe) x y * (phaseMask (t0 - ⌊t0⌋) (t1 - ⌊t1⌋) : Wave n m) x y)) := ifft2_swap _
  rw [h1]
  have h2 : (fun i j => swapWave (ifft2 (ifftshift2 fun x y => fftshift2 (fft2 probe) x y *
      (phaseMask (t0 - ⌊t0⌋) (t1 - ⌊t1⌋) : Wave n m) x y)) i j * swapWave sel i j) =
      swapWave fun i j => ifft2 (ifftshift2 fun x y => fftshift2 (fft2 probe) x y *
        (phaseMask (t0 - ⌊t0⌋) (t1 - ⌊t1⌋) : Wave n m) x y) i j * sel i j := rfl
  cases sb with
  | false => rfl
  | true =>
    simp only [if_true]
    rw [h2, fft2_swap]
    exact ifft2_swap _

theorem objWindow_swap (o : Img ℂ) (p q : ℤ) : objWindow b a o.swapAxes q p = (objWindow a b o p q).map swapWave := by
  unfold objWindow Img.swapAxes
  dsimp only
  by_cases h : (sliceExtent o.h p (p + a)).2 = a ∧ (sliceExtent o.w q (q + b)).2 = b
  · rw [if_pos h, if_pos h.symm]
    rfl
  · rw [if_neg h, if_neg fun h' => h h'.symm]
    rfl

/-! ### Measurement -/

theorem avgPool_swap (s : ℕ) (I : Img ℝ) : I.swapAxes.avgPool s = (I.avgPool s).swapAxes := by
  unfold Img.avgPool Img.sumPool Img.swapAxes
  simp only [Img.mk.injEq, true_and]
  funext i j
  rw [Finset.sum_comm]

theorem measQuadratic_swap (os : ℕ) (sat : Option ℝ) (bg : Img ℝ) (qe : Option (Img ℝ)) (I : Img ℝ) :
    measQuadratic { saturation := sat, oversampling := os } bg.swapAxes (qe.map Img.swapAxes) I.swapAxes =
      (measQuadratic { saturation := sat, oversampling := os } bg qe I).swapAxes := by
  have hb : binPixels os I.swapAxes = (binPixels os I).swapAxes := by
    unfold binPixels
    split_ifs
    · exact avgPool_swap os I
    · rfl
  unfold measQuadratic readOut cutSlice
  dsimp only
  rw [hb]
  cases qe <;> cases sat <;> rfl

/-! ### FancyPtycho -/

theorem pixTrans_swap (M : Fancy n m a b N k) (idx : Fin N) (t : Fin 3 → ℝ) : M.swapAxes.pixTrans idx t = swapPix (M.pixTrans idx t) := by
  unfold Fancy.pixTrans Fancy.swapAxes
  dsimp only
  rw [translationsToPixel_swap]
  cases M.offsets <;> rfl

theorem ramp_swap (M : Fancy n m a b N k) (idx : Fin N) (t : Fin 3 → ℝ) : M.swapAxes.ramp idx t = swapWave (M.ramp idx t) := by
  unfold Fancy.ramp
  rw [show M.swapAxes.fourierShifts = M.fourierShifts.map fun o i => swapPix (o i) from rfl]
  cases M.fourierShifts with
  | none => rfl
  | some f =>
    funext x y
    have hd : (if M.swapAxes.simulateTranslation then swapPix (f idx) + translationsToPixel M.swapAxes.detBasis M.swapAxes.normal t
        else swapPix (f idx)) = swapPix (if M.simulateTranslation then f idx + translationsToPixel M.detBasis M.normal t else f idx) := by
      rw [show M.swapAxes.simulateTranslation = M.simulateTranslation from rfl, show M.swapAxes.detBasis = swapBasis M.detBasis from rfl,
        translationsToPixel_swap]
      cases M.simulateTranslation <;> rfl
    simp only [Option.map_some, hd, swapWave]
    rw [show M.swapAxes.oversampling = M.oversampling from rfl]
    congr 2
    simp only [swapPix, Equiv.swap_apply_left, Equiv.swap_apply_right]
    ring

theorem toDetector_swap (M : Fancy n m a b N k) (idx : Fin N) (t : Fin 3 → ℝ) (sel : Wave a b) (p : Wave n m) :
    M.swapAxes.toDetector idx t (swapWave sel) (swapWave p) = swapWave (M.toDetector idx t sel p) := by
  have h1 : (fun x y => swapWave p x y * M.swapAxes.ramp idx t x y) = swapWave fun x y => p x y * M.ramp idx t x y := by
    rw [ramp_swap]
    rfl
  have h2 : ∀ u : Wave a b, M.swapAxes.propagate (swapWave u) = swapWave (M.propagate u) := fun u => by
    unfold Fancy.propagate
    rw [show M.swapAxes.nearField = M.nearField from rfl]
    cases M.nearField with
    | false => exact farField_swap u
    | true => exact nearField_swap M.propagator u
  unfold Fancy.toDetector
  dsimp only
  rw [h1, padProbe_swap, pixTrans_swap, show M.swapAxes.nearField = M.nearField from rfl,
    show swapPix (M.pixTrans idx t) 0 = M.pixTrans idx t 1 from rfl, show swapPix (M.pixTrans idx t) 1 = M.pixTrans idx t 0 from rfl,
    sincApply_swap]
  exact h2 _

/-- **C133** (FancyPtycho): exchanging the axes of the detector exchanges the axes of every simulated pattern, and does nothing else. -/
theorem forward_axes (M : Fancy n m a b N k) (idx : Fin N) (t : Fin 3 → ℝ) : M.swapAxes.forward idx t = (M.forward idx t).map Img.swapAxes := by
  have ht : M.swapAxes.transmission = M.transmission.swapAxes := by
    unfold Fancy.transmission
    rw [show M.swapAxes.exponentiate = M.exponentiate from rfl, show M.swapAxes.phaseOnly = M.phaseOnly from rfl]
    cases M.exponentiate <;> cases M.phaseOnly <;> rfl
  have hb : M.swapAxes.basisProbes = fun j => swapWave (M.basisProbes j) := by
    funext j
    unfold Fancy.basisProbes
    rw [show M.swapAxes.fourierProbe = M.fourierProbe from rfl]
    cases M.fourierProbe with
    | false => rfl
    | true => exact inverseFarField_swap fun x y => M.probe j x y * (if M.support x y then 1 else 0)
  have hs : ∀ i, shotProbes M.weights idx (fun j => swapWave (M.basisProbes j)) i = swapWave (shotProbes M.weights idx M.basisProbes i) := by
    cases M.weights <;> exact fun i => rfl
  have hm : ∀ sel, sumModes b a (List.ofFn fun i => fun x y => M.swapAxes.toDetector idx t (swapWave sel)
      (shotProbes M.swapAxes.weights idx M.swapAxes.basisProbes i) x y) =
      (sumModes a b (List.ofFn fun i => fun x y => M.toDetector idx t sel (shotProbes M.weights idx M.basisProbes i) x y)).swapAxes := fun sel => by
    rw [hb, show M.swapAxes.weights = M.weights from rfl]
    simp only [hs, toDetector_swap]
    unfold sumModes Img.swapAxes
    simp only [Img.mk.injEq, true_and]
    funext x y
    rw [List.map_ofFn, List.map_ofFn]
    rfl
  unfold Fancy.forward
  rw [show M.swapAxes.simulateTranslation = M.simulateTranslation from rfl,
    show M.swapAxes.fourierShifts = M.fourierShifts.map fun o i => swapPix (o i) from rfl]
  simp only [Option.map_eq_none_iff]
  split_ifs
  · rfl
  · rw [ht, pixTrans_swap, show swapPix (M.pixTrans idx t) 0 = M.pixTrans idx t 1 from rfl,
      show swapPix (M.pixTrans idx t) 1 = M.pixTrans idx t 0 from rfl, objWindow_swap]
    cases objWindow a b M.transmission ⌊M.pixTrans idx t 0⌋ ⌊M.pixTrans idx t 1⌋ with
    | error e => rfl
    | ok sel =>
      simp only [Except.map]
      rw [hm]
      exact congrArg Except.ok (measQuadratic_swap _ _ _ _ _)

/-- **C133** (FancyPtycho): refined positions do not depend on the order of the axes. -/
theorem corrected_translations_axes (M : Fancy n m a b N k) (idx : Fin N) (t : Fin 3 → ℝ) :
    M.swapAxes.correctedTranslation idx t = M.correctedTranslation idx t := by
  unfold Fancy.correctedTranslation
  rw [show M.swapAxes.offsets = M.offsets.map fun o i => swapPix (o i) from rfl]
  cases M.offsets with
  | none => rfl
  | some o => exact congrArg (t + ·) (pixelToTranslations_swap M.objBasis M.normal (M.translationScale • o idx))

/-! ### A concrete case -/

example (rp : Fin 1 → Wave (1 * 4 - 2 * 1) (1 * 4 - 2 * 1)) (ro : ℕ → ℕ → ℝ) :
    ∃ M, fancyFromDataset toyFancyData {} 1 1 1 rp ro = .ok M ∧ M.swapAxes.swapAxes.obj = M.obj ∧
      ∀ idx, ∃ Q, M.forward idx (toyFancyData.translations idx) = .ok Q ∧
        M.swapAxes.forward idx (toyFancyData.translations idx) = .ok Q.swapAxes := by
  have hM : ∃ M, fancyFromDataset toyFancyData {} 1 1 1 rp ro = .ok M := by
    unfold fancyFromDataset
    simp [FancyData.start, datasetNormal, initialWeights, fancyInit, toyFancyData]
  obtain ⟨M, hM⟩ := hM
  obtain ⟨E, peak, -, -, -, -, h4⟩ := initial_patterns_far toyFancyData toyFancyData_nonneg {} 1 1 rp ro M hM rfl rfl rfl rfl rfl
    (fun h => absurd rfl h) ⟨1, 1, by norm_num, by norm_num, by norm_num, by norm_num, by rw [toyFancyData_mean]; norm_num⟩
  refine ⟨M, hM, rfl, fun idx => ?_⟩
  obtain ⟨Q, hQ, -⟩ := h4 idx
  exact ⟨Q, hQ, by rw [forward_axes, hQ]; rfl⟩

end Cdtools
