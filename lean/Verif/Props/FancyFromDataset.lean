/- Property theorems C109: a model made by `FancyPtycho.from_dataset`. -/
import Verif.Model.FancyFromDataset
import Verif.Props.SimDataset
import Verif.Props.FancyForward
import Verif.Props.Probes
import Verif.Props.StemProbe
import Verif.Props.Multislice
import Verif.Props.Bragg
import Verif.Props.Measurements
import Verif.Props.Illumination
import Verif.Props.FancyOptions

set_option linter.unusedSectionVars false

namespace Cdtools
open Finset

variable {n m N : ℕ} [NeZero n] [NeZero m]

/-! ### The fields of a fresh model -/

section fields
variable (D : FancyData n m N) (O : FancyOpts) (os : ℕ) [NeZero os] [NeZero (os * n)] [NeZero (os * m)]
  (c : ℕ) [NeZero (os * n - 2 * c)] [NeZero (os * m - 2 * c)] (k : ℕ)

/-- The probes handed to the constructor. -/
noncomputable def freshGuess (rp : Fin k → Wave (os * n - 2 * c) (os * m - 2 * c)) (p : Wave (os * n) (os * m)) :
    Fin (k + 1) → Wave (os * n - 2 * c) (os * m - 2 * c) :=
  match O.supportRadius with
  | none => probeStack O.fourierProbe rp (cropProbe c p)
  | some r => fun j x y => probeStack O.fourierProbe rp (cropProbe c p) j x y *
      (if supportDisc (os * n - 2 * c) (os * m - 2 * c) r x y then 1 else 0)

/-- The support of a fresh model. -/
noncomputable def freshSupport (A B : ℕ) : ZMod A → ZMod B → Bool :=
  match O.supportRadius with
  | none => fun _ _ => true
  | some r => supportDisc A B r

theorem fresh_fields (rp : Fin k → Wave (os * n - 2 * c) (os * m - 2 * c)) (ro : ℕ → ℕ → ℝ)
    (M : Fancy (os * n - 2 * c) (os * m - 2 * c) (os * n) (os * m) N (k + 1)) (h : fancyFromDataset D O os c k rp ro = .ok M) :
    ∃ t0 rest S normal W, List.ofFn D.translations = t0 :: rest ∧ D.start O os = .ok S ∧
      datasetNormal O.scatteringMode D.orientation D.detBasis = .ok normal ∧ initialWeights N (k + 1) O.dmRank = .ok W ∧
      M =
        { probe := fun j x y => freshGuess O os c k rp S.probe j x y / (probeNormOf (freshGuess O os c k rp S.probe) : ℂ) *
            (if freshSupport O (os * n - 2 * c) (os * m - 2 * c) x y then 1 else 0)
          probeNorm := probeNormOf (freshGuess O os c k rp S.probe)
          support := freshSupport O (os * n - 2 * c) (os * m - 2 * c)
          weights := scaleWeights D.intensities W
          fourierProbe := O.fourierProbe
          obj := initialObject O
            (objectSetup (os * n) (translationsToPixel S.objBasis normal t0 0)
              (rest.map fun t => translationsToPixel S.objBasis normal t 0) O.padding).1.toNat
            (objectSetup (os * m) (translationsToPixel S.objBasis normal t0 1)
              (rest.map fun t => translationsToPixel S.objBasis normal t 1) O.padding).1.toNat ro
          exponentiate := O.exponentiate
          phaseOnly := O.phaseOnly
          nearField := O.nearField
          propagator := S.propagator
          objBasis := S.objBasis
          detBasis := D.detBasis
          normal := normal
          minTranslation := ![(objectSetup (os * n) (translationsToPixel S.objBasis normal t0 0)
              (rest.map fun t => translationsToPixel S.objBasis normal t 0) O.padding).2,
            (objectSetup (os * m) (translationsToPixel S.objBasis normal t0 1)
              (rest.map fun t => translationsToPixel S.objBasis normal t 1) O.padding).2]
          translationScale := O.translationScale
          offsets := some 0
          fourierShifts := if O.allowFourierShifts then some 0 else none
          simulateTranslation := O.simulateTranslation
          oversampling := os
          background := D.backgroundGuess.toImg
          qe := (D.qeGuess O).map RealIm.toImg
          saturation := O.saturation } := by
  unfold fancyFromDataset at h
  split at h
  · rename_i t0 rest S normal W h1 h2 h3 h4
    refine ⟨t0, rest, S, normal, W, h1, h2, h3, h4, ?_⟩
    have hz : (Option.map (fun (o : Fin N → Fin 2 → ℝ) i => (1 / O.translationScale) • o i) (some 0)) = some 0 := by
      simp only [Option.map_some]
      congr 1
      funext i
      simp
    have hz' : (fun i => (1 / O.translationScale) • (0 : Fin N → Fin 2 → ℝ) i) = 0 := by
      funext i
      simp
    simp only at h
    unfold freshGuess freshSupport
    cases hs : O.supportRadius with
    | none =>
      rw [hs] at h
      cases ha : O.allowFourierShifts <;>
      · rw [ha] at h
        simp only [fancyInit, Option.map_none, Option.getD_none, if_true, Bool.false_eq_true, if_false, hz] at h
        rw [← Except.ok.inj h]
        simp
    | some r =>
      rw [hs] at h
      cases ha : O.allowFourierShifts <;>
      · rw [ha] at h
        simp only [fancyInit, Option.map_some, Option.getD_some, if_true, Bool.false_eq_true, if_false, hz'] at h
        rw [← Except.ok.inj h]
        rfl
  all_goals cases h

end fields

/-! ### Uniform and unimodular transmission -/

section optics
variable {a b k : ℕ} [NeZero a] [NeZero b]

theorem phaseMask_norm (s0 s1 : ℝ) (x : ZMod n) (y : ZMod m) : ‖(phaseMask s0 s1 : Wave n m) x y‖ = 1 := by
  unfold phaseMask
  have := Complex.norm_exp_ofReal_mul_I (-s0 * (2 * Real.pi * ((x.val : ℝ) - ((n / 2 : ℕ) : ℝ)) / n) -
    s1 * (2 * Real.pi * ((y.val : ℝ) - ((m / 2 : ℕ) : ℝ)) / m))
  rw [← this]
  congr 2
  push_cast
  ring

theorem power_maskFourier (p q : Wave n m) (h : ∀ x y, ‖q x y‖ = 1) :
    power (ifft2 (ifftshift2 fun x y => fftshift2 (fft2 p) x y * q x y)) = power p := by
  have h1 := ifft2_parseval_norm (ifftshift2 fun x y => fftshift2 (fft2 p) x y * q x y)
  have h2 := fft2_parseval_norm p
  have h3 : power (ifftshift2 fun x y => fftshift2 (fft2 p) x y * q x y) = power (fft2 p) := by
    rw [power_ifftshift2, ← power_fftshift2 (fft2 p)]
    unfold power
    simp only [norm_mul, h, mul_one]
  unfold power at h3
  rw [h2, ← h1] at h3
  exact mul_left_cancel₀ size_pos.ne' h3

theorem sincApply_power (sb : Bool) (tr : ℝ × ℝ) (sel p : Wave n m) (h : ∀ x y, ‖sel x y‖ = 1) :
    power (sincApply sb tr sel p) = power p := by
  have h1 : power (fun i j => ifft2 (ifftshift2 fun x y => fftshift2 (fft2 p) x y *
      (phaseMask (tr.1 - ⌊tr.1⌋) (tr.2 - ⌊tr.2⌋) : Wave n m) x y) i j * sel i j) = power p := by
    rw [← power_maskFourier p _ (phaseMask_norm (tr.1 - ⌊tr.1⌋) (tr.2 - ⌊tr.2⌋))]
    unfold power
    simp only [norm_mul, h, mul_one]
  unfold sincApply
  cases sb with
  | false => exact h1
  | true =>
    simp only [if_true]
    rw [power_maskFourier _ (fun x y => (starRingEnd ℂ) ((phaseMask (tr.1 - ⌊tr.1⌋) (tr.2 - ⌊tr.2⌋) : Wave n m) x y)) fun x y => by
      rw [RCLike.norm_conj, phaseMask_norm]]
    exact h1

theorem sincApply_back_one (tr : ℝ × ℝ) (p : Wave n m) : sincApply true tr (fun _ _ => 1) p = p := by
  unfold sincApply
  simp only [if_true, mul_one]
  rw [fft2_ifft2, fftshift2_ifftshift2]
  have : (fun x y => fftshift2 (fft2 p) x y * (phaseMask (tr.1 - ⌊tr.1⌋) (tr.2 - ⌊tr.2⌋) : Wave n m) x y *
      (starRingEnd ℂ) ((phaseMask (tr.1 - ⌊tr.1⌋) (tr.2 - ⌊tr.2⌋) : Wave n m) x y)) = fftshift2 (fft2 p) := by
    funext x y
    rw [mul_assoc, Complex.mul_conj, Complex.normSq_eq_norm_sq, phaseMask_norm]
    simp
  rw [this, ifftshift2_fftshift2, ifft2_fft2]

theorem sincApply_front_one (tr : ℝ × ℝ) (p : Wave n m) (x : ZMod n) (y : ZMod m) :
    ‖farField (sincApply false tr (fun _ _ => 1) p) x y‖ = ‖farField p x y‖ := by
  rw [sincApply_false]
  simp only [mul_one]
  exact norm_farField_sincShift p _ _ x y

/-- The wave at the detector without a sample. -/
noncomputable def Fancy.emptyBeam (M : Fancy n m a b N k) (p : Wave n m) : Wave a b :=
  if M.nearField then Cdtools.nearField M.propagator (padProbe a b p) else farField (padProbe a b p)

theorem toDetector_one (M : Fancy n m a b N k) (idx : Fin N) (t : Fin 3 → ℝ) (hr : M.ramp idx t = fun _ _ => 1) (p : Wave n m)
    (x : ZMod a) (y : ZMod b) :
    ‖M.toDetector idx t (fun _ _ => 1) p x y‖ = ‖M.emptyBeam (fun x y => (M.probeNorm : ℂ) * p x y) x y‖ := by
  have hlin : ∀ sb tr, (fun x y => (M.probeNorm : ℂ) * sincApply sb tr (fun _ _ => 1) (padProbe a b p) x y : Wave a b) =
      sincApply sb tr (fun _ _ => 1) (padProbe a b fun x y => (M.probeNorm : ℂ) * p x y) := by
    intro sb tr
    have e1 : (fun x y => (M.probeNorm : ℂ) * p x y : Wave n m) = (M.probeNorm : ℂ) • p := rfl
    rw [e1, isLinear_padProbe.map_smul, (isLinear_sincApply sb tr (fun _ _ => 1)).map_smul]
    rfl
  unfold Fancy.toDetector Fancy.emptyBeam
  simp only [hr, mul_one]
  rw [hlin]
  unfold Fancy.propagate
  cases hn : M.nearField with
  | true => simp only [if_true, sincApply_back_one]
  | false =>
    simp only [Bool.false_eq_true, if_false]
    exact sincApply_front_one _ _ x y

theorem farField_padProbe (p : Wave n m) (x : ZMod a) (y : ZMod b) :
    farField (padProbe a b p) x y = if (a - n) / 2 ≤ x.val ∧ x.val < (a - n) / 2 + n ∧ (b - m) / 2 ≤ y.val ∧ y.val < (b - m) / 2 + m then
      farField p ((x.val - (a - n) / 2 : ℕ) : ZMod n) ((y.val - (b - m) / 2 : ℕ) : ZMod m) else 0 := by
  unfold padProbe
  rw [far_field_unitary.2.1]

theorem farField_cropProbe (c : ℕ) [NeZero (a - 2 * c)] [NeZero (b - 2 * c)] (p : Wave a b) (x : ZMod (a - 2 * c)) (y : ZMod (b - 2 * c)) :
    farField (cropProbe c p) x y = farField p ((c + x.val : ℕ) : ZMod a) ((c + y.val : ℕ) : ZMod b) := by
  unfold cropProbe
  rw [far_field_unitary.2.1]

/-- Cropping and padding again removes the outer frequencies and leaves the others. -/
theorem farField_pad_crop (c : ℕ) [NeZero (a - 2 * c)] [NeZero (b - 2 * c)] (p : Wave a b) (x : ZMod a) (y : ZMod b) :
    farField (padProbe a b (cropProbe c p)) x y =
      if c ≤ x.val ∧ x.val < a - c ∧ c ≤ y.val ∧ y.val < b - c then farField p x y else 0 := by
  have ha := NeZero.ne (a - 2 * c)
  have hb := NeZero.ne (b - 2 * c)
  have e0 : (a - (a - 2 * c)) / 2 = c := by omega
  have e1 : (b - (b - 2 * c)) / 2 = c := by omega
  rw [farField_padProbe, e0, e1]
  have hx := ZMod.val_lt x
  have hy := ZMod.val_lt y
  by_cases h : c ≤ x.val ∧ x.val < a - c ∧ c ≤ y.val ∧ y.val < b - c
  · rw [if_pos (by omega), if_pos h, farField_cropProbe, ZMod.val_cast_of_lt (by omega), ZMod.val_cast_of_lt (by omega),
      show c + (x.val - c) = x.val by omega, show c + (y.val - c) = y.val by omega, ZMod.natCast_zmod_val, ZMod.natCast_zmod_val]
  · rw [if_neg (by omega), if_neg h]

theorem cropProbe_zero (p : Wave n m) [NeZero (n - 2 * 0)] [NeZero (m - 2 * 0)] : cropProbe 0 p = p := by
  unfold cropProbe
  have : (fun (x : ZMod (n - 2 * 0)) (y : ZMod (m - 2 * 0)) => farField p ((0 + x.val : ℕ) : ZMod n) ((0 + y.val : ℕ) : ZMod m)) = farField p := by
    funext x y
    rw [zero_add, zero_add]
    exact congrArg₂ _ (ZMod.natCast_zmod_val x) (ZMod.natCast_zmod_val y)
  rw [this]
  exact far_field_unitary.1 p

theorem objWindow_const (obj : Img ℂ) (z : ℂ) (h : ∀ i j, obj.px i j = z) (u v : ℤ) (sel : Wave a b) (hs : objWindow a b obj u v = .ok sel) :
    sel = fun _ _ => z := by
  unfold objWindow at hs
  simp only at hs
  split_ifs at hs
  rw [← Except.ok.inj hs]
  funext x y
  exact h _ _

/-- The pattern of a model whose object is 1 everywhere. -/
theorem forward_empty (M : Fancy n m a b N k) (idx : Fin N) (t : Fin 3 → ℝ) (w : Fin N → ℝ) (hw : M.weights = .perShot w)
    (hr : M.ramp idx t = fun _ _ => 1) (ht : ∀ i j, M.transmission.px i j = 1) (img : Img ℝ) (h : M.forward idx t = .ok img) :
    img = measQuadratic { saturation := M.saturation, oversampling := M.oversampling } M.background M.qe
      ⟨a, b, fun x y => w idx ^ 2 * ∑ j, ‖M.emptyBeam (fun x y => (M.probeNorm : ℂ) * M.basisProbes j x y) x y‖ ^ 2⟩ := by
  unfold Fancy.forward at h
  split_ifs at h
  cases hsel : objWindow a b M.transmission ⌊M.pixTrans idx t 0⌋ ⌊M.pixTrans idx t 1⌋ with
  | error e => simp only [hsel] at h; cases h
  | ok sel =>
    simp only [hsel] at h
    obtain rfl := objWindow_const _ 1 ht _ _ sel hsel
    have hi := (Except.ok.inj h).symm
    refine hi.trans (congrArg _ ?_)
    unfold sumModes
    refine congrArg (Img.mk a b) ?_
    funext x y
    rw [List.map_ofFn, List.sum_ofFn]
    rw [hw]
    rw [mul_sum]
    refine sum_congr rfl fun j _ => ?_
    simp only [Function.comp_apply]
    rw [toDetector_one M idx t hr]
    unfold shotProbes
    have e : (fun x y => (M.probeNorm : ℂ) * ((w idx : ℂ) * M.basisProbes j x y) : Wave n m) =
        (w idx : ℂ) • (fun x y => (M.probeNorm : ℂ) * M.basisProbes j x y : Wave n m) := by
      funext x y
      simp only [Pi.smul_apply, smul_eq_mul]
      ring
    have hl : IsLinearMap ℂ M.emptyBeam := by
      unfold Fancy.emptyBeam
      cases M.nearField
      · exact isLinear_comp isLinear_farField isLinear_padProbe
      · exact isLinear_comp (isLinear_nearField M.propagator) isLinear_padProbe
    simp only [Weights.rank] at *
    rw [e, hl.map_smul]
    simp only [Pi.smul_apply, smul_eq_mul, norm_mul, mul_pow, Complex.norm_real, Real.norm_eq_abs, sq_abs]

end optics

/-! ### C109 -/

section fresh
variable (D : FancyData n m N) (O : FancyOpts) (os : ℕ) [NeZero os] [NeZero (os * n)] [NeZero (os * m)]
  (c : ℕ) [NeZero (os * n - 2 * c)] [NeZero (os * m - 2 * c)] (k : ℕ)

theorem initialObject_shape (h w : ℕ) (ro : ℕ → ℕ → ℝ) : (initialObject O h w ro).h = h ∧ (initialObject O h w ro).w = w := by
  unfold initialObject
  cases O.exponentiate <;> cases O.phaseOnly <;> exact ⟨rfl, rfl⟩

theorem objectSetup_nonneg (q : ℕ) (x : ℝ) (l : List ℝ) (padding : ℕ) : 0 ≤ (objectSetup q x l padding).1 := by
  obtain ⟨h1, h2⟩ := setup_bounds q x l padding x (by simp)
  have : ((padding : ℤ) : ℝ) ≤ (((objectSetup q x l padding).1 - q - padding : ℤ) : ℝ) := le_trans h1 h2
  have := Int.cast_le.1 this
  omega

/-- **C109** (a model fits its data): for every dataset and all options, a model made by `from_dataset` can simulate every exposure of its
dataset, unless the translation of the probe is to be simulated without probe Fourier shifts. -/
theorem from_dataset_simulates (rp : Fin k → Wave (os * n - 2 * c) (os * m - 2 * c)) (ro : ℕ → ℕ → ℝ)
    (M : Fancy (os * n - 2 * c) (os * m - 2 * c) (os * n) (os * m) N (k + 1)) (h : fancyFromDataset D O os c k rp ro = .ok M)
    (hs : O.simulateTranslation = true → O.allowFourierShifts = true) (idx : Fin N) :
    ∃ img, M.forward idx (D.translations idx) = .ok img := by
  obtain ⟨t0, rest, S, normal, W, h1, -, -, -, hM⟩ := fresh_fields D O os c k rp ro M h
  have sh := initialObject_shape O (objectSetup (os * n) (translationsToPixel S.objBasis normal t0 0)
      (rest.map fun t => translationsToPixel S.objBasis normal t 0) O.padding).1.toNat
    (objectSetup (os * m) (translationsToPixel S.objBasis normal t0 1)
      (rest.map fun t => translationsToPixel S.objBasis normal t 1) O.padding).1.toNat ro
  refine fancy_forward_succeeds M ?_ O.padding D.translations t0 rest h1 ?_ ?_ ?_ ?_ idx
  · intro hsim
    rw [hM] at hsim ⊢
    simp only at hsim ⊢
    rw [hs hsim]
    simp
  · rw [hM]
    simp only
    rw [sh.1, Int.toNat_of_nonneg (objectSetup_nonneg _ _ _ _)]
  · rw [hM]
    simp only
    rw [sh.2, Int.toNat_of_nonneg (objectSetup_nonneg _ _ _ _)]
  · rw [hM]
  · intro o ho i e
    rw [hM] at ho ⊢
    simp only [Option.some.injEq] at ho
    rw [← ho]
    simp

end fresh

/-! #### The first patterns -/

/-- The weight of an exposure: the root of its recorded intensity, relative to the average of these roots. -/
noncomputable def exposureWeight (D : FancyData n m N) (idx : Fin N) : ℝ :=
  match D.intensities with
  | none => 1
  | some I => Real.sqrt (I idx) / ((∑ i, Real.sqrt (I i)) / N)

/-- The measured mean of a pixel, less the background. -/
noncomputable def FancyData.mean (D : FancyData n m N) (i j : ℕ) : ℝ :=
  max (D.mask i j * ((∑ e, D.patterns e i j) / N) - (D.background.getD fun _ _ => 0) i j) 0

/-- The background of the first patterns: the recorded one, or a very small one. -/
noncomputable def FancyData.floor (D : FancyData n m N) (i j : ℕ) : ℝ :=
  match D.background with
  | some b => b i j
  | none => 1e-12

/-- The factor of the quantum efficiency. -/
noncomputable def FancyData.efficiency (D : FancyData n m N) (O : FancyOpts) (i j : ℕ) : ℝ :=
  if O.useQeMask then (D.qe.getD fun _ _ => 1) i j else 1

/-- Saturation. -/
noncomputable def cutAt (sat : Option ℝ) (v : ℝ) : ℝ :=
  match sat with
  | none => v
  | some s => min (max v 0) s

/-- Counts are not negative. -/
structure FancyData.Nonneg (D : FancyData n m N) : Prop where
  mask : ∀ i j, 0 ≤ D.mask i j
  patterns : ∀ e i j, 0 ≤ D.patterns e i j
  background : ∀ b, D.background = some b → ∀ i j, 0 ≤ b i j

theorem FancyData.mean_eq (D : FancyData n m N) (i j : ℕ) :
    meanCounts D.mask (List.ofFn D.patterns) (D.background.getD fun _ _ => 0) i j = D.mean i j := by
  unfold meanCounts FancyData.mean
  rw [List.map_ofFn, List.sum_ofFn, List.length_ofFn]
  rfl

/-- Arrays of the same shape under different names have the same far field. -/
theorem farField_cast {A B : ℕ} [NeZero A] [NeZero B] (hA : A = n) (hB : B = m) (w : Wave A B) (v : Wave n m)
    (h : ∀ x y, w x y = v (x.val : ZMod n) (y.val : ZMod m)) (x : ZMod A) (y : ZMod B) :
    farField w x y = farField v (x.val : ZMod n) (y.val : ZMod m) := by
  subst hA
  subst hB
  have : w = v := by
    funext x y
    rw [h, ZMod.natCast_zmod_val, ZMod.natCast_zmod_val]
  rw [this, ZMod.natCast_zmod_val, ZMod.natCast_zmod_val]

theorem sharp_farField_one (D : FancyData n m N) (hD : D.Nonneg) [NeZero (1 * n)] [NeZero (1 * m)] (x : ZMod (1 * n)) (y : ZMod (1 * m)) :
    ‖farField (sharpProbe 1 D.mask (List.ofFn D.patterns) D.background) x y‖ ^ 2 = D.mean x.val y.val := by
  obtain ⟨-, small, h1, -, h3⟩ := sharp_probe_matches_data 1 one_pos D.mask (List.ofFn D.patterns) D.background hD.mask
    (by intro p hp; obtain ⟨e, rfl⟩ := List.mem_ofFn.1 hp; exact hD.patterns e)
  have hs : ∀ x y, sharpProbe 1 D.mask (List.ofFn D.patterns) D.background x y = small (x.val : ZMod n) (y.val : ZMod m) := by
    intro x y
    have hx := ZMod.val_lt x
    have hy := ZMod.val_lt y
    have := h3 (x.val : ZMod n) (y.val : ZMod m)
    rw [ZMod.val_cast_of_lt (by omega), ZMod.val_cast_of_lt (by omega)] at this
    rw [← this]
    congr 1
    · rw [← Int.cast_natCast (R := ZMod (1 * n)), ← Int.cast_add, show ((1 * n / 2 : ℕ) : ℤ) + ((x.val : ℤ) - (n / 2 : ℕ)) = (x.val : ℤ) by
        omega, Int.cast_natCast, ZMod.natCast_zmod_val]
    · rw [← Int.cast_natCast (R := ZMod (1 * m)), ← Int.cast_add, show ((1 * m / 2 : ℕ) : ℤ) + ((y.val : ℤ) - (m / 2 : ℕ)) = (y.val : ℤ) by
        omega, Int.cast_natCast, ZMod.natCast_zmod_val]
  rw [farField_cast (one_mul n) (one_mul m) _ small hs, h1, Complex.norm_real, Real.norm_eq_abs, sq_abs, ← D.mean_eq, Real.sq_sqrt]
  exact le_max_right _ _

/-- All waves of the grid of the probe propagate freely, for the pixel size of the probe: a condition on the geometry alone. -/
def FancyData.FreeWaves (D : FancyData n m N) (os : ℕ) : Prop :=
  0 < D.wavelength ∧ 0 < D.distance ∧ 0 < (basisCol D.detBasis 0).dot (basisCol D.detBasis 0) ∧
    0 < (basisCol D.detBasis 1).dot (basisCol D.detBasis 1) ∧
    ∀ k l, Propagates (os * n) (os * m) (D.wavelength * D.distance / (n * Real.sqrt ((basisCol D.detBasis 0).dot (basisCol D.detBasis 0))))
      (D.wavelength * D.distance / (m * Real.sqrt ((basisCol D.detBasis 1).dot (basisCol D.detBasis 1)))) D.wavelength k l

theorem start_far (D : FancyData n m N) (O : FancyOpts) (os : ℕ) [NeZero os] [NeZero (os * n)] [NeZero (os * m)] (hfar : O.nearField = false)
    (hz : O.propagationDistance ≠ none → D.FreeWaves os) (S : FancyStart (os * n) (os * m)) (h : D.start O os = .ok S)
    (x : ZMod (os * n)) (y : ZMod (os * m)) :
    ‖farField S.probe x y‖ = ‖farField (sharpProbe os D.mask (List.ofFn D.patterns) D.background) x y‖ := by
  unfold FancyData.start at h
  rw [hfar] at h
  simp only [Bool.false_eq_true, if_false] at h
  rw [← Except.ok.inj h]
  cases hp : O.propagationDistance with
  | none => rfl
  | some z =>
    obtain ⟨hw, hd, h0, h1, hprop⟩ := hz (by rw [hp]; exact Option.some_ne_none z)
    simp only
    unfold sharpProbePropagated
    rw [norm_farField_nearField]
    have hn : (0 : ℝ) < n := by exact_mod_cast Nat.pos_of_ne_zero (NeZero.ne n)
    have hm : (0 : ℝ) < m := by exact_mod_cast Nat.pos_of_ne_zero (NeZero.ne m)
    have q0 := Real.sqrt_pos.2 h0
    have q1 := Real.sqrt_pos.2 h1
    have := (angular_spectrum_group (n := os * n) (m := os * m) _ _ D.wavelength (by positivity) (by positivity) hw
      (x - ((os * n / 2 : ℕ) : ZMod (os * n))) (y - ((os * m / 2 : ℕ) : ZMod (os * m)))).2.2.1 (hprop _ _) z
    rw [this.1, one_mul]

theorem sum_pixels (f : ZMod n → ZMod m → ℝ) : ∑ i ∈ range n, ∑ j ∈ range m, f i j = ∑ x, ∑ y, f x y := by
  have key : ∀ {L : ℕ} [NeZero L] (g : ZMod L → ℝ), ∑ i ∈ range L, g i = ∑ x, g x := by
    intro L _ g
    rw [← sum_window (s := 0) (by omega : 0 + L ≤ L) g]
    refine sum_congr rfl fun i hi => ?_
    rw [if_pos ⟨Nat.zero_le _, by have := mem_range.1 hi; omega⟩, Nat.sub_zero]
  rw [← key]
  exact sum_congr rfl fun i _ => key _

theorem power_eq_sum (w : Wave n m) : power w = ∑ i ∈ range n, ∑ j ∈ range m, ‖w i j‖ ^ 2 := (sum_pixels fun x y => ‖w x y‖ ^ 2).symm

section fresh2
variable (D : FancyData n m N) (O : FancyOpts) (os : ℕ) [NeZero os] [NeZero (os * n)] [NeZero (os * m)]
  (c : ℕ) [NeZero (os * n - 2 * c)] [NeZero (os * m - 2 * c)] (k : ℕ)

theorem scaleWeights_perShot (D : FancyData n m N) {k : ℕ} (W : Weights N k) (h : initialWeights N k none = .ok W) :
    scaleWeights D.intensities W = .perShot (exposureWeight D) := by
  have : W = .perShot fun _ => 1 := by
    unfold initialWeights at h
    exact (Except.ok.inj h).symm
  rw [this]
  unfold scaleWeights exposureWeight
  cases D.intensities with
  | none => rfl
  | some I =>
    simp only
    congr 1
    funext i
    rw [one_mul]

/-- Without a support, the modes of a fresh model in real space and in absolute units. -/
theorem fresh_modes (rp : Fin k → Wave (os * n - 2 * c) (os * m - 2 * c)) (ro : ℕ → ℕ → ℝ)
    (M : Fancy (os * n - 2 * c) (os * m - 2 * c) (os * n) (os * m) N (k + 1)) (h : fancyFromDataset D O os c k rp ro = .ok M)
    (hs : O.supportRadius = none) (S : FancyStart (os * n) (os * m)) (hS : D.start O os = .ok S) (hne : cropProbe c S.probe ≠ 0) :
    (fun x y => (M.probeNorm : ℂ) * M.basisProbes 0 x y) = cropProbe c S.probe ∧
    ∀ j : Fin k, power (fun x y => (M.probeNorm : ℂ) * M.basisProbes j.succ x y) =
      (0.01 * ⨆ p : ZMod (os * n - 2 * c) × ZMod (os * m - 2 * c), ‖cropProbe c S.probe p.1 p.2‖) ^ 2 * power (rp j) := by
  obtain ⟨t0, rest, S', normal, W, -, h2, -, -, hM⟩ := fresh_fields D O os c k rp ro M h
  obtain rfl : S' = S := by rw [hS] at h2; exact (Except.ok.inj h2).symm
  have hg : freshGuess O os c k rp S'.probe = probeStack O.fourierProbe rp (cropProbe c S'.probe) := by
    unfold freshGuess
    rw [hs]
  have hsup : freshSupport O (os * n - 2 * c) (os * m - 2 * c) = fun _ _ => true := by
    unfold freshSupport
    rw [hs]
  rw [hg, hsup] at hM
  have h0 : probeStack O.fourierProbe rp (cropProbe c S'.probe) 0 ≠ 0 := by
    unfold probeStack
    rw [Fin.cons_zero]
    split_ifs
    · intro hf
      apply hne
      exact (far_field_unitary.1 (cropProbe c S'.probe)).symm.trans (by rw [hf]; exact isLinear_inverseFarField.map_zero)
    · exact hne
  have hpos : (probeNormOf (probeStack O.fourierProbe rp (cropProbe c S'.probe)) : ℂ) ≠ 0 := by
    have : ∃ x y, probeStack O.fourierProbe rp (cropProbe c S'.probe) 0 x y ≠ 0 := by
      by_contra hc
      push Not at hc
      exact h0 (by funext x y; exact hc x y)
    obtain ⟨x, y, hxy⟩ := this
    have := (probeNormOf_spec (probeStack O.fourierProbe rp (cropProbe c S'.probe))).1 x y
    have hp := norm_pos_iff.2 hxy
    exact_mod_cast (lt_of_lt_of_le hp this).ne'
  have hnorm : M.probeNorm = probeNormOf (probeStack O.fourierProbe rp (cropProbe c S'.probe)) := by rw [hM]
  have hb : ∀ j, (fun x y => (M.probeNorm : ℂ) * M.basisProbes j x y) =
      if O.fourierProbe then inverseFarField (probeStack O.fourierProbe rp (cropProbe c S'.probe) j)
      else probeStack O.fourierProbe rp (cropProbe c S'.probe) j := by
    intro j
    have e : M.basisProbes j = if O.fourierProbe then
        inverseFarField ((M.probeNorm : ℂ)⁻¹ • probeStack O.fourierProbe rp (cropProbe c S'.probe) j)
        else (M.probeNorm : ℂ)⁻¹ • probeStack O.fourierProbe rp (cropProbe c S'.probe) j := by
      have e1 : (fun x y => M.probe j x y * (if M.support x y then 1 else 0) : Wave (os * n - 2 * c) (os * m - 2 * c)) =
          (M.probeNorm : ℂ)⁻¹ • probeStack O.fourierProbe rp (cropProbe c S'.probe) j := by
        funext x y
        rw [hM]
        simp [div_eq_inv_mul]
      have e2 : M.fourierProbe = O.fourierProbe := by rw [hM]
      unfold Fancy.basisProbes
      simp only
      rw [e1, e2]
    rw [e]
    rw [← hnorm] at hpos
    split_ifs
    · rw [isLinear_inverseFarField.map_smul]
      funext x y
      simp only [Pi.smul_apply, smul_eq_mul]
      rw [mul_inv_cancel_left₀ hpos]
    · funext x y
      simp only [Pi.smul_apply, smul_eq_mul]
      rw [mul_inv_cancel_left₀ hpos]
  refine ⟨?_, fun j => ?_⟩
  · rw [hb]
    unfold probeStack
    rw [Fin.cons_zero]
    split_ifs
    · exact far_field_unitary.1 _
    · rfl
  · rw [hb]
    have e : power (probeStack O.fourierProbe rp (cropProbe c S'.probe) j.succ) =
        (0.01 * ⨆ p : ZMod (os * n - 2 * c) × ZMod (os * m - 2 * c), ‖cropProbe c S'.probe p.1 p.2‖) ^ 2 * power (rp j) := by
      unfold probeStack
      rw [Fin.cons_succ, power_const_mul, Complex.norm_real, Real.norm_eq_abs, sq_abs]
    split_ifs
    · rw [far_field_unitary.2.2.2.1, e]
    · exact e

theorem fresh_ramp (rp : Fin k → Wave (os * n - 2 * c) (os * m - 2 * c)) (ro : ℕ → ℕ → ℝ)
    (M : Fancy (os * n - 2 * c) (os * m - 2 * c) (os * n) (os * m) N (k + 1)) (h : fancyFromDataset D O os c k rp ro = .ok M)
    (hs : O.simulateTranslation = false) (idx : Fin N) (t : Fin 3 → ℝ) : M.ramp idx t = fun _ _ => 1 := by
  obtain ⟨t0, rest, S', normal, W, -, h2, -, -, hM⟩ := fresh_fields D O os c k rp ro M h
  have h1 : M.fourierShifts = if O.allowFourierShifts then some 0 else none := by rw [hM]
  have h3 : M.simulateTranslation = false := by rw [hM]; exact hs
  unfold Fancy.ramp
  rw [h1, h3]
  cases O.allowFourierShifts
  · rfl
  · simp

theorem fresh_transmission (rp : Fin k → Wave (os * n - 2 * c) (os * m - 2 * c)) (ro : ℕ → ℕ → ℝ)
    (M : Fancy (os * n - 2 * c) (os * m - 2 * c) (os * n) (os * m) N (k + 1)) (h : fancyFromDataset D O os c k rp ro = .ok M)
    (hr : O.randomizeAng = 0) (i j : ℕ) : M.transmission.px i j = 1 := by
  obtain ⟨t0, rest, S', normal, W, -, h2, -, -, hM⟩ := fresh_fields D O os c k rp ro M h
  rw [hM]
  unfold Fancy.transmission initialObject Img.map
  simp only [hr, zero_mul]
  cases O.exponentiate <;> cases O.phaseOnly <;> simp

end fresh2

/-- Reading out an intensity without binning. -/
theorem measQuadratic_px (D : FancyData n m N) (hD : D.Nonneg) (O : FancyOpts) (h w : ℕ) (I : ℕ → ℕ → ℝ) :
    let img := measQuadratic { saturation := O.saturation, oversampling := 1 } D.backgroundGuess.toImg ((D.qeGuess O).map RealIm.toImg) ⟨h, w, I⟩
    img.h = h ∧ img.w = w ∧
      ∀ i j, img.px i j = cutAt O.saturation (D.efficiency O i j * (I i j + 1e-7) + D.floor i j) := by
  have hb : ∀ i j : ℕ, D.backgroundGuess i j ^ 2 = D.floor i j := by
    intro i j
    unfold FancyData.backgroundGuess FancyData.floor
    cases hc : D.background with
    | none => norm_num
    | some b => exact Real.sq_sqrt (hD.background b hc i j)
  intro img
  have hs : ∀ a : Img ℝ, (saturate O.saturation a).h = a.h ∧ (saturate O.saturation a).w = a.w ∧
      ∀ i j, (saturate O.saturation a).px i j = cutAt O.saturation (a.px i j) := by
    intro a
    unfold saturate cutAt
    cases O.saturation
    · exact ⟨rfl, rfl, fun i j => rfl⟩
    · exact ⟨rfl, rfl, fun i j => rfl⟩
  unfold img measQuadratic
  simp only
  obtain ⟨q1, q2, q3⟩ := hs (match Option.map RealIm.toImg (D.qeGuess O) with
    | none => Img.zip (fun b x => x + b ^ 2) D.backgroundGuess.toImg (readOut { oversampling := 1 } ⟨h, w, I⟩)
    | some q => Img.zip (fun b x => x + b ^ 2) D.backgroundGuess.toImg (Img.zip (fun q x => q * x) q (readOut { oversampling := 1 } ⟨h, w, I⟩)))
  refine ⟨q1.trans ?_, q2.trans ?_, fun i j => (q3 i j).trans ?_⟩
  · unfold FancyData.qeGuess
    cases O.useQeMask <;> rfl
  · unfold FancyData.qeGuess
    cases O.useQeMask <;> rfl
  · congr 1
    unfold FancyData.qeGuess FancyData.efficiency
    cases O.useQeMask
    · simp only [Bool.false_eq_true, if_false, Option.map_none, Img.zip, RealIm.toImg, readOut, saturate, cutSlice, binPixels, ne_eq,
        not_true_eq_false, Img.map, hb, one_mul]
    · simp only [if_true, Option.map_some, Img.zip, RealIm.toImg, readOut, saturate, cutSlice, binPixels, ne_eq,
        not_true_eq_false, if_false, Img.map, hb]

/-- **C109** (the first patterns in the far field): take any dataset of non-negative counts, without oversampling, with a uniform initial object
(`randomize_ang=0`), one weight per exposure, no probe support, and any number of modes, Fourier crop `c`, probe Fourier shifts, Fourier-space
probe, propagation distance (if all waves of the grid propagate), quantum efficiency and saturation. Then the new model simulates every
exposure of the dataset; the pattern is, at each pixel, the mean of the measured patterns (masked, background subtracted) in the part of the
detector that the Fourier crop leaves, zero in the rest, plus the same extra intensity `E` of the random modes for every exposure; times the
relative intensity of the exposure; with efficiency, background and saturation applied. The total of `E` is that of the random modes, `0.01`
times the peak of the probe times the random numbers, and the peak is at most the root of the total counts. -/
theorem initial_patterns_far (D : FancyData n m N) (hD : D.Nonneg) (O : FancyOpts) (c : ℕ) [NeZero (1 * n)] [NeZero (1 * m)]
    [NeZero (1 * n - 2 * c)] [NeZero (1 * m - 2 * c)] (k : ℕ) (rp : Fin k → Wave (1 * n - 2 * c) (1 * m - 2 * c)) (ro : ℕ → ℕ → ℝ)
    (M : Fancy (1 * n - 2 * c) (1 * m - 2 * c) (1 * n) (1 * m) N (k + 1)) (h : fancyFromDataset D O 1 c k rp ro = .ok M)
    (hfar : O.nearField = false) (hr : O.randomizeAng = 0) (hdm : O.dmRank = none) (hsup : O.supportRadius = none)
    (hsim : O.simulateTranslation = false) (hz : O.propagationDistance ≠ none → D.FreeWaves 1)
    (hne : ∃ i j, c ≤ i ∧ i < n - c ∧ c ≤ j ∧ j < m - c ∧ D.mean i j ≠ 0) :
    ∃ (E : ℕ → ℕ → ℝ) (peak : ℝ), (∀ i j, 0 ≤ E i j) ∧ 0 ≤ peak ∧ peak ^ 2 ≤ ∑ i ∈ range n, ∑ j ∈ range m, D.mean i j ∧
      ∑ i ∈ range n, ∑ j ∈ range m, E i j = (0.01 * peak) ^ 2 * ∑ e, power (rp e) ∧
      ∀ idx, ∃ img, M.forward idx (D.translations idx) = .ok img ∧ img.h = n ∧ img.w = m ∧ ∀ i < n, ∀ j < m,
        img.px i j = cutAt O.saturation (D.efficiency O i j * (exposureWeight D idx ^ 2 *
          ((if c ≤ i ∧ i < n - c ∧ c ≤ j ∧ j < m - c then D.mean i j else 0) + E i j) + 1e-7) + D.floor i j) := by
  obtain ⟨t0, rest, S, normal, W, h1, h2, h3, h4, hM⟩ := fresh_fields D O 1 c k rp ro M h
  have hfS : ∀ x y, ‖farField S.probe x y‖ ^ 2 = D.mean x.val y.val := by
    intro x y
    rw [start_far D O 1 hfar hz S h2, sharp_farField_one D hD]
  have ha := NeZero.ne (1 * n - 2 * c)
  have hb := NeZero.ne (1 * m - 2 * c)
  have hmain : ∀ x y, ‖farField (padProbe (1 * n) (1 * m) (cropProbe c S.probe)) x y‖ ^ 2 =
      if c ≤ x.val ∧ x.val < n - c ∧ c ≤ y.val ∧ y.val < m - c then D.mean x.val y.val else 0 := by
    intro x y
    rw [farField_pad_crop]
    by_cases hc : c ≤ x.val ∧ x.val < n - c ∧ c ≤ y.val ∧ y.val < m - c
    · rw [if_pos hc, if_pos (by omega), hfS]
    · rw [if_neg hc, if_neg (by omega)]
      simp
  have hcrop : cropProbe c S.probe ≠ 0 := by
    intro h0
    obtain ⟨i, j, hi, hi', hj, hj', hm⟩ := hne
    have := hmain (i : ZMod (1 * n)) (j : ZMod (1 * m))
    rw [ZMod.val_cast_of_lt (by omega), ZMod.val_cast_of_lt (by omega), if_pos ⟨hi, hi', hj, hj'⟩, h0,
      isLinear_padProbe.map_zero, isLinear_farField.map_zero] at this
    apply hm
    rw [← this]
    simp
  obtain ⟨m0, mj⟩ := fresh_modes D O 1 c k rp ro M h hsup S h2 hcrop
  set peak := ⨆ p : ZMod (1 * n - 2 * c) × ZMod (1 * m - 2 * c), ‖cropProbe c S.probe p.1 p.2‖ with hpeak
  have hnear : M.nearField = false := by rw [hM]; exact hfar
  have hbeam : ∀ p, M.emptyBeam p = farField (padProbe (1 * n) (1 * m) p) := by
    intro p
    unfold Fancy.emptyBeam
    rw [hnear]
    rfl
  have hn1 : 1 * n = n := one_mul n
  have hm1 : 1 * m = m := one_mul m
  have hrange : ∀ f : ℕ → ℕ → ℝ, ∑ i ∈ range n, ∑ j ∈ range m, f i j = ∑ i ∈ range (1 * n), ∑ j ∈ range (1 * m), f i j := by
    intro f; rw [hn1, hm1]
  refine ⟨fun i j => ∑ e : Fin k, ‖M.emptyBeam (fun x y => (M.probeNorm : ℂ) * M.basisProbes e.succ x y) (i : ZMod (1 * n)) (j : ZMod (1 * m))‖ ^ 2,
    peak, fun i j => by positivity, Real.iSup_nonneg fun p => norm_nonneg _, ?_, ?_, fun idx => ?_⟩
  · have hp : power (cropProbe c S.probe) ≤ ∑ i ∈ range n, ∑ j ∈ range m, D.mean i j := by
      rw [← power_padProbe (a := 1 * n) (b := 1 * m) (by omega) (by omega), ← far_field_unitary.2.2.1, hrange, power_eq_sum]
      refine sum_le_sum fun i hi => sum_le_sum fun j hj => ?_
      rw [hmain, ZMod.val_cast_of_lt (mem_range.1 hi), ZMod.val_cast_of_lt (mem_range.1 hj)]
      split_ifs
      · exact le_rfl
      · exact le_max_right _ _
    refine le_trans ?_ hp
    obtain ⟨q, hq⟩ := exists_eq_ciSup_of_finite (f := fun p : ZMod (1 * n - 2 * c) × ZMod (1 * m - 2 * c) => ‖cropProbe c S.probe p.1 p.2‖)
    rw [hpeak, ← hq]
    unfold power
    exact le_trans (single_le_sum (f := fun y => ‖cropProbe c S.probe q.1 y‖ ^ 2) (fun y _ => by positivity) (mem_univ q.2))
      (single_le_sum (f := fun x => ∑ y, ‖cropProbe c S.probe x y‖ ^ 2) (fun x _ => sum_nonneg fun y _ => by positivity) (mem_univ q.1))
  · rw [hrange, mul_sum]
    simp only [sum_comm (t := (univ : Finset (Fin k)))]
    refine sum_congr rfl fun e _ => ?_
    rw [← mj e, hbeam, ← power_eq_sum, far_field_unitary.2.2.1, power_padProbe (by omega) (by omega)]
  · obtain ⟨img, himg⟩ := from_dataset_simulates D O 1 c k rp ro M h (by rw [hsim]; simp) idx
    have hw : M.weights = .perShot (exposureWeight D) := by
      rw [hM]
      rw [hdm] at h4
      exact scaleWeights_perShot D W h4
    have he := forward_empty M idx (D.translations idx) (exposureWeight D) hw (fresh_ramp D O 1 c k rp ro M h hsim idx _)
      (fresh_transmission D O 1 c k rp ro M h hr) img himg
    have hf : M.saturation = O.saturation ∧ M.oversampling = 1 ∧ M.background = D.backgroundGuess.toImg ∧
        M.qe = (D.qeGuess O).map RealIm.toImg := by rw [hM]; exact ⟨rfl, rfl, rfl, rfl⟩
    rw [hf.1, hf.2.1, hf.2.2.1, hf.2.2.2] at he
    obtain ⟨g1, g2, g3⟩ := measQuadratic_px D hD O (1 * n) (1 * m) fun x y => exposureWeight D idx ^ 2 *
      ∑ j, ‖M.emptyBeam (fun x y => (M.probeNorm : ℂ) * M.basisProbes j x y) x y‖ ^ 2
    rw [← he] at g1 g2 g3
    refine ⟨img, himg, g1.trans hn1, g2.trans hm1, fun i hi j hj => (g3 i j).trans ?_⟩
    simp only
    rw [Fin.sum_univ_succ, m0, hbeam, hmain, ZMod.val_cast_of_lt (by omega), ZMod.val_cast_of_lt (by omega)]

/-! #### Total intensity with oversampling -/

theorem toDetector_power {a b k : ℕ} [NeZero a] [NeZero b] (M : Fancy n m a b N k) (hfar : M.nearField = false) (ha : n ≤ a) (hb : m ≤ b)
    (idx : Fin N) (t : Fin 3 → ℝ) (hr : M.ramp idx t = fun _ _ => 1) (sel : Wave a b) (hs : ∀ x y, ‖sel x y‖ = 1) (p : Wave n m) :
    power (M.toDetector idx t sel p) = power (fun x y => (M.probeNorm : ℂ) * p x y) := by
  unfold Fancy.toDetector Fancy.propagate
  simp only [hfar, Bool.false_eq_true, if_false, hr, mul_one]
  rw [far_field_unitary.2.2.1, power_const_mul, power_const_mul, sincApply_power _ _ _ _ hs, power_padProbe ha hb]

/-- The transmission of a new model has modulus one everywhere, except with `phase_only` without `exponentiate_obj`. -/
theorem initial_transmission_norm (D : FancyData n m N) (O : FancyOpts) (os : ℕ) [NeZero os] [NeZero (os * n)] [NeZero (os * m)]
    (c : ℕ) [NeZero (os * n - 2 * c)] [NeZero (os * m - 2 * c)] (k : ℕ) (rp : Fin k → Wave (os * n - 2 * c) (os * m - 2 * c)) (ro : ℕ → ℕ → ℝ)
    (M : Fancy (os * n - 2 * c) (os * m - 2 * c) (os * n) (os * m) N (k + 1)) (h : fancyFromDataset D O os c k rp ro = .ok M)
    (hp : O.phaseOnly = true → O.exponentiate = true) (i j : ℕ) :
    M.transmission.px i j = Complex.exp (Complex.I * ((O.randomizeAng * (ro i j - 0.5) : ℝ) : ℂ)) ∧ ‖M.transmission.px i j‖ = 1 := by
  obtain ⟨t0, rest, S', normal, W, -, h2, -, -, hM⟩ := fresh_fields D O os c k rp ro M h
  have key : M.transmission.px i j = Complex.exp (Complex.I * ((O.randomizeAng * (ro i j - 0.5) : ℝ) : ℂ)) := by
    rw [hM]
    unfold Fancy.transmission initialObject Img.map
    cases he : O.exponentiate <;> cases ho : O.phaseOnly
    · rfl
    · rw [he, ho] at hp; simp at hp
    · rfl
    · simp only [if_true, Complex.ofReal_re]
  refine ⟨key, ?_⟩
  rw [key, mul_comm]
  exact Complex.norm_exp_ofReal_mul_I _

/-- **C109** (object, violated): with `phase_only` but not `exponentiate_obj` the initial object is not a phase object: it is the real
array of the cosines of the random phases, and every pixel with a phase that is not a multiple of `π` absorbs. -/
theorem initial_phase_only_violated (D : FancyData n m N) (O : FancyOpts) (os : ℕ) [NeZero os] [NeZero (os * n)] [NeZero (os * m)]
    (c : ℕ) [NeZero (os * n - 2 * c)] [NeZero (os * m - 2 * c)] (k : ℕ) (rp : Fin k → Wave (os * n - 2 * c) (os * m - 2 * c)) (ro : ℕ → ℕ → ℝ)
    (M : Fancy (os * n - 2 * c) (os * m - 2 * c) (os * n) (os * m) N (k + 1)) (h : fancyFromDataset D O os c k rp ro = .ok M)
    (hp : O.phaseOnly = true) (he : O.exponentiate = false) (i j : ℕ) :
    M.transmission.px i j = (Real.cos (O.randomizeAng * (ro i j - 0.5)) : ℂ) ∧
      (Real.sin (O.randomizeAng * (ro i j - 0.5)) ≠ 0 → ‖M.transmission.px i j‖ < 1) := by
  obtain ⟨t0, rest, S', normal, W, -, h2, -, -, hM⟩ := fresh_fields D O os c k rp ro M h
  have key : M.transmission.px i j = (Real.cos (O.randomizeAng * (ro i j - 0.5)) : ℂ) := by
    rw [hM]
    unfold Fancy.transmission initialObject Img.map
    simp only [he, hp, Bool.false_eq_true, if_false, if_true]
    rw [mul_comm Complex.I, Complex.exp_ofReal_mul_I_re]
  refine ⟨key, fun hsin => ?_⟩
  rw [key, Complex.norm_real, Real.norm_eq_abs, ← sq_lt_one_iff_abs_lt_one]
  have := Real.sin_sq_add_cos_sq (O.randomizeAng * (ro i j - 0.5))
  have := pow_pos (abs_pos.2 hsin) 2
  rw [sq_abs] at this
  linarith

/-- **C109** (total counts): in the far field, for every oversampling `os`, one mode and a random or uniform initial object of modulus one, the total of
every simulated pattern is the total of the mean measured pattern (masked, background subtracted) times the relative intensity of the exposure, **divided
by `os²`**, plus the background. -/
theorem initial_total (D : FancyData n m N) (hD : D.Nonneg) (O : FancyOpts) (os : ℕ) [NeZero os] [NeZero (os * n)] [NeZero (os * m)]
    [NeZero (os * n - 2 * 0)] [NeZero (os * m - 2 * 0)] (rp : Fin 0 → Wave (os * n - 2 * 0) (os * m - 2 * 0)) (ro : ℕ → ℕ → ℝ)
    (M : Fancy (os * n - 2 * 0) (os * m - 2 * 0) (os * n) (os * m) N 1) (h : fancyFromDataset D O os 0 0 rp ro = .ok M)
    (hfar : O.nearField = false) (hp : O.phaseOnly = true → O.exponentiate = true) (hdm : O.dmRank = none) (hsup : O.supportRadius = none)
    (hsim : O.simulateTranslation = false) (hz : O.propagationDistance ≠ none → D.FreeWaves os) (hqe : O.useQeMask = false)
    (hsat : O.saturation = none) (hne : ∃ i < n, ∃ j < m, D.mean i j ≠ 0) (idx : Fin N) :
    ∃ img, M.forward idx (D.translations idx) = .ok img ∧ img.h = n ∧ img.w = m ∧
      img.total = exposureWeight D idx ^ 2 * (∑ i ∈ range n, ∑ j ∈ range m, D.mean i j) / os ^ 2 +
        ∑ i ∈ range n, ∑ j ∈ range m, (D.floor i j + 1e-7) := by
  have hos : 0 < os := Nat.pos_of_ne_zero (NeZero.ne os)
  obtain ⟨t0, rest, S, normal, W, h1, h2, h3, h4, hM⟩ := fresh_fields D O os 0 0 rp ro M h
  have hpow : power S.probe = ∑ i ∈ range n, ∑ j ∈ range m, D.mean i j := by
    have e := (sharp_probe_matches_data os hos D.mask (List.ofFn D.patterns) D.background hD.mask
      (by intro p hp; obtain ⟨e, rfl⟩ := List.mem_ofFn.1 hp; exact hD.patterns e)).1
    rw [← sum_pixels] at e
    rw [← far_field_unitary.2.2.1]
    have e2 : power (farField S.probe) = power (sharpProbe os D.mask (List.ofFn D.patterns) D.background) := by
      rw [← far_field_unitary.2.2.1 (sharpProbe os D.mask (List.ofFn D.patterns) D.background)]
      unfold power
      exact sum_congr rfl fun x _ => sum_congr rfl fun y _ => by rw [start_far D O os hfar hz S h2]
    rw [e2, e]
    exact sum_congr rfl fun i _ => sum_congr rfl fun j _ => D.mean_eq i j
  have hmean : ∀ i j, 0 ≤ D.mean i j := fun i j => le_max_right _ _
  have hcrop : cropProbe 0 S.probe = S.probe := cropProbe_zero S.probe
  have hS0 : cropProbe 0 S.probe ≠ 0 := by
    intro h0
    obtain ⟨i, hi, j, hj, hij⟩ := hne
    have hz' : power S.probe = 0 := by
      rw [← hcrop, h0]
      simp [power]
    rw [hpow] at hz'
    have := (sum_eq_zero_iff_of_nonneg fun i _ => sum_nonneg fun j _ => hmean i j).1 hz' i (mem_range.2 hi)
    exact hij ((sum_eq_zero_iff_of_nonneg fun j _ => hmean i j).1 this j (mem_range.2 hj))
  obtain ⟨m0, -⟩ := fresh_modes D O os 0 0 rp ro M h hsup S h2 hS0
  have hr := fresh_ramp D O os 0 0 rp ro M h hsim idx (D.translations idx)
  have hnear : M.nearField = false := by rw [hM]; exact hfar
  have hw : M.weights = .perShot (exposureWeight D) := by
    rw [hM]
    rw [hdm] at h4
    exact scaleWeights_perShot D W h4
  obtain ⟨img, himg⟩ := from_dataset_simulates D O os 0 0 rp ro M h (by rw [hsim]; simp) idx
  have hforward := himg
  unfold Fancy.forward at himg
  split_ifs at himg
  cases hsel : objWindow (os * n) (os * m) M.transmission ⌊M.pixTrans idx (D.translations idx) 0⌋ ⌊M.pixTrans idx (D.translations idx) 1⌋ with
  | error e => simp only [hsel] at himg; cases himg
  | ok sel =>
    simp only [hsel] at himg
    have hsn : ∀ x y, ‖sel x y‖ = 1 := by
      unfold objWindow at hsel
      simp only at hsel
      split_ifs at hsel
      intro x y
      rw [← Except.ok.inj hsel]
      exact (initial_transmission_norm D O os 0 0 rp ro M h hp _ _).2
    have hf : M.saturation = none ∧ M.oversampling = os ∧ M.background = D.backgroundGuess.toImg ∧ M.qe = none := by
      rw [hM]
      refine ⟨hsat, rfl, rfl, ?_⟩
      simp only
      unfold FancyData.qeGuess
      rw [hqe]
      rfl
    have hi := (Except.ok.inj himg).symm
    rw [hf.1, hf.2.1, hf.2.2.1, hf.2.2.2] at hi
    beta_reduce at hi
    generalize hmodes : sumModes (os * n) (os * m) _ = A at hi
    have hA : A.h = os * n ∧ A.w = os * m ∧ A.total = exposureWeight D idx ^ 2 * ∑ i ∈ range n, ∑ j ∈ range m, D.mean i j := by
      rw [← hmodes]
      refine ⟨rfl, rfl, ?_⟩
      unfold Img.total sumModes
      simp only
      have e : ∀ i j : ℕ, (List.map (fun ψ : ℕ → ℕ → ℂ => ‖ψ i j‖ ^ 2) (List.ofFn fun e => fun (x y : ℕ) => M.toDetector idx (D.translations idx) sel
          (shotProbes M.weights idx M.basisProbes e) x y)).sum = ‖M.toDetector idx (D.translations idx) sel
            (fun x y => (exposureWeight D idx : ℂ) * M.basisProbes 0 x y) i j‖ ^ 2 := by
        intro i j
        rw [List.map_ofFn, List.sum_ofFn, hw]
        exact Fin.sum_univ_one _
      refine (sum_congr rfl fun i _ => sum_congr rfl fun j _ => e i j).trans ?_
      rw [← power_eq_sum, toDetector_power M hnear (by omega) (by omega) idx _ hr sel hsn]
      have e3 : (fun x y => (M.probeNorm : ℂ) * ((exposureWeight D idx : ℂ) * M.basisProbes 0 x y)) =
          fun x y => (exposureWeight D idx : ℂ) * cropProbe 0 S.probe x y := by
        rw [← m0]
        funext x y
        ring
      rw [e3, power_const_mul, Complex.norm_real, Real.norm_eq_abs, sq_abs, ← hpow]
      exact congrArg (fun w => exposureWeight D idx ^ 2 * power w) hcrop
    obtain ⟨b1, b2, b3, -⟩ := oversampling_averages_blocks { oversampling := os } rfl rfl hos A
    have hpool := downsample_conserves_counts os hos none A ((maskedBy none A).sumPool os) (sumPool_blockSums os none A)
      (by rw [hA.1]; exact Dvd.intro _ rfl) (by rw [hA.2.1]; exact Dvd.intro _ rfl)
    simp only [usableValue_none] at hpool
    have hdiv0 : os * n / os = n := Nat.mul_div_cancel_left n hos
    have hdiv1 : os * m / os = m := Nat.mul_div_cancel_left m hos
    have hih : img.h = n ∧ img.w = m := by
      rw [hi]
      refine ⟨?_, ?_⟩
      · show (readOut { oversampling := os } A).h = n
        rw [b1, hA.1, hdiv0]
      · show (readOut { oversampling := os } A).w = m
        rw [b2, hA.2.1, hdiv1]
    have hb : ∀ i j : ℕ, D.backgroundGuess i j ^ 2 = D.floor i j := by
      intro i j
      unfold FancyData.backgroundGuess FancyData.floor
      cases hc : D.background with
      | none => norm_num
      | some b => exact Real.sq_sqrt (hD.background b hc i j)
    have hpx : ∀ i j, img.px i j = ((maskedBy none A).sumPool os).px i j / os ^ 2 + (D.floor i j + 1e-7) := by
      intro i j
      have e : img.px i j = (readOut { oversampling := os } A).px i j + D.backgroundGuess i j ^ 2 := by rw [hi]; rfl
      rw [e, b3, hb, sumPool_px]
      simp only [maskedBy]
      ring
    refine ⟨img, hforward, hih.1, hih.2, ?_⟩
    have ht : ((maskedBy none A).sumPool os).total = A.total := hpool
    have ht2 : ((maskedBy none A).sumPool os).h = n ∧ ((maskedBy none A).sumPool os).w = m := by
      refine ⟨?_, ?_⟩
      · show A.h / os = n
        rw [hA.1, hdiv0]
      · show A.w / os = m
        rw [hA.2.1, hdiv1]
    rw [← hA.2.2, ← ht]
    unfold Img.total
    rw [hih.1, hih.2, ht2.1, ht2.2]
    simp only [hpx, sum_add_distrib, sum_div]

/-- **C109** (violated): with oversampling the new model is too dark: the total of each pattern, above the background, is less than that of the mean
measured pattern (for the relative intensity of the exposure). -/
theorem initial_total_violated (D : FancyData n m N) (hD : D.Nonneg) (O : FancyOpts) (os : ℕ) (h2 : 2 ≤ os) [NeZero os] [NeZero (os * n)] [NeZero (os * m)]
    [NeZero (os * n - 2 * 0)] [NeZero (os * m - 2 * 0)] (rp : Fin 0 → Wave (os * n - 2 * 0) (os * m - 2 * 0)) (ro : ℕ → ℕ → ℝ)
    (M : Fancy (os * n - 2 * 0) (os * m - 2 * 0) (os * n) (os * m) N 1) (h : fancyFromDataset D O os 0 0 rp ro = .ok M)
    (hfar : O.nearField = false) (hp : O.phaseOnly = true → O.exponentiate = true) (hdm : O.dmRank = none) (hsup : O.supportRadius = none)
    (hsim : O.simulateTranslation = false) (hz : O.propagationDistance ≠ none → D.FreeWaves os) (hqe : O.useQeMask = false)
    (hsat : O.saturation = none) (hne : ∃ i < n, ∃ j < m, D.mean i j ≠ 0) (idx : Fin N) (hw : exposureWeight D idx ≠ 0) :
    ∃ img, M.forward idx (D.translations idx) = .ok img ∧
      img.total - ∑ i ∈ range n, ∑ j ∈ range m, (D.floor i j + 1e-7) <
        exposureWeight D idx ^ 2 * (∑ i ∈ range n, ∑ j ∈ range m, D.mean i j) / 2 := by
  obtain ⟨img, hi, -, -, ht⟩ := initial_total D hD O os rp ro M h hfar hp hdm hsup hsim hz hqe hsat hne idx
  refine ⟨img, hi, ?_⟩
  rw [ht, add_sub_cancel_right]
  have hmean : ∀ i j, 0 ≤ D.mean i j := fun i j => le_max_right _ _
  have hpos : 0 < ∑ i ∈ range n, ∑ j ∈ range m, D.mean i j := by
    obtain ⟨i, hi, j, hj, hij⟩ := hne
    refine sum_pos' (fun i _ => sum_nonneg fun j _ => hmean i j) ⟨i, mem_range.2 hi, ?_⟩
    exact sum_pos' (fun j _ => hmean i j) ⟨j, mem_range.2 hj, lt_of_le_of_ne (hmean i j) (Ne.symm hij)⟩
  have hw2 : 0 < exposureWeight D idx ^ 2 := by positivity
  have hp2 := mul_pos hw2 hpos
  have hos : (4 : ℝ) ≤ (os : ℝ) ^ 2 := by
    have : (2 : ℝ) ≤ os := by exact_mod_cast h2
    nlinarith
  rw [div_lt_div_iff₀ (by positivity) (by norm_num)]
  nlinarith

/-! #### Near field -/

theorem near_upsample_one [NeZero (1 * n)] [NeZero (1 * m)] (im : Wave n m) (x : ZMod (1 * n)) (y : ZMod (1 * m)) :
    fourierUpsample 1 false im x y = im (x.val : ZMod n) (y.val : ZMod m) := by
  have key : ∀ {A B : ℕ} [NeZero A] [NeZero B] (_ : A = n) (_ : B = m) (x : ZMod A) (y : ZMod B),
      inverseFarField (fun a b => (if 0 ≤ a.val ∧ a.val < 0 + n ∧ 0 ≤ b.val ∧ b.val < 0 + m then
        farField im ((a.val - 0 : ℕ) : ZMod n) ((b.val - 0 : ℕ) : ZMod m) else 0) * 1 : Wave A B) x y = im (x.val : ZMod n) (y.val : ZMod m) := by
    intro A B _ _ hA hB x y
    subst hA
    subst hB
    have : (fun a b => (if 0 ≤ a.val ∧ a.val < 0 + A ∧ 0 ≤ b.val ∧ b.val < 0 + B then
        farField im ((a.val - 0 : ℕ) : ZMod A) ((b.val - 0 : ℕ) : ZMod B) else 0) * 1 : Wave A B) = farField im := by
      funext a b
      have := ZMod.val_lt a
      have := ZMod.val_lt b
      rw [if_pos (by omega), mul_one, Nat.sub_zero, Nat.sub_zero, ZMod.natCast_zmod_val, ZMod.natCast_zmod_val]
    rw [this, far_field_unitary.1, ZMod.natCast_zmod_val, ZMod.natCast_zmod_val]
  unfold fourierUpsample
  simp only [Nat.sub_self, zero_mul, Nat.zero_div, Bool.false_eq_true, if_false]
  exact key (one_mul n) (one_mul m) x y

theorem near_cast {A B : ℕ} [NeZero A] [NeZero B] (hA : A = n) (hB : B = m) (G : NearGeometry) (wl : ℝ) (w : Wave A B) (v : Wave n m)
    (h : ∀ x y, w x y = v (x.val : ZMod n) (y.val : ZMod m)) (x : ZMod A) (y : ZMod B) :
    nearField (G.propagator wl A B) w x y = nearField (G.propagator wl n m) v (x.val : ZMod n) (y.val : ZMod m) := by
  subst hA
  subst hB
  have : w = v := by
    funext x y
    rw [h, ZMod.natCast_zmod_val, ZMod.natCast_zmod_val]
  rw [this, ZMod.natCast_zmod_val, ZMod.natCast_zmod_val]

/-- **C109** (the first patterns in the near field): without oversampling, with a uniform initial object, one weight per exposure, one mode, no support
and no Fourier crop, and if all waves reach the detector, a new near-field model simulates for every exposure the mean measured pattern times the
relative intensity of the exposure, with efficiency, background and saturation. -/
theorem initial_patterns_near (D : FancyData n m N) (hD : D.Nonneg) (O : FancyOpts) [NeZero (1 * n)] [NeZero (1 * m)]
    [NeZero (1 * n - 2 * 0)] [NeZero (1 * m - 2 * 0)] (rp : Fin 0 → Wave (1 * n - 2 * 0) (1 * m - 2 * 0)) (ro : ℕ → ℕ → ℝ)
    (M : Fancy (1 * n - 2 * 0) (1 * m - 2 * 0) (1 * n) (1 * m) N 1) (h : fancyFromDataset D O 1 0 0 rp ro = .ok M)
    (hnear : O.nearField = true) (hr : O.randomizeAng = 0) (hdm : O.dmRank = none) (hsup : O.supportRadius = none)
    (hsim : O.simulateTranslation = false) (hw0 : 0 < D.wavelength)
    (hreach : ∀ G, nearGeometry D.detBasis D.distance O.propagationDistance 1 = .ok G → ∀ k l, G.Reaches D.wavelength n m k l)
    (hne : ∃ i < n, ∃ j < m, D.mean i j ≠ 0) (idx : Fin N) :
    ∃ img, M.forward idx (D.translations idx) = .ok img ∧ img.h = n ∧ img.w = m ∧ ∀ i < n, ∀ j < m,
      img.px i j = cutAt O.saturation (D.efficiency O i j * (exposureWeight D idx ^ 2 * D.mean i j + 1e-7) + D.floor i j) := by
  obtain ⟨t0, rest, S, normal, W, h1, h2, h3, h4, hM⟩ := fresh_fields D O 1 0 0 rp ro M h
  have hstart := h2
  unfold FancyData.start at hstart
  rw [hnear] at hstart
  simp only [if_true] at hstart
  cases hG : nearGeometry D.detBasis D.distance O.propagationDistance 1 with
  | error e => rw [hG] at hstart; cases hstart
  | ok G =>
    rw [hG] at hstart
    have hS := (Except.ok.inj hstart).symm
    have hbeamS : ∀ x y, ‖nearField S.propagator S.probe x y‖ ^ 2 = D.mean x.val y.val := by
      intro x y
      rw [hS]
      simp only
      rw [near_cast (one_mul n) (one_mul m) G D.wavelength
        (sharpNearOversampled 1 (G.backward D.wavelength) D.mask (List.ofFn D.patterns) D.background) (sharpNearGuess (G.backward D.wavelength) D.mask (List.ofFn D.patterns) D.background)
        (fun x y => near_upsample_one _ x y)]
      rw [near_initial_probe G D.wavelength hw0 (hreach G hG) D.mask (List.ofFn D.patterns) hD.mask
        (by intro p hp; obtain ⟨e, rfl⟩ := List.mem_ofFn.1 hp; exact hD.patterns e) D.background]
      rw [← D.mean_eq]
      unfold meanCounts
      rw [List.sum_map_mul_left, mul_div_assoc]
    have hcrop : cropProbe 0 S.probe = S.probe := cropProbe_zero S.probe
    have hS0 : cropProbe 0 S.probe ≠ 0 := by
      intro h0
      obtain ⟨i, hi, j, hj, hij⟩ := hne
      have hz : S.probe = 0 := hcrop.symm.trans h0
      have := hbeamS (i : ZMod (1 * n)) (j : ZMod (1 * m))
      rw [hz, (isLinear_nearField S.propagator).map_zero, ZMod.val_cast_of_lt (by omega), ZMod.val_cast_of_lt (by omega)] at this
      apply hij
      rw [← this]
      simp
    obtain ⟨m0, -⟩ := fresh_modes D O 1 0 0 rp ro M h hsup S h2 hS0
    obtain ⟨img, himg⟩ := from_dataset_simulates D O 1 0 0 rp ro M h (by rw [hsim]; simp) idx
    have hw : M.weights = .perShot (exposureWeight D) := by
      rw [hM]
      rw [hdm] at h4
      exact scaleWeights_perShot D W h4
    have he := forward_empty M idx (D.translations idx) (exposureWeight D) hw (fresh_ramp D O 1 0 0 rp ro M h hsim idx _)
      (fresh_transmission D O 1 0 0 rp ro M h hr) img himg
    have hf : M.saturation = O.saturation ∧ M.oversampling = 1 ∧ M.background = D.backgroundGuess.toImg ∧
        M.qe = (D.qeGuess O).map RealIm.toImg ∧ M.nearField = true ∧ M.propagator = S.propagator := by
      rw [hM]; exact ⟨rfl, rfl, rfl, rfl, hnear, rfl⟩
    rw [hf.1, hf.2.1, hf.2.2.1, hf.2.2.2.1] at he
    obtain ⟨g1, g2, g3⟩ := measQuadratic_px D hD O (1 * n) (1 * m) fun x y => exposureWeight D idx ^ 2 *
      ∑ j, ‖M.emptyBeam (fun x y => (M.probeNorm : ℂ) * M.basisProbes j x y) x y‖ ^ 2
    rw [← he] at g1 g2 g3
    refine ⟨img, himg, g1.trans (one_mul n), g2.trans (one_mul m), fun i hi j hj => (g3 i j).trans ?_⟩
    rw [Fin.sum_univ_one, m0]
    have hb : M.emptyBeam (cropProbe 0 S.probe) = nearField S.propagator S.probe := by
      unfold Fancy.emptyBeam
      rw [hf.2.2.2.2.1, hf.2.2.2.2.2, if_pos rfl]
      refine congrArg (nearField S.propagator) ?_
      rw [hcrop]
      exact padProbe_self S.probe
    rw [hb, hbeamS, ZMod.val_cast_of_lt (by omega), ZMod.val_cast_of_lt (by omega)]

/-! #### Support and pixel size -/

/-- **C109** (support): the support of radius `r` consists of the pixels whose distance from the middle of the array, the point
`((A - 1)/2, (B - 1)/2)`, is less than `r`; a new model has no probe outside, in the space in which the probe is stored. -/
theorem probe_support_disc (D : FancyData n m N) (O : FancyOpts) (os : ℕ) [NeZero os] [NeZero (os * n)] [NeZero (os * m)]
    (c : ℕ) [NeZero (os * n - 2 * c)] [NeZero (os * m - 2 * c)] (k : ℕ) (rp : Fin k → Wave (os * n - 2 * c) (os * m - 2 * c)) (ro : ℕ → ℕ → ℝ)
    (M : Fancy (os * n - 2 * c) (os * m - 2 * c) (os * n) (os * m) N (k + 1)) (h : fancyFromDataset D O os c k rp ro = .ok M)
    (r : ℝ) (hr : 0 < r) (hs : O.supportRadius = some r) (x : ZMod (os * n - 2 * c)) (y : ZMod (os * m - 2 * c)) :
    (M.support x y = true ↔ ((2 * x.val + 1 : ℝ) - (os * n - 2 * c : ℕ)) ^ 2 + ((2 * y.val + 1 : ℝ) - (os * m - 2 * c : ℕ)) ^ 2 < (2 * r) ^ 2) ∧
    (M.support x y = false → ∀ j, M.probe j x y = 0) := by
  obtain ⟨t0, rest, S', normal, W, -, h2, -, -, hM⟩ := fresh_fields D O os c k rp ro M h
  have hsup : M.support = supportDisc (os * n - 2 * c) (os * m - 2 * c) r := by
    rw [hM]
    simp only
    unfold freshSupport
    rw [hs]
  refine ⟨?_, fun hx j => ?_⟩
  · rw [hsup]
    unfold supportDisc
    rw [decide_eq_true_eq, Real.sqrt_lt' hr]
    constructor <;> intro hh <;> nlinarith
  · have hx' : freshSupport O (os * n - 2 * c) (os * m - 2 * c) x y = false := by
      rw [← hx, hM]
    rw [hM]
    simp only [hx', Bool.false_eq_true, if_false, mul_zero]

/-- **C109** (support, violated): on an array with an even number of rows the support is not centred on the pixel in the middle, where the guessed
probe has its focus: for every `d`, the radius `r = d` (in an array with one column) leaves the pixel `d` rows above the middle in and the pixel `d` rows
below out. -/
theorem support_centre_violated (A d : ℕ) (hA : Even A) (hd : 1 ≤ d) (hdA : d < A / 2) :
    supportDisc A 1 d ((A / 2 - d : ℕ) : ZMod A) 0 = true ∧ supportDisc A 1 d ((A / 2 + d : ℕ) : ZMod A) 0 = false := by
  obtain ⟨q, rfl⟩ := hA
  have e : (q + q) / 2 = q := by omega
  rw [e] at hdA ⊢
  have hd' : (0 : ℝ) < d := by exact_mod_cast hd
  have hd1 : (1 : ℝ) ≤ d := by exact_mod_cast hd
  unfold supportDisc
  rw [ZMod.val_cast_of_lt (by omega), ZMod.val_cast_of_lt (by omega)]
  rw [decide_eq_true_eq, decide_eq_false_iff_not, Real.sqrt_lt' hd', Real.sqrt_lt' hd']
  have hc : ((q - d : ℕ) : ℝ) = q - d := by rw [Nat.cast_sub (by omega)]
  rw [hc]
  push_cast
  simp only [ZMod.val_zero, Nat.cast_zero, sub_self, zero_div]
  constructor
  · nlinarith
  · nlinarith

/-- **C109** (empty support, violated): on an array with even sides a radius of at most `1/√2` gives an empty support: the new model has no light at all. -/
theorem support_empty_violated (A B : ℕ) (hA : Even A) (hB : Even B) (r : ℝ) (hr : 2 * r ^ 2 ≤ 1) (x : ZMod A) (y : ZMod B) :
    supportDisc A B r x y = false := by
  obtain ⟨p, rfl⟩ := hA
  obtain ⟨q, rfl⟩ := hB
  unfold supportDisc
  rw [decide_eq_false_iff_not]
  intro hlt
  have h1 : ∀ (a b : ℕ), (1 : ℝ) / 4 ≤ ((a : ℝ) - (((b + b : ℕ) : ℝ) - 1) / 2) ^ 2 := by
    intro a b
    have : (1 : ℤ) ≤ (2 * (a : ℤ) - 2 * b + 1) ^ 2 := by
      have hne : (2 * (a : ℤ) - 2 * b + 1) ≠ 0 := by omega
      have := pow_pos (abs_pos.2 hne) 2
      rw [sq_abs] at this
      omega
    have : (1 : ℝ) ≤ (2 * (a : ℝ) - 2 * b + 1) ^ 2 := by exact_mod_cast this
    push_cast
    nlinarith
  have hx := h1 x.val p
  have hy := h1 y.val q
  have h0 : 0 ≤ r := le_trans (Real.sqrt_nonneg _) hlt.le
  have := (Real.sqrt_lt' (lt_of_le_of_lt (Real.sqrt_nonneg _) hlt)).1 hlt
  nlinarith

/-- **C109** (pixel size): the cropped probe covers the same area as the uncropped one. -/
theorem probe_basis_extent (A B c : ℕ) (hA : 2 * c < A) (hB : 2 * c < B) (basis : Matrix (Fin 3) (Fin 2) ℝ) (i : Fin 3) :
    probeBasis (A := A) (B := B) c basis i 0 * (A - 2 * c : ℕ) = basis i 0 * A ∧
    probeBasis (A := A) (B := B) c basis i 1 * (B - 2 * c : ℕ) = basis i 1 * B := by
  have h0 : ((A - 2 * c : ℕ) : ℝ) ≠ 0 := by exact_mod_cast (by omega : A - 2 * c ≠ 0)
  have h1 : ((B - 2 * c : ℕ) : ℝ) ≠ 0 := by exact_mod_cast (by omega : B - 2 * c ≠ 0)
  unfold probeBasis
  simp only [Matrix.of_apply, Matrix.cons_val_zero, Matrix.cons_val_one]
  constructor <;> field_simp

/-! ### Non-vacuity -/

/-- A dataset of two 4 × 4 patterns. -/
noncomputable def toyFancyData : FancyData 4 4 2 where
  wavelength := 1
  distance := 100
  detBasis := !![0, -1; -1, 0; 0, 0]
  patterns := fun e _ _ => 1 + e.val
  translations := ![![0, 0, 0], ![30, 15, 0]]
  mask := fun _ _ => 1
  background := none
  intensities := some ![1, 2]
  qe := none
  orientation := none

theorem toyFancyData_nonneg : toyFancyData.Nonneg :=
  ⟨fun _ _ => zero_le_one, fun e _ _ => by simp only [toyFancyData]; positivity, fun b h => by cases h⟩

theorem toyFancyData_mean (i j : ℕ) : toyFancyData.mean i j = 3 / 2 := by
  simp [FancyData.mean, toyFancyData, Fin.sum_univ_two]
  norm_num

instance toyNZ1 : NeZero (1 * 4) := ⟨by norm_num⟩
instance toyNZ2 : NeZero (1 * 4 - 2 * 1) := ⟨by norm_num⟩

/-- The default options build a model for it, with a Fourier crop of one pixel and two modes, and it simulates both exposures as stated. -/
example (rp : Fin 1 → Wave (1 * 4 - 2 * 1) (1 * 4 - 2 * 1)) (ro : ℕ → ℕ → ℝ) :
    ∃ M, fancyFromDataset toyFancyData {} 1 1 1 rp ro = .ok M ∧ ∃ (E : ℕ → ℕ → ℝ) (peak : ℝ), (∀ i j, 0 ≤ E i j) ∧ 0 ≤ peak ∧
      ∑ i ∈ range 4, ∑ j ∈ range 4, E i j = (0.01 * peak) ^ 2 * ∑ e, power (rp e) ∧
      ∀ idx, ∃ img, M.forward idx (toyFancyData.translations idx) = .ok img ∧ ∀ i < 4, ∀ j < 4,
        img.px i j = exposureWeight toyFancyData idx ^ 2 * ((if 1 ≤ i ∧ i < 3 ∧ 1 ≤ j ∧ j < 3 then 3 / 2 else 0) + E i j) + 1e-7 + 1e-12 := by
  have hM : ∃ M, fancyFromDataset toyFancyData {} 1 1 1 rp ro = .ok M := by
    unfold fancyFromDataset
    simp [FancyData.start, datasetNormal, initialWeights, fancyInit, toyFancyData]
  obtain ⟨M, hM⟩ := hM
  obtain ⟨E, peak, h1, h2, -, h3, h4⟩ := initial_patterns_far toyFancyData toyFancyData_nonneg {} 1 1 rp ro M hM rfl rfl rfl rfl rfl
    (fun h => absurd rfl h) ⟨1, 1, by norm_num, by norm_num, by norm_num, by norm_num, by rw [toyFancyData_mean]; norm_num⟩
  refine ⟨M, hM, E, peak, h1, h2, h3, fun idx => ?_⟩
  obtain ⟨img, g1, -, -, g2⟩ := h4 idx
  refine ⟨img, g1, fun i hi j hj => ?_⟩
  rw [g2 i hi j hj]
  simp only [cutAt, FancyData.efficiency, FancyData.floor, toyFancyData_mean]
  simp [toyFancyData]

end Cdtools
