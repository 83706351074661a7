/-
C66: the gauge corrections of reconstructions (`remove_phase_ramp`, `remove_amplitude_exponent`,
`standardize_reconstruction_set`) do not change what the reconstruction predicts.
-/
import Verif.Model.ReconSets
import Verif.Props.Standardize
import Verif.Props.Interactions
import Verif.Props.ModeOrders
import Verif.Props.Upsample

set_option linter.unusedSectionVars false

namespace Cdtools
open Finset ZMod

variable {n m k N : ℕ} [NeZero n] [NeZero m]

/-! ### Specification -/

/-- The diffraction pattern that a reconstruction predicts for one exposure: every mode of the probe, times the
weight of the exposure, interacts with the object at the pixel translation `tr` (by one of the interaction
models), the exit waves propagate to the far field, and the intensities add up. -/
noncomputable def predicted (interact : Wave n m → Img ℂ → ℝ × ℝ → Except String (Wave n m)) (w : ℝ)
    (probe : Fin k → Wave n m) (obj : Img ℂ) (tr : ℝ × ℝ) : Except String (ZMod n → ZMod m → ℝ) :=
  ((List.ofFn fun a : Fin k => (fun i j => (w : ℂ) * probe a i j : Wave n m)).mapM fun p => interact p obj tr).map
    fun ews u v => (ews.map fun e : Wave n m => ‖farField e u v‖ ^ 2).sum

/-- The interaction models `ptycho_2D_round`, `ptycho_2D_linear` (shifting the probe) and `ptycho_2D_sinc`. -/
inductive Interaction
  | round | linear | sinc (back : Bool)

noncomputable def Interaction.exit : Interaction → Wave n m → Img ℂ → ℝ × ℝ → Except String (Wave n m)
  | .round => roundExit
  | .linear => linearExit true
  | .sinc b => sincExit b

/-! ### Lemmas -/

theorem predicted_of_product {interact : Wave n m → Img ℂ → ℝ × ℝ → Except String (Wave n m)} {obj : Img ℂ}
    {tr : ℝ × ℝ} {sel : Wave n m} (h : ∀ p, interact p obj tr = .ok fun i j => p i j * sel i j) (w : ℝ)
    (probe : Fin k → Wave n m) :
    predicted interact w probe obj tr =
      .ok fun u v => ∑ a, ‖farField (fun i j => (w : ℂ) * probe a i j * sel i j) u v‖ ^ 2 := by
  unfold predicted
  rw [mapM_ok_map _ (fun p : Wave n m => (fun i j => p i j * sel i j : Wave n m)) _ fun p _ => h p]
  simp only [Except.map, List.map_ofFn, List.sum_ofFn]
  rfl

theorem round_product {obj : Img ℂ} {tr : ℝ × ℝ} (h : ReadsInside n m obj (roundHalfEven tr.1) (roundHalfEven tr.2))
    (p : Wave n m) : roundExit p obj tr = .ok fun i j => p i j *
      obj.px ((roundHalfEven tr.1).toNat + i.val) ((roundHalfEven tr.2).toNat + j.val) := by
  simp only [roundExit, objWindow_inside ⟨h.1, h.2⟩ ⟨h.3, h.4⟩]
  rfl

theorem integer_product (I : Interaction) {obj : Img ℂ} {s t : ℕ} (hs : s + n ≤ obj.h) (ht : t + m ≤ obj.w)
    (p : Wave n m) : I.exit p obj ((s : ℝ), (t : ℝ)) = .ok fun i j => p i j * obj.px (s + i.val) (t + j.val) := by
  obtain ⟨h1, h2, h3⟩ := integer_translations_agree p obj s t hs ht
  cases I with
  | round => exact h1
  | linear => exact h2
  | sinc b => exact h3 b

theorem phaseRamp_neg (f0 f1 : ℝ) (i j : ℕ) : phaseRamp (-f0) (-f1) i j * phaseRamp f0 f1 i j = 1 := by
  unfold phaseRamp
  rw [← Complex.exp_add, ← Complex.exp_zero]
  congr 1
  push_cast; ring

/-- A product in which probe and object were changed by a factor `c` that does not depend on the pixel. -/
theorem predicted_scaled {interact : Wave n m → Img ℂ → ℝ × ℝ → Except String (Wave n m)} {obj obj' : Img ℂ}
    {tr : ℝ × ℝ} {sel sel' : Wave n m} (h : ∀ p, interact p obj tr = .ok fun i j => p i j * sel i j)
    (h' : ∀ p, interact p obj' tr = .ok fun i j => p i j * sel' i j) {w w' : ℝ} {probe probe' : Fin k → Wave n m} {c : ℂ}
    (hc : ∀ a i j, (w' : ℂ) * probe' a i j * sel' i j = c * ((w : ℂ) * probe a i j * sel i j)) :
    predicted interact w' probe' obj' tr = (predicted interact w probe obj tr).map fun P u v => ‖c‖ ^ 2 * P u v := by
  rw [predicted_of_product h, predicted_of_product h']
  simp only [Except.map]
  congr 1
  funext u v
  rw [mul_sum]
  refine sum_congr rfl fun a _ => ?_
  have : (fun i j => (w' : ℂ) * probe' a i j * sel' i j : Wave n m) =
      fun i j => c * ((w : ℂ) * probe a i j * sel i j) := by
    funext i j; exact hc a i j
  rw [this, farField_scale, norm_mul, mul_pow]

theorem map_one_mul {P : Except String (ZMod n → ZMod m → ℝ)} : (P.map fun Q u v => 1 * Q u v) = P := by
  cases P with
  | error e => rfl
  | ok Q => simp [Except.map]

/-! ### C66: the phase ramp -/

/-- **C66** (phase ramp, rounded positions): whatever frequency the optimizer returns, after `remove_phase_ramp`
the object and the probe predict exactly the diffraction patterns they predicted before, at every translation
whose (rounded) window lies inside the object, for any number of modes and any weight. -/
theorem remove_phase_ramp_predictions (minimize : ((Fin 2 → ℝ) → ℝ) → (Fin 2 → ℝ) → (Fin 2 → ℝ)) (obj : Img ℂ)
    (W : Win) (probe : Fin k → Wave n m) (w : ℝ) (tr : ℝ × ℝ)
    (h : ReadsInside n m obj (roundHalfEven tr.1) (roundHalfEven tr.2)) :
    let out := removePhaseRamp minimize obj W probe
    predicted roundExit w out.2 out.1 tr = predicted roundExit w probe obj tr := by
  intro out
  have h' : ReadsInside n m out.1 (roundHalfEven tr.1) (roundHalfEven tr.2) := ⟨h.1, h.2, h.3, h.4⟩
  rw [predicted_scaled (round_product h) (round_product h') (probe' := out.2) (w' := w) (w := w) (probe := probe)
    (c := phaseRamp (minimize (zeroFreqCost (obj.crop W)) ![0, 0] 0) (minimize (zeroFreqCost (obj.crop W)) ![0, 0] 1)
      (roundHalfEven tr.1).toNat (roundHalfEven tr.2).toNat), phaseRamp_norm, one_pow, map_one_mul]
  intro a i j
  simp only [out, removePhaseRamp, rampObj, rampProbe]
  generalize minimize (zeroFreqCost (obj.crop W)) ![0, 0] = f
  rw [phaseRamp_add]
  linear_combination ((w : ℂ) * probe a i j * obj.px ((roundHalfEven tr.1).toNat + i.val)
    ((roundHalfEven tr.2).toNat + j.val) * phaseRamp (f 0) (f 1) (roundHalfEven tr.1).toNat
      (roundHalfEven tr.2).toNat) * phaseRamp_neg (f 0) (f 1) i.val j.val

/-- **C66** (phase ramp, every interaction model): the same holds for `ptycho_2D_linear` and `ptycho_2D_sinc` at
integer translations. -/
theorem remove_phase_ramp_predictions_integer_partial (I : Interaction)
    (minimize : ((Fin 2 → ℝ) → ℝ) → (Fin 2 → ℝ) → (Fin 2 → ℝ)) (obj : Img ℂ)
    (W : Win) (probe : Fin k → Wave n m) (w : ℝ) (s t : ℕ) (hs : s + n ≤ obj.h) (ht : t + m ≤ obj.w) :
    let out := removePhaseRamp minimize obj W probe
    predicted I.exit w out.2 out.1 (s, t) = predicted I.exit w probe obj (s, t) := by
  intro out
  have hs' : s + n ≤ out.1.h := hs
  have ht' : t + m ≤ out.1.w := ht
  rw [predicted_scaled (integer_product I hs ht) (integer_product I hs' ht') (probe' := out.2) (w' := w) (w := w)
    (probe := probe)
    (c := phaseRamp (minimize (zeroFreqCost (obj.crop W)) ![0, 0] 0) (minimize (zeroFreqCost (obj.crop W)) ![0, 0] 1)
      s t), phaseRamp_norm, one_pow, map_one_mul]
  intro a i j
  simp only [out, removePhaseRamp, rampObj, rampProbe]
  generalize minimize (zeroFreqCost (obj.crop W)) ![0, 0] = f
  rw [phaseRamp_add]
  linear_combination ((w : ℂ) * probe a i j * obj.px (s + i.val)
    (t + j.val) * phaseRamp (f 0) (f 1) s t) * phaseRamp_neg (f 0) (f 1) i.val j.val

/-- The corrections only change phases: all moduli of object and probe are preserved. -/
theorem remove_phase_ramp_moduli (minimize : ((Fin 2 → ℝ) → ℝ) → (Fin 2 → ℝ) → (Fin 2 → ℝ)) (obj : Img ℂ)
    (W : Win) (probe : Fin k → Wave n m) :
    let out := removePhaseRamp minimize obj W probe
    out.1.h = obj.h ∧ out.1.w = obj.w ∧ (∀ i j, ‖out.1.px i j‖ = ‖obj.px i j‖) ∧
      ∀ a i j, ‖out.2 a i j‖ = ‖probe a i j‖ := by
  refine ⟨rfl, rfl, fun i j => ?_, fun a i j => ?_⟩ <;>
    simp [removePhaseRamp, rampObj, rampProbe, phaseRamp_norm]

/-- If the optimizer does its job (returns a frequency whose cost is no larger than that of any other), then after
the correction the sum over the window has the largest modulus that any further phase ramp could give it. -/
theorem remove_phase_ramp_optimal (minimize : ((Fin 2 → ℝ) → ℝ) → (Fin 2 → ℝ) → (Fin 2 → ℝ)) (obj : Img ℂ)
    (W : Win) (probe : Fin k → Wave n m)
    (hopt : ∀ f, zeroFreqCost (obj.crop W) (minimize (zeroFreqCost (obj.crop W)) ![0, 0]) ≤
      zeroFreqCost (obj.crop W) f) (f : Fin 2 → ℝ) :
    let out := removePhaseRamp minimize obj W probe
    ‖((rampObj f out.1).crop W).total‖ ≤ ‖(out.1.crop W).total‖ := by
  intro out
  set g := minimize (zeroFreqCost (obj.crop W)) ![0, 0]
  have key : ∀ q : Fin 2 → ℝ, ‖((rampObj q obj).crop W).total‖ ^ 2 = -zeroFreqCost (obj.crop W) q := by
    intro q
    unfold zeroFreqCost
    rw [neg_neg]
    have : ((rampObj q obj).crop W).total = phaseRamp (q 0) (q 1) W.r0 W.c0 *
        (Img.zip (· * ·) ⟨(obj.crop W).h, (obj.crop W).w, phaseRamp (q 0) (q 1)⟩ (obj.crop W)).total := by
      simp only [Img.total, Img.crop, rampObj, Img.zip, mul_sum]
      refine sum_congr rfl fun i _ => sum_congr rfl fun j _ => ?_
      rw [phaseRamp_add]; ring
    rw [this, norm_mul, phaseRamp_norm, one_mul]
  have h1 : ((rampObj f out.1).crop W).total = ((rampObj (g + f) obj).crop W).total := by
    have hout : out.1 = rampObj g obj := rfl
    rw [hout]
    clear_value g
    simp only [Img.total, Img.crop, rampObj]
    refine sum_congr rfl fun i _ => sum_congr rfl fun j _ => ?_
    rw [mul_assoc]
    congr 1
    unfold phaseRamp
    rw [← Complex.exp_add]
    congr 1
    simp only [Pi.add_apply]
    push_cast; ring
  rw [h1]
  have h2 : (out.1.crop W).total = ((rampObj g obj).crop W).total := rfl
  rw [h2]
  refine le_of_sq_le_sq ?_ (norm_nonneg _)
  rw [key, key]
  have := hopt (g + f)
  linarith

/-! #### Fractional translations -/

theorem fft2_two (w : Wave 2 1) : fft2 w 0 0 = w 0 0 + w 1 0 ∧ fft2 w 1 0 = w 0 0 - w 1 0 := by
  have h2 : (univ : Finset (ZMod 2)) = {0, 1} := by decide
  have h1 : (univ : Finset (ZMod 1)) = {0} := by decide
  have hc : (stdAddChar (-(1 * 1) : ZMod 2) : ℂ) = -1 := by
    rw [show (-(1 * 1) : ZMod 2) = ((1 : ℤ) : ZMod 2) by decide, stdAddChar_coe]
    rw [show (2 * Real.pi * Complex.I * ((1 : ℤ) : ℂ) / ((2 : ℕ) : ℂ)) = Real.pi * Complex.I by
      push_cast; ring]
    exact Complex.exp_pi_mul_I
  constructor
  · rw [fft2_eq, h2, h1, sum_pair (by decide)]
    simp
  · rw [fft2_eq, h2, h1, sum_pair (by decide)]
    simp only [sum_singleton]
    rw [hc]
    simp
    ring

/-- A shift by half a pixel of an image of two pixels. -/
theorem half_shift (w : Wave 2 1) : sincShift w (1 / 2) 0 = fun i _ =>
    if i = 0 then (w 0 0 + w 1 0 + Complex.I * (w 0 0 - w 1 0)) / 2
    else (w 0 0 + w 1 0 - Complex.I * (w 0 0 - w 1 0)) / 2 := by
  apply fft2_inj
  intro k l
  have hl : l = 0 := Subsingleton.elim _ _
  subst hl
  rw [sincShift_mask]
  have hk : k = 0 ∨ k = 1 := by revert k; decide
  rcases hk with rfl | rfl
  · rw [(fft2_two w).1, (fft2_two _).1]
    have v : ((0 : ZMod 2) + ((2 / 2 : ℕ) : ZMod 2)).val = 1 := by decide
    have v' : ((0 : ZMod 1) + ((1 / 2 : ℕ) : ZMod 1)).val = 0 := by decide
    rw [v, v']
    simp
    ring
  · rw [(fft2_two w).2, (fft2_two _).2]
    have v : ((1 : ZMod 2) + ((2 / 2 : ℕ) : ZMod 2)).val = 0 := by decide
    have v' : ((0 : ZMod 1) + ((1 / 2 : ℕ) : ZMod 1)).val = 0 := by decide
    rw [v, v']
    have : Complex.exp (Complex.I * (-((1 / 2 : ℝ) : ℂ) * (2 * Real.pi * (((0 : ℕ) : ℂ) - ((2 / 2 : ℕ) : ℂ)) / ((2 : ℕ) : ℂ)) -
        ((0 : ℝ) : ℂ) * (2 * Real.pi * (((0 : ℕ) : ℂ) - ((1 / 2 : ℕ) : ℂ)) / ((1 : ℕ) : ℂ)))) = Complex.I := by
      rw [← Complex.exp_pi_div_two_mul_I]
      congr 1
      push_cast
      norm_num
      ring
    rw [this]
    simp
    ring

theorem ramp_quarter (i j : ℕ) : phaseRamp (1 / 4) 0 i j = Complex.I ^ i := by
  unfold phaseRamp
  conv_rhs => rw [← Complex.exp_pi_div_two_mul_I]
  rw [← Complex.exp_nat_mul]
  congr 1
  push_cast
  ring

theorem ramp_quarter_neg (i j : ℕ) : phaseRamp (-(1 / 4)) (-0) i j = (-Complex.I) ^ i := by
  have h := phaseRamp_neg (1 / 4) 0 i j
  rw [ramp_quarter] at h
  have h2 : (-Complex.I) ^ i * Complex.I ^ i = 1 := by
    rw [← mul_pow]; simp
  exact mul_right_cancel₀ (pow_ne_zero i Complex.I_ne_zero) (h.trans h2.symm)

/-- A small reconstruction with a phase ramp of a quarter turn per pixel. -/
def rampExample : Img ℂ := ⟨3, 1, fun i _ => (-Complex.I) ^ i⟩

/-- Its probe, with the opposite ramp. -/
def rampProbeExample : Fin 1 → Wave 2 1 := fun _ i _ => Complex.I ^ i.val

/-- **C66, limits of the phase-ramp correction.** `remove_phase_ramp` is *not* an exact symmetry of
`ptycho_2D_sinc` (the model of `FancyPtycho`) at fractional translations: there is a reconstruction, a window (the
whole object) and a frequency that is a global optimum of the cost, such that the corrected object and probe
predict another diffraction pattern at the translation `(1/2, 0)`. -/
theorem remove_phase_ramp_fractional_violated :
    let minimize : ((Fin 2 → ℝ) → ℝ) → (Fin 2 → ℝ) → (Fin 2 → ℝ) := fun _ _ => ![1 / 4, 0]
    let W : Win := ⟨0, 3, 0, 1⟩
    let out := removePhaseRamp minimize rampExample W rampProbeExample
    (∀ f, zeroFreqCost (rampExample.crop W) ![1 / 4, 0] ≤ zeroFreqCost (rampExample.crop W) f) ∧
    ∃ P P', predicted (sincExit false) 1 rampProbeExample rampExample (1 / 2, 0) = .ok P ∧
      predicted (sincExit false) 1 out.2 out.1 (1 / 2, 0) = .ok P' ∧ P ≠ P' := by
  intro minimize W out
  have hfl : ⌊(1 / 2 : ℝ)⌋ = 0 := by norm_num
  have hfr : Int.fract (1 / 2 : ℝ) = 1 / 2 := by rw [Int.fract, hfl]; norm_num
  have exitOf : ∀ (obj : Img ℂ), obj.h = 3 → obj.w = 1 → ∀ p : Wave 2 1,
      sincExit false p obj (1 / 2, 0) = .ok fun i j => sincShift p (1 / 2) 0 i j * obj.px i.val j.val := by
    intro obj h3 h1 p
    have := (subpixel_exit_waves p obj (1 / 2, 0) (by
      rw [hfl]
      simp only [Int.floor_zero]
      exact ⟨le_refl _, by simp [h3], le_refl _, by simp [h1]⟩)).1
    simp only [hfl, hfr, Int.fract_zero, Int.floor_zero, Int.toNat_zero, zero_add] at this
    exact this
  have predOf : ∀ (obj : Img ℂ), obj.h = 3 → obj.w = 1 → ∀ p : Fin 1 → Wave 2 1,
      predicted (sincExit false) 1 p obj (1 / 2, 0) = .ok fun u v =>
        ‖farField (fun i j => sincShift (p 0) (1 / 2) 0 i j * obj.px i.val j.val) u v‖ ^ 2 := by
    intro obj h3 h1 p
    unfold predicted
    rw [mapM_ok_map _ (fun q : Wave 2 1 => (fun i j => sincShift q (1 / 2) 0 i j * obj.px i.val j.val : Wave 2 1)) _
      fun q _ => exitOf obj h3 h1 q]
    simp [Except.map]
  refine ⟨fun f => ?_, _, _, predOf _ rfl rfl _, predOf _ rfl rfl _, fun hP => ?_⟩
  · have hb : ∀ g : Fin 2 → ℝ, (Img.zip (· * ·) ⟨(rampExample.crop W).h, (rampExample.crop W).w, phaseRamp (g 0) (g 1)⟩
        (rampExample.crop W)).total = phaseRamp (g 0) (g 1) 0 0 + phaseRamp (g 0) (g 1) 1 0 * (-Complex.I) +
          phaseRamp (g 0) (g 1) 2 0 * (-Complex.I) ^ 2 := by
      intro g
      simp [Img.total, Img.zip, Img.crop, rampExample, W, sum_range_succ]
    unfold zeroFreqCost
    rw [hb, hb]
    have h9 : ‖phaseRamp ((![1 / 4, 0] : Fin 2 → ℝ) 0) ((![1 / 4, 0] : Fin 2 → ℝ) 1) 0 0 +
        phaseRamp ((![1 / 4, 0] : Fin 2 → ℝ) 0) ((![1 / 4, 0] : Fin 2 → ℝ) 1) 1 0 * (-Complex.I) +
        phaseRamp ((![1 / 4, 0] : Fin 2 → ℝ) 0) ((![1 / 4, 0] : Fin 2 → ℝ) 1) 2 0 * (-Complex.I) ^ 2‖ = 3 := by
      simp only [Matrix.cons_val_zero, Matrix.cons_val_one]
      rw [ramp_quarter, ramp_quarter, ramp_quarter]
      norm_num
    rw [h9]
    have hle : ‖phaseRamp (f 0) (f 1) 0 0 + phaseRamp (f 0) (f 1) 1 0 * (-Complex.I) +
        phaseRamp (f 0) (f 1) 2 0 * (-Complex.I) ^ 2‖ ≤ 3 := by
      refine (norm_add₃_le).trans ?_
      simp only [norm_mul, phaseRamp_norm, norm_neg, Complex.norm_I, norm_pow]
      norm_num
    have h0 := norm_nonneg (phaseRamp (f 0) (f 1) 0 0 + phaseRamp (f 0) (f 1) 1 0 * (-Complex.I) +
        phaseRamp (f 0) (f 1) 2 0 * (-Complex.I) ^ 2)
    nlinarith
  · have h := congrFun (congrFun hP ((2 / 2 : ℕ) : ZMod 2)) ((1 / 2 : ℕ) : ZMod 1)
    have hs : ∀ w : Wave 2 1, ‖farField w ((2 / 2 : ℕ) : ZMod 2) ((1 / 2 : ℕ) : ZMod 1)‖ ^ 2 * 2 = ‖w 0 0 + w 1 0‖ ^ 2 := by
      intro w
      have := farField_sum w
      have h2 : (univ : Finset (ZMod 2)) = {0, 1} := by decide
      have h1 : (univ : Finset (ZMod 1)) = {0} := by decide
      rw [h2, h1, sum_pair (by decide), sum_singleton, sum_singleton] at this
      rw [← this, norm_mul, mul_pow]
      congr 1
      rw [Complex.norm_real, Real.norm_eq_abs, sq_abs, Real.sq_sqrt (by positivity)]
      norm_num
    have h' := congrArg (· * (2 : ℝ)) h
    simp only [hs, half_shift] at h'
    have hv : (1 : ZMod 2).val = 1 := rfl
    have q := ramp_quarter 1 0
    have q' := ramp_quarter_neg 1 0
    have o : ∀ j, phaseRamp (1 / 4) 0 0 j = 1 := fun j => by rw [ramp_quarter]; simp
    have o' : ∀ j, phaseRamp (-(1 / 4)) (-0) 0 j = 1 := fun j => by rw [ramp_quarter_neg]; simp
    simp only [rampProbeExample, rampExample, out, removePhaseRamp, rampObj, rampProbe, minimize, hv, ZMod.val_zero,
      Matrix.cons_val_zero, Matrix.cons_val_one, q, q', o, o', if_true, one_ne_zero, if_false, pow_zero, pow_one] at h'
    rw [← Complex.normSq_eq_norm_sq, ← Complex.normSq_eq_norm_sq, Complex.normSq_apply, Complex.normSq_apply] at h'
    norm_num at h'

/-! ### C66: the amplitude exponent -/

theorem decay_grow (g : ℝ × ℝ) (s t i j : ℕ) :
    Real.exp (g.1 * i + g.2 * j) * Real.exp (-(g.1 * (s + i : ℕ) + g.2 * (t + j : ℕ))) =
      Real.exp (-(g.1 * s + g.2 * t)) := by
  rw [← Real.exp_add]
  congr 1
  push_cast; ring

/-- If the optimizer does its job, an object whose amplitude grows exactly exponentially over the window comes out with
constant amplitude over the window. -/
theorem remove_amplitude_exponent_flattens (minimize : ((Fin 3 → ℝ) → ℝ) → (Fin 3 → ℝ) → (Fin 3 → ℝ)) (obj : Img ℂ) (W : Win)
    (probe : Fin k → Wave n m) (hopt : ∀ (f : (Fin 3 → ℝ) → ℝ) (x0 x : Fin 3 → ℝ), f (minimize f x0) ≤ f x) (A α β : ℝ)
    (hobj : ∀ i j, W.r0 ≤ i → i < W.r0 + W.h → W.c0 ≤ j → j < W.c0 + W.w → ‖obj.px i j‖ = A * Real.exp (α * i + β * j)) :
    ∃ C : ℝ, ∀ i j, W.r0 ≤ i → i < W.r0 + W.h → W.c0 ≤ j → j < W.c0 + W.w →
      ‖(removeAmplitudeExponent minimize obj W probe).1.px i j‖ = C := by
  set cost := exponentCost ((obj.crop W).map fun z => ‖z‖) with hcost
  set x := minimize cost ![1, 0, 0] with hx
  have hnn : ∀ y, 0 ≤ cost y := fun y => sum_nonneg fun i _ => sum_nonneg fun j _ => sq_nonneg _
  have htrue : cost ![A * Real.exp (α * W.r0 + β * W.c0), α, β] = 0 := by
    refine sum_eq_zero fun i hi => sum_eq_zero fun j hj => ?_
    have hi' := mem_range.1 hi
    have hj' := mem_range.1 hj
    simp only [Img.map, Img.crop] at hi' hj' ⊢
    rw [hobj _ _ (by omega) (by omega) (by omega) (by omega)]
    simp only [Matrix.cons_val_zero, Matrix.cons_val_one, Matrix.cons_val]
    rw [mul_assoc, ← Real.exp_add]
    push_cast
    ring_nf
  have hzero : cost x = 0 := le_antisymm (htrue ▸ hopt cost ![1, 0, 0] _) (hnn x)
  refine ⟨x 0 * Real.exp (-(x 1 * W.r0 + x 2 * W.c0)), fun i j hi1 hi2 hj1 hj2 => ?_⟩
  have hrow := (sum_eq_zero_iff_of_nonneg fun i _ => sum_nonneg fun j _ => sq_nonneg _).1 hzero (i - W.r0)
    (mem_range.2 (by simp only [Img.map, Img.crop]; omega))
  have hpix := (sum_eq_zero_iff_of_nonneg fun j _ => sq_nonneg _).1 hrow (j - W.c0)
    (mem_range.2 (by simp only [Img.map, Img.crop]; omega))
  have hfit := sub_eq_zero.1 (pow_eq_zero_iff (two_ne_zero) |>.1 hpix)
  simp only [Img.map, Img.crop] at hfit
  rw [show W.r0 + (i - W.r0) = i by omega, show W.c0 + (j - W.c0) = j by omega] at hfit
  simp only [removeAmplitudeExponent, decayObj, fitGrowth]
  rw [norm_mul, hfit, Complex.norm_real, Real.norm_eq_abs, abs_of_pos (Real.exp_pos _), mul_assoc, ← Real.exp_add]
  congr 2
  rw [Nat.cast_sub hi1, Nat.cast_sub hj1]
  change _ + -(x 1 * _ + x 2 * _) = _
  ring

/-- If the optimizer never returns something worse than its start, the exponential that is removed fits the amplitudes over the
window, up to a factor, at least as well as the constant 1 does. -/
theorem remove_amplitude_exponent_no_worse (minimize : ((Fin 3 → ℝ) → ℝ) → (Fin 3 → ℝ) → (Fin 3 → ℝ)) (obj : Img ℂ) (W : Win)
    (hdesc : ∀ (f : (Fin 3 → ℝ) → ℝ) (x0 : Fin 3 → ℝ), f (minimize f x0) ≤ f x0) :
    ∃ c : ℝ, ∑ i ∈ range W.h, ∑ j ∈ range W.w, (‖obj.px (W.r0 + i) (W.c0 + j)‖ -
        c * Real.exp ((fitGrowth minimize obj W).1 * i + (fitGrowth minimize obj W).2 * j)) ^ 2 ≤
      ∑ i ∈ range W.h, ∑ j ∈ range W.w, (‖obj.px (W.r0 + i) (W.c0 + j)‖ - 1) ^ 2 := by
  refine ⟨minimize (exponentCost ((obj.crop W).map fun z => ‖z‖)) ![1, 0, 0] 0, ?_⟩
  have h := hdesc (exponentCost ((obj.crop W).map fun z => ‖z‖)) ![1, 0, 0]
  simpa [exponentCost, Img.map, Img.crop, fitGrowth] using h

/-- **C66** (amplitude exponent, without weights — as `standardize_reconstruction_pair` calls it): the pattern at
the window `(s, t)` is multiplied by `exp(-2 (g₀ s + g₁ t))`. The factor depends on the position, so the relative
intensities of the exposures are not preserved unless the growth rate vanishes. -/
theorem remove_amplitude_exponent_without_weights (I : Interaction)
    (minimize : ((Fin 3 → ℝ) → ℝ) → (Fin 3 → ℝ) → (Fin 3 → ℝ)) (obj : Img ℂ) (W : Win)
    (probe : Fin k → Wave n m) (w : ℝ) (s t : ℕ) (hs : s + n ≤ obj.h) (ht : t + m ≤ obj.w) :
    let out := removeAmplitudeExponent minimize obj W probe
    let g := fitGrowth minimize obj W
    predicted I.exit w out.2 out.1 (s, t) = (predicted I.exit w probe obj (s, t)).map fun P u v =>
      Real.exp (-(g.1 * s + g.2 * t)) ^ 2 * P u v := by
  intro out g
  have hs' : s + n ≤ out.1.h := hs
  have ht' : t + m ≤ out.1.w := ht
  rw [predicted_scaled (integer_product I hs ht) (integer_product I hs' ht') (probe' := out.2) (w' := w) (w := w)
    (probe := probe) (c := ((Real.exp (-(g.1 * s + g.2 * t)) : ℝ) : ℂ)), Complex.norm_real, Real.norm_eq_abs,
    abs_of_pos (Real.exp_pos _)]
  intro a i j
  simp only [out, removeAmplitudeExponent, decayObj, growProbe]
  have := decay_grow g s t i.val j.val
  rw [← this]
  push_cast
  ring

/-- **C66** (amplitude exponent, with weights): whatever growth rate the optimizer returns, at integer pixel
translations the corrected object, probe and weights predict the same diffraction patterns as before, up to one
positive factor common to all exposures. `T` are the pixel translations, `M` the minimum translation stored in
the model, `(s i, t i) = T i - M` the windows. The factor is 1 exactly when no padding separates `M` from the
smallest translations (in the direction of the growth). Missing: fractional translations, and a factor of 1 in
the presence of padding (`fitGrowth` is applied to the translations relative to their own minimum). -/
theorem remove_amplitude_exponent_predictions_partial (I : Interaction)
    (minimize : ((Fin 3 → ℝ) → ℝ) → (Fin 3 → ℝ) → (Fin 3 → ℝ)) (obj : Img ℂ) (W : Win)
    (probe : Fin k → Wave n m) (w : Fin (N + 1) → ℝ) (T : Fin (N + 1) → Fin 2 → ℝ) (M : Fin 2 → ℝ)
    (s t : Fin (N + 1) → ℕ) (hs : ∀ i, T i 0 - M 0 = s i) (ht : ∀ i, T i 1 - M 1 = t i)
    (hs' : ∀ i, s i + n ≤ obj.h) (ht' : ∀ i, t i + m ≤ obj.w) :
    let out := removeAmplitudeExponentW minimize obj W probe w T
    let g := fitGrowth minimize obj W
    let κ : ℝ := Real.exp (g.1 * (M 0 - univ.inf' univ_nonempty fun l => T l 0) +
      g.2 * (M 1 - univ.inf' univ_nonempty fun l => T l 1)) ^ 2
    ∀ i, predicted I.exit (out.2.2 i) out.2.1 out.1 (s i, t i) =
      (predicted I.exit (w i) probe obj (s i, t i)).map fun P u v => κ * P u v := by
  intro out g κ i
  have h1 : s i + n ≤ out.1.h := hs' i
  have h2 : t i + m ≤ out.1.w := ht' i
  rw [predicted_scaled (integer_product I (hs' i) (ht' i)) (integer_product I h1 h2) (probe' := out.2.1)
    (w' := out.2.2 i) (w := w i) (probe := probe)
    (c := ((Real.exp (g.1 * (M 0 - univ.inf' univ_nonempty fun l => T l 0) +
      g.2 * (M 1 - univ.inf' univ_nonempty fun l => T l 1)) : ℝ) : ℂ)), Complex.norm_real, Real.norm_eq_abs,
    abs_of_pos (Real.exp_pos _)]
  intro a x y
  simp only [out, removeAmplitudeExponentW, decayObj, growProbe, expWeights]
  have h3 := decay_grow g (s i) (t i) x.val y.val
  have h4 : weightFactor g T i * Real.exp (-(g.1 * s i + g.2 * t i)) =
      Real.exp (g.1 * (M 0 - univ.inf' univ_nonempty fun l => T l 0) +
        g.2 * (M 1 - univ.inf' univ_nonempty fun l => T l 1)) := by
    unfold weightFactor
    rw [← Real.exp_add, ← hs i, ← ht i]
    congr 1
    ring
  rw [← h4, ← h3]
  push_cast
  ring

/-- Non-vacuity and the case of no padding: two exposures, at pixels 0 and 1, whose minimum is the model's: the
predictions are exactly preserved. -/
example (I : Interaction) (minimize : ((Fin 3 → ℝ) → ℝ) → (Fin 3 → ℝ) → (Fin 3 → ℝ)) (px : ℕ → ℕ → ℂ)
    (probe : Fin 2 → Wave 2 1) (w : Fin 2 → ℝ) (i : Fin 2) :
    let T : Fin 2 → Fin 2 → ℝ := ![![0, 0], ![1, 0]]
    let out := removeAmplitudeExponentW minimize ⟨3, 1, px⟩ ⟨0, 3, 0, 1⟩ probe w T
    predicted I.exit (out.2.2 i) out.2.1 out.1 ((![0, 1] i : ℕ), (![0, 0] i : ℕ)) =
      predicted I.exit (w i) probe ⟨3, 1, px⟩ ((![0, 1] i : ℕ), (![0, 0] i : ℕ)) := by
  intro T out
  have hi0 : (univ.inf' univ_nonempty fun l : Fin 2 => T l 0) = 0 := by
    apply le_antisymm
    · exact inf'_le (b := (0 : Fin 2)) _ (mem_univ _)
    · refine le_inf' _ _ fun l _ => ?_
      fin_cases l <;> simp [T]
  have hi1 : (univ.inf' univ_nonempty fun l : Fin 2 => T l 1) = 0 := by
    apply le_antisymm
    · exact inf'_le (b := (0 : Fin 2)) _ (mem_univ _)
    · refine le_inf' _ _ fun l _ => ?_
      fin_cases l <;> simp [T]
  have h := remove_amplitude_exponent_predictions_partial I minimize ⟨3, 1, px⟩ ⟨0, 3, 0, 1⟩ probe w T ![0, 0]
    ![0, 1] ![0, 0] (by intro i; fin_cases i <;> simp [T]) (by intro i; fin_cases i <;> simp [T])
    (by intro i; fin_cases i <;> simp) (by intro i; fin_cases i <;> simp) i
  rw [hi0, hi1] at h
  rw [show removeAmplitudeExponentW minimize ⟨3, 1, px⟩ ⟨0, 3, 0, 1⟩ probe w T = out from rfl] at h
  simp only [Matrix.cons_val_zero, Matrix.cons_val_one, sub_zero, mul_zero, add_zero, Real.exp_zero, one_pow,
    map_one_mul] at h
  exact h

/-- **C66, limits**: with weight *matrices* (`dm_rank`) the factors are not applied exposure by exposure: unless
the number of modes happens to be the number of exposures, numpy refuses to multiply. -/
theorem amplitude_weights_matrices_violated {r : ℕ} (g : ℝ × ℝ) (T : Fin (N + 1) → Fin 2 → ℝ)
    (w : Fin (N + 1) → Matrix (Fin r) (Fin k) ℂ) (h : k ≠ N + 1) :
    expWeightMatrices g T w = .error .valueError := by
  simp [expWeightMatrices, h]

/-- **C66, limits**: if the number of modes happens to be the number of exposures, the factor of exposure `j` is given to
mode `j` of all exposures: a mode is changed by the same factor in all exposures, whereas exposures should get different
factors. -/
theorem amplitude_weights_axis_violated {r : ℕ} (g : ℝ × ℝ) (T : Fin (N + 1) → Fin 2 → ℝ)
    (w : Fin (N + 1) → Matrix (Fin r) (Fin (N + 1)) ℂ) :
    ∃ out, expWeightMatrices g T w = .ok out ∧ ∀ i a j, out i a j = w i a j *
      (Real.exp (g.1 * (T j 0 - univ.inf' univ_nonempty fun l => T l 0) +
        g.2 * (T j 1 - univ.inf' univ_nonempty fun l => T l 1)) : ℂ) := by
  refine ⟨_, dif_pos rfl, fun i a j => ?_⟩
  simp [weightFactor]

/-! ### C66: standardize_reconstruction_set -/

theorem crop_map_total (c : ℂ → ℂ) (q : Img ℂ) (W : Win) (z : ℂ) (hc : ∀ x, c x = x * z) :
    ((q.map c).crop W).total = (q.crop W).total * z := by
  simp only [Img.total, Img.crop, Img.map, hc, sum_mul]

/-- **C66** (sets): for results saved by `save_results`, with the default options or any choice that leaves out the
amplitude correction, the corrected object and probe of every reconstruction predict the patterns they predicted
before (rounded positions; any interaction model at integer positions), and with `correct_phase_offset` the sum of
the object over the window is real and non-negative. -/
theorem set_gauge_predictions (minimize : ((Fin 2 → ℝ) → ℝ) → (Fin 2 → ℝ) → (Fin 2 → ℝ))
    (minimizeA : ((Fin 3 → ℝ) → ℝ) → (Fin 3 → ℝ) → (Fin 3 → ℝ)) (o : SetOpts) (ho : o.amplitudeExponent = false)
    (W : Win) (obj : Img ℂ) (probe : Fin k → Wave n m) :
    ∃ obj' probe', setGauge minimize minimizeA o fancySaveKeys W obj probe = .ok (obj', probe') ∧
      (∀ (w : ℝ) (tr : ℝ × ℝ), ReadsInside n m obj (roundHalfEven tr.1) (roundHalfEven tr.2) →
        predicted roundExit w probe' obj' tr = predicted roundExit w probe obj tr) ∧
      (∀ (I : Interaction) (w : ℝ) (s t : ℕ), s + n ≤ obj.h → t + m ≤ obj.w →
        predicted I.exit w probe' obj' (s, t) = predicted I.exit w probe obj (s, t)) ∧
      (o.phaseOffset = true → (obj'.crop W).total = (‖(obj'.crop W).total‖ : ℂ)) := by
  have hk : requireKeys fancySaveKeys ["obj", "probe", "weights"] = .ok () := by decide
  -- the phase offset
  have off : ∀ (z : ℂ) (q : Img ℂ) (pr : Fin k → Wave n m) (w : ℝ),
      (∀ tr : ℝ × ℝ, ReadsInside n m q (roundHalfEven tr.1) (roundHalfEven tr.2) →
        predicted roundExit w pr (q.map (unphase z)) tr = predicted roundExit w pr q tr) ∧
      (∀ (I : Interaction) (s t : ℕ), s + n ≤ q.h → t + m ≤ q.w →
        predicted I.exit w pr (q.map (unphase z)) (s, t) = predicted I.exit w pr q (s, t)) := by
    intro z q pr w
    have hn : ‖Complex.exp (-(Complex.I * (Complex.arg z : ℝ)))‖ = 1 := by
      have := unphase_norm z 1
      simpa [unphase] using this
    refine ⟨fun tr h => ?_, fun I s t hs ht => ?_⟩
    · have h' : ReadsInside n m (q.map (unphase z)) (roundHalfEven tr.1) (roundHalfEven tr.2) := ⟨h.1, h.2, h.3, h.4⟩
      rw [predicted_scaled (round_product h) (round_product h') (probe' := pr) (w' := w) (w := w) (probe := pr)
        (c := Complex.exp (-(Complex.I * (Complex.arg z : ℝ)))), hn, one_pow, map_one_mul]
      intro a i j
      simp only [Img.map, unphase]
      ring
    · have hs' : s + n ≤ (q.map (unphase z)).h := hs
      have ht' : t + m ≤ (q.map (unphase z)).w := ht
      rw [predicted_scaled (integer_product I hs ht) (integer_product I hs' ht') (probe' := pr) (w' := w) (w := w)
        (probe := pr) (c := Complex.exp (-(Complex.I * (Complex.arg z : ℝ)))), hn, one_pow, map_one_mul]
      intro a i j
      simp only [Img.map, unphase]
      ring
  have real : ∀ q : Img ℂ, ((q.map (unphase (q.crop W).total)).crop W).total =
      (‖((q.map (unphase (q.crop W).total)).crop W).total‖ : ℂ) := by
    intro q
    rw [crop_map_total (unphase (q.crop W).total) q W _ fun x => rfl, phase_mul, Complex.norm_real, norm_norm]
  set p := if o.phaseRamp then removePhaseRamp minimize obj W probe else (obj, probe) with hp
  have hpr : p.1.h = obj.h ∧ p.1.w = obj.w ∧
      (∀ (w : ℝ) (tr : ℝ × ℝ), ReadsInside n m obj (roundHalfEven tr.1) (roundHalfEven tr.2) →
        predicted roundExit w p.2 p.1 tr = predicted roundExit w probe obj tr) ∧
      (∀ (I : Interaction) (w : ℝ) (s t : ℕ), s + n ≤ obj.h → t + m ≤ obj.w →
        predicted I.exit w p.2 p.1 (s, t) = predicted I.exit w probe obj (s, t)) := by
    rw [hp]
    by_cases hr : o.phaseRamp = true
    · rw [if_pos hr]
      exact ⟨rfl, rfl, fun w tr h => remove_phase_ramp_predictions minimize obj W probe w tr h,
        fun I w s t hs ht => remove_phase_ramp_predictions_integer_partial I minimize obj W probe w s t hs ht⟩
    · rw [if_neg hr]
      exact ⟨rfl, rfl, fun _ _ _ => rfl, fun _ _ _ _ _ _ => rfl⟩
  obtain ⟨hh, hw, h1, h2⟩ := hpr
  refine ⟨if o.phaseOffset then p.1.map (unphase (p.1.crop W).total) else p.1, p.2, ?_, ?_, ?_, ?_⟩
  · unfold setGauge
    rw [hk]
    simp only [ho, Bool.false_eq_true, if_false]
    rfl
  · intro w tr h
    by_cases hf : o.phaseOffset = true
    · rw [if_pos hf, (off _ _ _ w).1 tr ⟨h.1, by rw [hh]; exact h.2, h.3, by rw [hw]; exact h.4⟩, h1 w tr h]
    · rw [if_neg hf, h1 w tr h]
  · intro I w s t hs ht
    by_cases hf : o.phaseOffset = true
    · rw [if_pos hf, (off _ _ _ w).2 I s t (by rw [hh]; exact hs) (by rw [hw]; exact ht), h2 I w s t hs ht]
    · rw [if_neg hf, h2 I w s t hs ht]
  · intro hf
    rw [if_pos hf]
    exact real _

/-- **C66, limits**: `standardize_reconstruction_set(..., correct_amplitude_exponent=True)` always fails on the
dictionaries that `FancyPtycho.save_results` returns: they have `obj_basis` and `probe_basis`, not `basis`. -/
theorem set_amplitude_exponent_violated (minimize : ((Fin 2 → ℝ) → ℝ) → (Fin 2 → ℝ) → (Fin 2 → ℝ))
    (minimizeA : ((Fin 3 → ℝ) → ℝ) → (Fin 3 → ℝ) → (Fin 3 → ℝ)) (o : SetOpts) (ho : o.amplitudeExponent = true)
    (W : Win) (obj : Img ℂ) (probe : Fin k → Wave n m) :
    setGauge minimize minimizeA o fancySaveKeys W obj probe = .error "KeyError basis" := by
  have hk : requireKeys fancySaveKeys ["obj", "probe", "weights"] = .ok () := by decide
  have hk' : requireKeys fancySaveKeys ["weights", "basis", "translations"] = .error "basis" := by decide
  unfold setGauge
  rw [hk]
  simp only [ho, if_true, hk']
  rfl

/-- Non-vacuity of the positional hypotheses: a 2 × 2 probe on a 4 × 5 object at `(1.4, 2.5)`. -/
example (px : ℕ → ℕ → ℂ) : ReadsInside 2 2 ⟨4, 5, px⟩ (roundHalfEven 1.4) (roundHalfEven 2.5) := by
  have h1 : ⌊(1.4 : ℝ)⌋ = 1 := by rw [Int.floor_eq_iff]; norm_num
  have h2 : ⌊(2.5 : ℝ)⌋ = 2 := by rw [Int.floor_eq_iff]; norm_num
  have e1 : roundHalfEven 1.4 = 1 := by unfold roundHalfEven; rw [h1]; norm_num
  have e2 : roundHalfEven 2.5 = 2 := by unfold roundHalfEven; rw [h2]; norm_num
  rw [e1, e2]
  constructor <;> norm_num

end Cdtools
