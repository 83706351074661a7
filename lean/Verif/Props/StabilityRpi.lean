/- Property theorems C113 for `RPI` and `SimplePtycho`: small changes of the model change the simulation little. -/
import Verif.Props.StabilityOthers
import Verif.Props.RpiForward
import Verif.Props.Simple

set_option linter.unusedSectionVars false

namespace Cdtools
open Finset Matrix

variable {n m a b k l : ℕ} [NeZero n] [NeZero m] [NeZero a] [NeZero b]

theorem amplitudeChange_same {x x' y y' : Img ℝ} (hx : x.Same x') (hy : y.Same y') (hh : x.h = y.h) (hw : x.w = y.w) :
    amplitudeChange x y = amplitudeChange x' y' := by
  unfold amplitudeChange
  rw [← hx.1, ← hx.2.1]
  refine sum_congr rfl fun i hi => sum_congr rfl fun j hj => ?_
  rw [hx.2.2 i (mem_range.1 hi) j (mem_range.1 hj), hy.2.2 i (hh ▸ mem_range.1 hi) j (hw ▸ mem_range.1 hj)]

/-- The power of the upsampled object. -/
theorem rpiUpsample_power (ha : a ≤ n) (hb : b ≤ m) (o : Wave a b) :
    power (rpiUpsample n m o) = (n * m : ℝ) / (a * b) * power o := by
  have h := (rpi_interaction_preserves ha hb o).2.1
  have hn : (0 : ℝ) < n := Nat.cast_pos.2 (Nat.pos_of_ne_zero (NeZero.ne n))
  have hm : (0 : ℝ) < m := Nat.cast_pos.2 (Nat.pos_of_ne_zero (NeZero.ne m))
  have hA : (0 : ℝ) < a := Nat.cast_pos.2 (Nat.pos_of_ne_zero (NeZero.ne a))
  have hB : (0 : ℝ) < b := Nat.cast_pos.2 (Nat.pos_of_ne_zero (NeZero.ne b))
  rw [div_eq_div_iff (by positivity) (by positivity)] at h
  rw [div_mul_eq_mul_div, eq_div_iff (by positivity)]
  linarith

/-- The detector of an RPI model fits its background. -/
def RpiFits (M : Rpi n m a b k l) : Prop :=
  (binPixels M.oversampling (⟨n, m, fun _ _ => 0⟩ : Img ℝ)).h = M.background.h ∧
  (binPixels M.oversampling (⟨n, m, fun _ _ => 0⟩ : Img ℝ)).w = M.background.w

/-- What an RPI detector makes of two sets of exit waves. -/
theorem rpi_detector_change (M : Rpi n m a b k l) (hos : 0 < M.oversampling) (p p' : Fin k → Wave n m) (v v' : Fin l → Wave a b) :
    amplitudeChange
      (measQuadratic { saturation := M.saturation, oversampling := M.oversampling } M.background none ⟨n, m, fun x y => rpiIntensity p v x y⟩)
      (measQuadratic { saturation := M.saturation, oversampling := M.oversampling } M.background none ⟨n, m, fun x y => rpiIntensity p' v' x y⟩) ≤
    (∑ x, ∑ y, ∑ i, ∑ o, ‖p i x y * rpiUpsample n m (v o) x y - p' i x y * rpiUpsample n m (v' o) x y‖ ^ 2) / M.oversampling ^ 2 := by
  have e : ∀ (p : Fin k → Wave n m) (v : Fin l → Wave a b), (⟨n, m, fun x y => rpiIntensity p v x y⟩ : Img ℝ) =
      ⟨n, m, fun x y => ∑ u : Fin k × Fin l, ‖farField (fun s t => p u.1 s t * rpiUpsample n m (v u.2) s t) x y‖ ^ 2⟩ := by
    intro p v
    unfold rpiIntensity
    simp only [Fintype.sum_prod_type]
  rw [e, e]
  refine (readOut_amplitudes M.saturation M.oversampling hos M.background none efficient_none n m
    (fun (u : Fin k × Fin l) x y => farField (fun s t => p u.1 s t * rpiUpsample n m (v u.2) s t) x y)
    (fun u x y => farField (fun s t => p' u.1 s t * rpiUpsample n m (v' u.2) s t) x y)).trans (le_of_eq ?_)
  congr 1
  rw [sum_pixels (fun x y => ∑ u : Fin k × Fin l, ‖farField (fun s t => p u.1 s t * rpiUpsample n m (v u.2) s t) x y -
    farField (fun s t => p' u.1 s t * rpiUpsample n m (v' u.2) s t) x y‖ ^ 2)]
  have hp : ∀ u : Fin k × Fin l, ∑ x, ∑ y, ‖farField (fun s t => p u.1 s t * rpiUpsample n m (v u.2) s t) x y -
      farField (fun s t => p' u.1 s t * rpiUpsample n m (v' u.2) s t) x y‖ ^ 2 =
      ∑ x, ∑ y, ‖p u.1 x y * rpiUpsample n m (v u.2) x y - p' u.1 x y * rpiUpsample n m (v' u.2) x y‖ ^ 2 := by
    intro u
    have := far_field_unitary.2.2.1 ((fun s t => p u.1 s t * rpiUpsample n m (v u.2) s t : Wave n m) -
      (fun s t => p' u.1 s t * rpiUpsample n m (v' u.2) s t : Wave n m))
    rw [isLinear_farField.map_sub] at this
    exact this
  have hsw : ∀ f : Fin k × Fin l → ZMod n → ZMod m → ℝ, ∑ x, ∑ y, ∑ u, f u x y = ∑ u, ∑ x, ∑ y, f u x y := by
    intro f
    rw [sum_comm]
    conv_rhs => rw [sum_comm]
    rw [sum_comm]
    refine sum_congr rfl fun x _ => sum_comm
  rw [hsw (fun u x y => ‖farField (fun s t => p u.1 s t * rpiUpsample n m (v u.2) s t) x y -
    farField (fun s t => p' u.1 s t * rpiUpsample n m (v' u.2) s t) x y‖ ^ 2)]
  simp only [hp]
  rw [← hsw fun u x y => ‖p u.1 x y * rpiUpsample n m (v u.2) x y - p' u.1 x y * rpiUpsample n m (v' u.2) x y‖ ^ 2]
  simp only [Fintype.sum_prod_type]

/-- **C113** (`RPI`, object): under a probe of intensity at most `β²` at every pixel, a change of the object changes the amplitudes of the pattern
by at most `β / oversampling` times the change of its transmission inside the support, counted on the grid of the probe. -/
theorem rpi_object_stability (M : Rpi n m a b k l) (O : Fin l → Wave a b) (ha : a ≤ n) (hb : b ≤ m) (hos : 0 < M.oversampling) (hfit : RpiFits M)
    (β : ℝ) (hβ : ∀ x y, ∑ i, ‖M.mixedProbes i x y‖ ^ 2 ≤ β ^ 2) (i : ℕ) (q q' : Img ℝ) (hq : M.forward (.one i) = .ok (.pattern q))
    (hq' : ({ M with obj := O } : Rpi n m a b k l).forward (.one i) = .ok (.pattern q')) :
    amplitudeChange q q' ≤ (β / M.oversampling) ^ 2 * ((n * m : ℝ) / (a * b)) *
      ∑ o, power (M.visible o - ({ M with obj := O } : Rpi n m a b k l).visible o) := by
  set M' : Rpi n m a b k l := { M with obj := O } with hM'
  obtain ⟨r, h1, h2⟩ := rpi_forward_pattern M i hfit.1 hfit.2 ⟨rfl, rfl⟩
  obtain ⟨r', h1', h2'⟩ := rpi_forward_pattern M' i hfit.1 hfit.2 ⟨rfl, rfl⟩
  have er : r = q := by rw [hq] at h1; injection h1 with h1; injection h1 with h1; exact h1.symm
  have er' : r' = q' := by rw [hq'] at h1'; injection h1' with h1'; injection h1' with h1'; exact h1'.symm
  subst er er'
  obtain ⟨s1, s2, -⟩ := measQuadratic_shape M.saturation M.oversampling hos M.background none ⟨n, m, fun x y => rpiIntensity M.mixedProbes M.visible x y⟩
  obtain ⟨t1, t2, -⟩ := measQuadratic_shape M.saturation M.oversampling hos M.background none ⟨n, m, fun x y => rpiIntensity M'.mixedProbes M'.visible x y⟩
  rw [amplitudeChange_same h2 h2' (by rw [h2.1, h2'.1]; exact s1.trans t1.symm) (by rw [h2.2.1, h2'.2.1]; exact s2.trans t2.symm)]
  refine (rpi_detector_change M hos M.mixedProbes M'.mixedProbes M.visible M'.visible).trans ?_
  have hmp : M'.mixedProbes = M.mixedProbes := rfl
  rw [hmp]
  have hup : ∀ o, power (rpiUpsample n m (M.visible o - M'.visible o)) = (n * m : ℝ) / (a * b) * power (M.visible o - M'.visible o) :=
    fun o => rpiUpsample_power ha hb _
  have hlin : ∀ o x y, rpiUpsample n m (M.visible o) x y - rpiUpsample n m (M'.visible o) x y = rpiUpsample n m (M.visible o - M'.visible o) x y := by
    intro o x y
    rw [isLinear_rpiUpsample.map_sub]; rfl
  have hle : (∑ x, ∑ y, ∑ i, ∑ o, ‖M.mixedProbes i x y * rpiUpsample n m (M.visible o) x y -
      M.mixedProbes i x y * rpiUpsample n m (M'.visible o) x y‖ ^ 2) ≤ β ^ 2 * ∑ o, power (rpiUpsample n m (M.visible o - M'.visible o)) := by
    have hsw : ∑ o, power (rpiUpsample n m (M.visible o - M'.visible o)) =
        ∑ x, ∑ y, ∑ o, ‖rpiUpsample n m (M.visible o - M'.visible o) x y‖ ^ 2 := by
      unfold power
      rw [sum_comm]
      exact sum_congr rfl fun x _ => sum_comm
    rw [hsw, mul_sum]
    refine sum_le_sum fun x _ => ?_
    rw [mul_sum]
    refine sum_le_sum fun y _ => ?_
    have e : ∑ i, ∑ o, ‖M.mixedProbes i x y * rpiUpsample n m (M.visible o) x y - M.mixedProbes i x y * rpiUpsample n m (M'.visible o) x y‖ ^ 2 =
        (∑ i, ‖M.mixedProbes i x y‖ ^ 2) * ∑ o, ‖rpiUpsample n m (M.visible o - M'.visible o) x y‖ ^ 2 := by
      rw [sum_mul]
      refine sum_congr rfl fun i _ => ?_
      rw [mul_sum]
      refine sum_congr rfl fun o _ => ?_
      rw [← mul_sub, hlin, norm_mul, mul_pow]
    rw [e]
    exact mul_le_mul_of_nonneg_right (hβ x y) (sum_nonneg fun _ _ => sq_nonneg _)
  refine (div_le_div_of_nonneg_right hle (by positivity)).trans (le_of_eq ?_)
  simp only [hup]
  rw [← mul_sum, div_pow]
  ring

/-- **C113** (`RPI`, probe): behind an object whose upsampled modes have intensity at most `τ²` at every pixel, a change of the probe or of the
weights changes the amplitudes by at most `τ / oversampling` times the change of the mixed probe modes. -/
theorem rpi_probe_stability (M : Rpi n m a b k l) (P : Fin k → Wave n m) (U : Matrix (Fin k) (Fin k) ℂ) (hos : 0 < M.oversampling) (hfit : RpiFits M)
    (τ : ℝ) (hτ : ∀ x y, ∑ o, ‖rpiUpsample n m (M.visible o) x y‖ ^ 2 ≤ τ ^ 2) (i : ℕ) (q q' : Img ℝ) (hq : M.forward (.one i) = .ok (.pattern q))
    (hq' : ({ M with probe := P, weights := U } : Rpi n m a b k l).forward (.one i) = .ok (.pattern q')) :
    amplitudeChange q q' ≤ (τ / M.oversampling) ^ 2 *
      ∑ j, power (M.mixedProbes j - ({ M with probe := P, weights := U } : Rpi n m a b k l).mixedProbes j) := by
  set M' : Rpi n m a b k l := { M with probe := P, weights := U } with hM'
  obtain ⟨r, h1, h2⟩ := rpi_forward_pattern M i hfit.1 hfit.2 ⟨rfl, rfl⟩
  obtain ⟨r', h1', h2'⟩ := rpi_forward_pattern M' i hfit.1 hfit.2 ⟨rfl, rfl⟩
  have er : r = q := by rw [hq] at h1; injection h1 with h1; injection h1 with h1; exact h1.symm
  have er' : r' = q' := by rw [hq'] at h1'; injection h1' with h1'; injection h1' with h1'; exact h1'.symm
  subst er er'
  obtain ⟨s1, s2, -⟩ := measQuadratic_shape M.saturation M.oversampling hos M.background none ⟨n, m, fun x y => rpiIntensity M.mixedProbes M.visible x y⟩
  obtain ⟨t1, t2, -⟩ := measQuadratic_shape M.saturation M.oversampling hos M.background none ⟨n, m, fun x y => rpiIntensity M'.mixedProbes M'.visible x y⟩
  rw [amplitudeChange_same h2 h2' (by rw [h2.1, h2'.1]; exact s1.trans t1.symm) (by rw [h2.2.1, h2'.2.1]; exact s2.trans t2.symm)]
  refine (rpi_detector_change M hos M.mixedProbes M'.mixedProbes M.visible M'.visible).trans ?_
  have hv : M'.visible = M.visible := rfl
  rw [hv]
  have hle : (∑ x, ∑ y, ∑ i, ∑ o, ‖M.mixedProbes i x y * rpiUpsample n m (M.visible o) x y -
      M'.mixedProbes i x y * rpiUpsample n m (M.visible o) x y‖ ^ 2) ≤ τ ^ 2 * ∑ j, power (M.mixedProbes j - M'.mixedProbes j) := by
    have hsw : ∑ j, power (M.mixedProbes j - M'.mixedProbes j) = ∑ x, ∑ y, ∑ j, ‖M.mixedProbes j x y - M'.mixedProbes j x y‖ ^ 2 := by
      unfold power
      rw [sum_comm]
      exact sum_congr rfl fun x _ => sum_comm
    rw [hsw, mul_sum]
    refine sum_le_sum fun x _ => ?_
    rw [mul_sum]
    refine sum_le_sum fun y _ => ?_
    have e : ∑ i, ∑ o, ‖M.mixedProbes i x y * rpiUpsample n m (M.visible o) x y - M'.mixedProbes i x y * rpiUpsample n m (M.visible o) x y‖ ^ 2 =
        (∑ o, ‖rpiUpsample n m (M.visible o) x y‖ ^ 2) * ∑ j, ‖M.mixedProbes j x y - M'.mixedProbes j x y‖ ^ 2 := by
      rw [mul_sum]
      refine sum_congr rfl fun i _ => ?_
      rw [sum_mul]
      refine sum_congr rfl fun o _ => ?_
      rw [← sub_mul, norm_mul, mul_pow, mul_comm]
    rw [e]
    exact mul_le_mul_of_nonneg_right (hτ x y) (sum_nonneg fun _ _ => sq_nonneg _)
  refine (div_le_div_of_nonneg_right hle (by positivity)).trans (le_of_eq ?_)
  rw [div_pow]
  ring

/-! ### SimplePtycho -/

/-- What the detector of `SimplePtycho` makes of two exit waves. -/
theorem simple_detector_change (ψ φ : Wave n m) :
    amplitudeChange (measIntensity {} ⟨n, m, fun i j => farField ψ i j⟩) (measIntensity {} ⟨n, m, fun i j => farField φ i j⟩) ≤ power (ψ - φ) := by
  have e : ∀ w : Wave n m, (measIntensity {} ⟨n, m, fun i j => farField w i j⟩).Same
      (measQuadratic { saturation := none, oversampling := 1 } ⟨n, m, fun _ _ => 0⟩ none ⟨n, m, fun i j => ∑ _u : Fin 1, ‖farField w i j‖ ^ 2⟩) := by
    intro w
    unfold measIntensity measQuadratic
    simp only [Finset.univ_unique, Finset.sum_singleton]
    unfold Img.Same
    refine ⟨by simp [readOut, saturate, Img.map, Img.zip, cutSlice, binPixels], by simp [readOut, saturate, Img.map, Img.zip, cutSlice, binPixels], fun i _ j _ => ?_⟩
    simp [readOut, saturate, Img.map, Img.zip, cutSlice, binPixels]
  have hs : ∀ w : Wave n m, (measIntensity {} ⟨n, m, fun i j => farField w i j⟩).h = n ∧ (measIntensity {} ⟨n, m, fun i j => farField w i j⟩).w = m := by
    intro w
    unfold measIntensity
    simp [readOut, saturate, Img.map, cutSlice, binPixels]
  rw [amplitudeChange_same (e ψ) (e φ) ((hs ψ).1.trans (hs φ).1.symm) ((hs ψ).2.trans (hs φ).2.symm)]
  refine (readOut_amplitudes none 1 one_pos ⟨n, m, fun _ _ => 0⟩ none efficient_none n m (fun (_ : Fin 1) x y => farField ψ x y)
    (fun _ x y => farField φ x y)).trans (le_of_eq ?_)
  simp only [Finset.univ_unique, Finset.sum_singleton, Nat.cast_one, one_pow, div_one]
  rw [sum_pixels (fun x y => ‖farField ψ x y - farField φ x y‖ ^ 2), ← far_field_unitary.2.2.1, isLinear_farField.map_sub]
  rfl

/-- **C113** (`SimplePtycho`, probe): with transmission at most `τ`, a change of the probe changes the amplitudes of an exposure by at most
`probe_norm · τ` times the change. -/
theorem simple_probe_stability (M : Simple n m) (P : Wave n m) (τ : ℝ) (hτ : ∀ i j, ‖M.obj.px i j‖ ≤ τ) (t : Fin 3 → ℝ) (q q' : Img ℝ)
    (hq : M.forward t = .ok q) (hq' : ({ M with probe := P } : Simple n m).forward t = .ok q') :
    amplitudeChange q q' ≤ (M.probeNorm * τ) ^ 2 * power (M.probe - P) := by
  unfold Simple.forward roundExit at hq hq'
  have hp : ({ M with probe := P } : Simple n m).pixTrans = M.pixTrans := rfl
  simp only [hp] at hq'
  simp only at hq
  cases hw : objWindow n m M.obj (roundHalfEven (M.pixTrans t 0)) (roundHalfEven (M.pixTrans t 1)) with
  | error e => rw [hw] at hq; exact (nomatch hq)
  | ok sel =>
    rw [hw] at hq hq'
    rw [← Except.ok.inj hq, ← Except.ok.inj hq']
    obtain ⟨r, c, hsel⟩ := objWindow_bound _ _ _ _ hw
    refine (simple_detector_change _ _).trans ?_
    have e : (fun i j => (M.probeNorm : ℂ) * M.probe i j * sel i j : Wave n m) - (fun i j => (M.probeNorm : ℂ) * P i j * sel i j : Wave n m) =
        fun i j => (fun x y => (M.probeNorm : ℂ) * (M.probe - P) x y : Wave n m) i j * sel i j := by
      funext i j
      show (M.probeNorm : ℂ) * M.probe i j * sel i j - (M.probeNorm : ℂ) * P i j * sel i j = (M.probeNorm : ℂ) * (M.probe i j - P i j) * sel i j
      ring
    rw [e]
    refine (power_mul_le τ sel _ fun x y => by rw [hsel]; exact hτ _ _).trans (le_of_eq ?_)
    rw [power_const_mul, Complex.norm_real, Real.norm_eq_abs, sq_abs]
    ring

/-- **C113** (`SimplePtycho`, object): under a probe of modulus at most `β`, a change of the object changes the amplitudes of an exposure by at most
`probe_norm · β` times the change inside the window of the exposure. -/
theorem simple_object_stability (M : Simple n m) (O : Img ℂ) (β : ℝ) (hβ : ∀ i j, ‖M.probe i j‖ ≤ β) (t : Fin 3 → ℝ) (q q' : Img ℝ) (sel sel' : Wave n m)
    (hw : objWindow n m M.obj (roundHalfEven (M.pixTrans t 0)) (roundHalfEven (M.pixTrans t 1)) = .ok sel)
    (hw' : objWindow n m O (roundHalfEven (M.pixTrans t 0)) (roundHalfEven (M.pixTrans t 1)) = .ok sel')
    (hq : M.forward t = .ok q) (hq' : ({ M with obj := O } : Simple n m).forward t = .ok q') :
    amplitudeChange q q' ≤ (M.probeNorm * β) ^ 2 * power (sel - sel') := by
  unfold Simple.forward roundExit at hq hq'
  have hp : ({ M with obj := O } : Simple n m).pixTrans = M.pixTrans := rfl
  simp only [hp, hw'] at hq'
  simp only [hw] at hq
  rw [← Except.ok.inj hq, ← Except.ok.inj hq']
  refine (simple_detector_change _ _).trans ?_
  have e : (fun i j => (M.probeNorm : ℂ) * M.probe i j * sel i j : Wave n m) - (fun i j => (M.probeNorm : ℂ) * M.probe i j * sel' i j : Wave n m) =
      fun x y => (M.probeNorm : ℂ) * (fun i j => (sel - sel') i j * M.probe i j : Wave n m) x y := by
    funext i j
    show (M.probeNorm : ℂ) * M.probe i j * sel i j - (M.probeNorm : ℂ) * M.probe i j * sel' i j = (M.probeNorm : ℂ) * ((sel i j - sel' i j) * M.probe i j)
    ring
  rw [e, power_const_mul, Complex.norm_real, Real.norm_eq_abs, sq_abs, mul_pow, mul_assoc]
  exact mul_le_mul_of_nonneg_left (power_mul_le β M.probe _ hβ) (sq_nonneg _)

/-! ### Non-vacuity -/

/-- The toy RPI model fits its detector and can be simulated, with any other object, too. -/
example (O : Fin 2 → Wave 2 3) : RpiFits (toyRpi true false) ∧ (∃ q, (toyRpi true false).forward (.one 0) = .ok (.pattern q)) ∧
    ∃ q', ({ toyRpi true false with obj := O } : Rpi 4 4 2 3 2 2).forward (.one 0) = .ok (.pattern q') := by
  have hfit : RpiFits (toyRpi true false) := ⟨by simp [toyRpi, binPixels], by simp [toyRpi, binPixels]⟩
  refine ⟨hfit, ?_, ?_⟩
  · obtain ⟨q, h, -⟩ := rpi_forward_pattern (toyRpi true false) 0 hfit.1 hfit.2 ⟨rfl, rfl⟩
    exact ⟨q, h⟩
  · obtain ⟨q, h, -⟩ := rpi_forward_pattern ({ toyRpi true false with obj := O } : Rpi 4 4 2 3 2 2) 0 hfit.1 hfit.2 ⟨rfl, rfl⟩
    exact ⟨q, h⟩

end Cdtools
