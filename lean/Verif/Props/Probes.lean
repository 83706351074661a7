/-
C45 (gaussian_probe), C59 (its propagation) and C60 (SHARP_style_probe).
-/
import Verif.Model.Initializers
import Verif.Props.ModeOrders
import Verif.Props.Upsample
import Mathlib.Analysis.SpecialFunctions.Gaussian.FourierTransform

set_option linter.unusedSectionVars false
set_option linter.unusedSimpArgs false

namespace Cdtools
open Finset ZMod

variable {n m : ℕ} [NeZero n] [NeZero m]

/-! ### gaussian_probe -/

theorem power_const_mul (c : ℂ) (w : Wave n m) : power (fun i j => c * w i j) = ‖c‖ ^ 2 * power w := by
  unfold power
  simp only [norm_mul, mul_pow, ← mul_sum]

theorem power_pos_of_ne_zero {w : Wave n m} (h : ∀ i j, w i j ≠ 0) : 0 < power w := by
  unfold power
  exact sum_pos (fun i _ => sum_pos (fun j _ => by have := h i j; positivity) univ_nonempty)
    univ_nonempty

theorem gaussian_ne_zero (s0 s1 a cv0 cv1 : ℝ) (ha : a ≠ 0) (c : Option (ℝ × ℝ)) (i : ZMod n)
    (j : ZMod m) : gaussian s0 s1 a c cv0 cv1 i j ≠ 0 := by
  unfold gaussian
  exact mul_ne_zero (by exact_mod_cast ha) (Complex.exp_ne_zero _)

/-- **C45** (gaussian_probe): for all shapes, pixel sizes, widths, distances and wavelengths, and every
non-empty dataset whose total number of counts is not negative, the total intensity of the probe
is the mean over exposures of the total counts of a pattern. -/
theorem gaussian_probe_intensity {N M : ℕ} [NeZero N] [NeZero M] (wl u0 u1 s0 s1 z : ℝ)
    (patterns : List (RealIm N M)) (h : patterns ≠ [])
    (hs : 0 ≤ (patterns.map fun p => ∑ i, ∑ j, p i j).sum) :
    power (gaussianProbe (n := n) (m := m) wl u0 u1 s0 s1 z patterns) =
      (patterns.map fun p => ∑ i, ∑ j, p i j).sum / patterns.length := by
  have hl : (0 : ℝ) < patterns.length := by exact_mod_cast List.length_pos_iff.2 h
  have e : gaussianProbe (n := n) (m := m) wl u0 u1 s0 s1 z patterns = fun i j =>
      (Real.sqrt ((patterns.map fun p => ∑ i, ∑ j, p i j).sum / patterns.length /
        power (gaussian (n := n) (m := m) (propagatedSigma wl s0 z / u0) (propagatedSigma wl s1 z / u1)
          1 none (propagatedCurvature wl s0 z * u0 ^ 2) (propagatedCurvature wl s1 z * u1 ^ 2))) : ℂ) *
      gaussian (n := n) (m := m) (propagatedSigma wl s0 z / u0) (propagatedSigma wl s1 z / u1)
          1 none (propagatedCurvature wl s0 z * u0 ^ 2) (propagatedCurvature wl s1 z * u1 ^ 2) i j := rfl
  rw [e, power_const_mul]
  have hp : 0 < power (gaussian (n := n) (m := m) (propagatedSigma wl s0 z / u0)
      (propagatedSigma wl s1 z / u1) 1 none (propagatedCurvature wl s0 z * u0 ^ 2)
      (propagatedCurvature wl s1 z * u1 ^ 2)) :=
    power_pos_of_ne_zero fun i j => gaussian_ne_zero _ _ _ _ _ one_ne_zero _ _ _
  rw [Complex.norm_real, Real.norm_of_nonneg (Real.sqrt_nonneg _), Real.sq_sqrt (by positivity)]
  exact div_mul_cancel₀ _ hp.ne'

/-- Non-vacuity: one 1 × 1 pattern with 5 counts. -/
example : power (gaussianProbe (n := 3) (m := 4) 1 1 1 2 2 7 [fun (_ : ZMod 1) (_ : ZMod 1) => (5 : ℝ)])
    = 5 := by
  rw [gaussian_probe_intensity] <;> simp

/-- The transverse profile that `gaussian_probe` uses along one axis, as a function of the distance `x`
(in metres) from the centre. -/
noncomputable def beamProfile (wl sigma z x : ℝ) : ℂ :=
  Complex.exp ((Complex.I * propagatedCurvature wl sigma z / 2 -
    1 / (2 * (propagatedSigma wl sigma z : ℂ) ^ 2)) * (x : ℂ) ^ 2)

theorem propagatedSigma_sq {wl s : ℝ} (hw : 0 < wl) (hs : 0 < s) (z : ℝ) :
    propagatedSigma wl s z ^ 2 = s ^ 2 + (z / (2 * Real.pi / wl * s)) ^ 2 := by
  unfold propagatedSigma
  rw [mul_pow, Real.sq_sqrt (by positivity)]
  have := Real.pi_pos
  field_simp

/-- **C45** (gaussian_probe): the probe is, up to one non-negative constant, the product of the beam
profiles along both axes sampled on the pixel grid about the centre of the array; the modulus of the
profile is a Gaussian of the standard deviation `√(σ² + (z / kσ)²)` of a propagated beam. -/
theorem gaussian_probe_profile {N M : ℕ} [NeZero N] [NeZero M] (wl u0 u1 s0 s1 z : ℝ)
    (h0 : 0 < u0) (h1 : 0 < u1) (patterns : List (RealIm N M)) :
    (∃ c : ℝ, 0 ≤ c ∧ ∀ (i : ZMod n) (j : ZMod m),
      gaussianProbe (n := n) (m := m) wl u0 u1 s0 s1 z patterns i j =
        c * (beamProfile wl s0 z (((i.val : ℝ) - ((n : ℝ) - 1) / 2) * u0) *
          beamProfile wl s1 z (((j.val : ℝ) - ((m : ℝ) - 1) / 2) * u1))) ∧
    (0 < wl → ∀ s, 0 < s → ∀ x, ‖beamProfile wl s z x‖ =
      Real.exp (-x ^ 2 / (2 * (s ^ 2 + (z / (2 * Real.pi / wl * s)) ^ 2)))) := by
  constructor
  · refine ⟨Real.sqrt ((patterns.map fun p => ∑ i, ∑ j, p i j).sum / patterns.length /
        power (gaussian (n := n) (m := m) (propagatedSigma wl s0 z / u0) (propagatedSigma wl s1 z / u1)
          1 none (propagatedCurvature wl s0 z * u0 ^ 2) (propagatedCurvature wl s1 z * u1 ^ 2))),
      Real.sqrt_nonneg _, fun i j => ?_⟩
    unfold gaussianProbe
    refine congrArg₂ (· * ·) rfl ?_
    unfold gaussian beamProfile
    rw [← Complex.exp_add, Complex.ofReal_one, one_mul]
    congr 1
    simp only [Option.getD_none]
    push_cast
    have c0 : (u0 : ℂ) ≠ 0 := by exact_mod_cast h0.ne'
    have c1 : (u1 : ℂ) ≠ 0 := by exact_mod_cast h1.ne'
    simp only [div_pow, one_div, mul_inv, inv_div]
    ring
  · intro hw s hs x
    unfold beamProfile
    rw [Complex.norm_exp]
    congr 1
    rw [← propagatedSigma_sq hw hs]
    have e : ((Complex.I * propagatedCurvature wl s z / 2 -
        1 / (2 * (propagatedSigma wl s z : ℂ) ^ 2)) * (x : ℂ) ^ 2) =
        ((-x ^ 2 / (2 * propagatedSigma wl s z ^ 2) : ℝ) : ℂ) +
        ((propagatedCurvature wl s z / 2 * x ^ 2 : ℝ) : ℂ) * Complex.I := by
      push_cast; ring
    rw [e]
    simp [-Complex.ofReal_div, -Complex.ofReal_mul, -Complex.ofReal_pow, -Complex.ofReal_neg]

/-! ### C59: the propagation distance -/

/-- `v` is `u` propagated by the distance `z` in the paraxial (Fresnel) approximation, up to a
constant: every plane wave component with transverse wavevector `K` gets the phase
`-z K² / 2k`. -/
def IsFresnelPropagation (k z : ℝ) (u v : ℝ → ℂ) : Prop :=
  ∃ c : ℂ, c ≠ 0 ∧ ∀ K : ℝ, ∫ x : ℝ, Complex.exp (Complex.I * K * x) * v x =
    c * Complex.exp (-(Complex.I * (z * K ^ 2 / (2 * k) : ℝ))) *
      ∫ x : ℝ, Complex.exp (Complex.I * K * x) * u x

/-- The sign convention is that of the angular spectrum propagator of the library: for every
propagating frequency and `z ≥ 0` it multiplies by a phase between `-z K² / 2k` and `-z K² / k`. -/
theorem angular_spectrum_paraxial (s0 s1 wl z : ℝ) (h0 : 0 < s0) (h1 : 0 < s1) (hw : 0 < wl)
    (hz : 0 ≤ z) (k : ZMod n) (l : ZMod m) (hp : Propagates n m s0 s1 wl k l) :
    ∃ θ : ℝ, angularSpectrum n m s0 s1 wl z none k l = Complex.exp (-(Complex.I * θ)) ∧
      z * transverse2 n m s0 s1 k l / (2 * (2 * Real.pi / wl)) ≤ θ ∧
      θ ≤ z * transverse2 n m s0 s1 k l / (2 * Real.pi / wl) := by
  have hk : 0 < 2 * Real.pi / wl := by positivity
  have hT : 0 ≤ transverse2 n m s0 s1 k l := by unfold transverse2; positivity
  have hq : 0 ≤ (2 * Real.pi / wl) ^ 2 - transverse2 n m s0 s1 k l := by
    have := hp; unfold Propagates at this; linarith
  rw [angularSpectrum_eq s0 s1 wl z h0 h1 hw k l]
  simp only
  rw [if_neg (by linarith), abs_of_nonneg hz]
  generalize 2 * Real.pi / wl = q at *
  generalize transverse2 n m s0 s1 k l = T at *
  have hsq : Real.sqrt (q ^ 2 - T) * Real.sqrt (q ^ 2 - T) = q ^ 2 - T := Real.mul_self_sqrt hq
  have hs0 := Real.sqrt_nonneg (q ^ 2 - T)
  have hs1 : Real.sqrt (q ^ 2 - T) ≤ q := by
    rw [Real.sqrt_le_left hk.le]; linarith
  refine ⟨z * (q - Real.sqrt (q ^ 2 - T)), ?_, ?_, ?_⟩
  · congr 1
    unfold csqrt
    rw [if_pos hq]
    push_cast; ring
  · rw [div_le_iff₀ (by positivity), mul_assoc]
    refine mul_le_mul_of_nonneg_left ?_ hz
    nlinarith
  · rw [le_div_iff₀ hk, mul_assoc]
    refine mul_le_mul_of_nonneg_left ?_ hz
    nlinarith

theorem beam_coefficient {wl s : ℝ} (hw : 0 < wl) (hs : 0 < s) (z : ℝ) :
    let k := 2 * Real.pi / wl
    let b : ℂ := 1 / (2 * (propagatedSigma wl s z : ℂ) ^ 2) -
      Complex.I * propagatedCurvature wl s z / 2
    0 < b.re ∧ 1 / (4 * b) = ((s ^ 2 / 2 : ℝ) : ℂ) - Complex.I * ((z / (2 * k) : ℝ) : ℂ) := by
  intro k b
  have hk : 0 < k := by positivity
  have hσ := propagatedSigma_sq hw hs z
  have hσ0 : 0 < propagatedSigma wl s z ^ 2 := by rw [hσ]; positivity
  have hb : b = ((1 / (2 * propagatedSigma wl s z ^ 2) : ℝ) : ℂ) +
      ((-propagatedCurvature wl s z / 2 : ℝ) : ℂ) * Complex.I := by
    simp only [b]; push_cast; ring
  have hre : b.re = 1 / (2 * propagatedSigma wl s z ^ 2) := by
    rw [hb]; simp [-Complex.ofReal_div, -Complex.ofReal_mul, -Complex.ofReal_pow, -Complex.ofReal_neg]
  have hre0 : 0 < b.re := by rw [hre]; positivity
  have hb0 : b ≠ 0 := by intro h; rw [h] at hre0; simp at hre0
  refine ⟨hre0, ?_⟩
  rw [div_eq_iff (by simp [hb0])]
  have hc : propagatedCurvature wl s z = -k * z / (z ^ 2 + (k * s ^ 2) ^ 2) := rfl
  have h1 : (1 : ℝ) / (2 * propagatedSigma wl s z ^ 2) =
      (k * s) ^ 2 / (2 * (z ^ 2 + (k * s ^ 2) ^ 2)) := by
    rw [hσ]
    change 1 / (2 * (s ^ 2 + (z / (k * s)) ^ 2)) = _
    rw [div_eq_div_iff (by positivity) (by positivity)]
    field_simp
    ring
  rw [hb, h1, hc]
  have hD : ((z ^ 2 + (k * s ^ 2) ^ 2 : ℝ) : ℂ) ≠ 0 := by
    rw [Complex.ofReal_ne_zero]; positivity
  have hk' : (k : ℂ) ≠ 0 := by exact_mod_cast hk.ne'
  generalize hDD : z ^ 2 + (k * s ^ 2) ^ 2 = D at *
  have hDC : (D : ℂ) = (z : ℂ) ^ 2 + ((k : ℂ) * s ^ 2) ^ 2 := by rw [← hDD]; push_cast; ring
  push_cast
  field_simp
  linear_combination 4 * hDC + (4 * (z : ℂ) ^ 2) * Complex.I_sq

theorem beam_transform {wl s : ℝ} (hw : 0 < wl) (hs : 0 < s) (z : ℝ) :
    ∃ c : ℂ, c ≠ 0 ∧ ∀ K : ℝ, ∫ x : ℝ, Complex.exp (Complex.I * K * x) * beamProfile wl s z x =
      c * Complex.exp (-(s ^ 2 * K ^ 2 / 2 : ℝ)) *
        Complex.exp (Complex.I * (z * K ^ 2 / (2 * (2 * Real.pi / wl)) : ℝ)) := by
  obtain ⟨hb, h4⟩ := beam_coefficient hw hs z
  set b : ℂ := 1 / (2 * (propagatedSigma wl s z : ℂ) ^ 2) -
      Complex.I * propagatedCurvature wl s z / 2 with hbdef
  have hb0 : b ≠ 0 := by intro h; rw [h] at hb; simp at hb
  refine ⟨((Real.pi : ℂ) / b) ^ (1 / 2 : ℂ), ?_, fun K => ?_⟩
  · rw [Ne, Complex.cpow_eq_zero_iff]
    simp [hb0, Real.pi_ne_zero]
  · have h := fourierIntegral_gaussian hb (K : ℂ)
    have e : ∀ x : ℝ, beamProfile wl s z x = Complex.exp (-b * (x : ℂ) ^ 2) := by
      intro x; unfold beamProfile; congr 1; rw [hbdef]; ring
    simp only [e]
    rw [h, mul_assoc, ← Complex.exp_add]
    congr 2
    rw [show -(K : ℂ) ^ 2 / (4 * b) = -(K : ℂ) ^ 2 * (1 / (4 * b)) by ring, h4]
    push_cast
    ring

/-- **C59** (what holds): for every wavelength, width and distance, the profile of
`gaussian_probe(propagation_distance=z)` is the focal profile propagated by `-z`. Missing: by `z`. -/
theorem gaussian_probe_propagates_partial {wl s : ℝ} (hw : 0 < wl) (hs : 0 < s) (z : ℝ) :
    IsFresnelPropagation (2 * Real.pi / wl) (-z) (beamProfile wl s 0) (beamProfile wl s z) := by
  obtain ⟨c, hc, h⟩ := beam_transform hw hs z
  obtain ⟨d, hd, h'⟩ := beam_transform hw hs 0
  refine ⟨c / d, div_ne_zero hc hd, fun K => ?_⟩
  rw [h, h']
  simp only [zero_mul, zero_div, Complex.ofReal_zero, mul_zero, Complex.exp_zero, mul_one]
  rw [show -(Complex.I * ((-z * K ^ 2 / (2 * (2 * Real.pi / wl)) : ℝ) : ℂ)) =
    Complex.I * ((z * K ^ 2 / (2 * (2 * Real.pi / wl)) : ℝ) : ℂ) by push_cast; ring]
  field_simp

/-- **C59** (negation): for no nonzero distance is it the focal profile propagated by `z`. -/
theorem gaussian_probe_propagation_violated {wl s z : ℝ} (hw : 0 < wl) (hs : 0 < s) (hz : z ≠ 0) :
    ¬ IsFresnelPropagation (2 * Real.pi / wl) z (beamProfile wl s 0) (beamProfile wl s z) := by
  have hk : 0 < 2 * Real.pi / wl := by positivity
  generalize hq : 2 * Real.pi / wl = q at hk
  rintro ⟨c', hc', h'⟩
  obtain ⟨c, hc, h⟩ := gaussian_probe_propagates_partial hw hs z
  rw [hq] at h
  obtain ⟨d, hd, hf⟩ := beam_transform hw hs 0
  have key : ∀ K : ℝ, c * Complex.exp (Complex.I * (z * K ^ 2 / q : ℝ)) = c' := by
    intro K
    have e := (h K).symm.trans (h' K)
    have hne : (∫ x : ℝ, Complex.exp (Complex.I * K * x) * beamProfile wl s 0 x) ≠ 0 := by
      rw [hf]
      exact mul_ne_zero (mul_ne_zero hd (Complex.exp_ne_zero _)) (Complex.exp_ne_zero _)
    have e2 := mul_right_cancel₀ hne e
    have hx := Complex.exp_ne_zero (-(Complex.I * ((z * K ^ 2 / (2 * q) : ℝ) : ℂ)))
    refine mul_right_cancel₀ hx ?_
    rw [← e2, mul_assoc, ← Complex.exp_add]
    congr 2
    push_cast
    ring
  have k0 := key 0
  simp at k0
  have k1 := key (Real.sqrt (Real.pi * q / |z|))
  rw [Real.sq_sqrt (by positivity), ← k0] at k1
  have k2 : Complex.exp (Complex.I * ((z * (Real.pi * q / |z|) / q : ℝ) : ℂ)) = 1 :=
    mul_left_cancel₀ hc (by rw [k1, mul_one])
  rcases lt_or_gt_of_ne hz with hneg | hpos
  · rw [abs_of_neg hneg, show z * (Real.pi * q / -z) / q = -Real.pi by field_simp] at k2
    push_cast at k2
    rw [show Complex.I * -(Real.pi : ℂ) = -(Real.pi * Complex.I) by ring, Complex.exp_neg,
      Complex.exp_pi_mul_I] at k2
    norm_num at k2
  · rw [abs_of_pos hpos, show z * (Real.pi * q / z) / q = Real.pi by field_simp] at k2
    rw [show Complex.I * (Real.pi : ℂ) = Real.pi * Complex.I by ring, Complex.exp_pi_mul_I] at k2
    norm_num at k2

/-! ### C60: SHARP_style_probe -/

/-- The measured mean intensity of a pixel, with the background removed: what the property is about,
written independently of the code. -/
noncomputable def meanCounts (mask : RealIm n m) (patterns : List (RealIm n m))
    (background : RealIm n m) (i : ZMod n) (j : ZMod m) : ℝ :=
  max (mask i j * ((patterns.map fun p => p i j).sum / patterns.length) - background i j) 0

/-- **C60**: for every shape, oversampling factor, mask and dataset of non-negative patterns, with or
without background: the probe consists of an array of the size of the patterns placed in the middle
of zeros (central pixel to central pixel), whose far field is real, non-negative and has exactly
the mean masked, background-subtracted counts as its intensity; so its total intensity is their
sum. -/
theorem sharp_probe_matches_data (os : ℕ) (hos : 0 < os) (mask : RealIm n m)
    (patterns : List (RealIm n m)) (background : Option (RealIm n m))
    (hm : ∀ i j, 0 ≤ mask i j) (hp : ∀ p ∈ patterns, ∀ i j, 0 ≤ p i j) :
    (haveI : NeZero (os * n) := ⟨Nat.mul_ne_zero hos.ne' (NeZero.ne n)⟩
     haveI : NeZero (os * m) := ⟨Nat.mul_ne_zero hos.ne' (NeZero.ne m)⟩
     power (sharpProbe os mask patterns background) =
       ∑ i, ∑ j, meanCounts mask patterns (background.getD fun _ _ => 0) i j) ∧
    ∃ small : Wave n m,
      (∀ i j, farField small i j =
        (Real.sqrt (meanCounts mask patterns (background.getD fun _ _ => 0) i j) : ℂ)) ∧
      (∀ k l, sharpProbe os mask patterns background k l = 0 ∨
        ∃ (i : ZMod n) (j : ZMod m), k = ((os * n / 2 : ℕ) : ZMod (os * n)) + (((i.val : ℤ) - (n / 2 : ℕ) : ℤ) : ZMod (os * n)) ∧
          l = ((os * m / 2 : ℕ) : ZMod (os * m)) + (((j.val : ℤ) - (m / 2 : ℕ) : ℤ) : ZMod (os * m))) ∧
      (∀ (i : ZMod n) (j : ZMod m), sharpProbe os mask patterns background
          (((os * n / 2 : ℕ) : ZMod (os * n)) + (((i.val : ℤ) - (n / 2 : ℕ) : ℤ) : ZMod (os * n)))
          (((os * m / 2 : ℕ) : ZMod (os * m)) + (((j.val : ℤ) - (m / 2 : ℕ) : ℤ) : ZMod (os * m))) =
        small i j) := by
  haveI i0 : NeZero (os * n) := ⟨Nat.mul_ne_zero hos.ne' (NeZero.ne n)⟩
  haveI i1 : NeZero (os * m) := ⟨Nat.mul_ne_zero hos.ne' (NeZero.ne m)⟩
  have hint : ∀ i j, sharpIntensities mask patterns background i j =
      meanCounts mask patterns (background.getD fun _ _ => 0) i j := by
    intro i j
    have hmul : (patterns.map fun p => mask i j * p i j).sum =
        mask i j * (patterns.map fun p => p i j).sum := List.sum_map_mul_left ..
    have hnn : 0 ≤ (patterns.map fun p => p i j).sum := by
      refine List.sum_nonneg ?_
      intro x hx
      obtain ⟨p, hp', rfl⟩ := List.mem_map.1 hx
      exact hp p hp' i j
    unfold sharpIntensities meanCounts
    cases background with
    | none =>
      simp only [Option.getD_none, sub_zero]
      rw [hmul, mul_div_assoc, max_eq_left]
      exact mul_nonneg (hm i j) (div_nonneg hnn (Nat.cast_nonneg _))
    | some b =>
      simp only [Option.getD_some]
      rw [hmul, mul_div_assoc]
  set small : Wave n m := inverseFarField fun k l =>
    (Real.sqrt (sharpIntensities mask patterns background k l) : ℂ) with hsmall
  have hn : n ≤ os * n := Nat.le_mul_of_pos_left n hos
  have hm' : m ≤ os * m := Nat.le_mul_of_pos_left m hos
  have hs : sharpProbe os mask patterns background = fun k l =>
      if os * n / 2 - n / 2 ≤ k.val ∧ k.val < os * n / 2 - n / 2 + n ∧ os * m / 2 - m / 2 ≤ l.val ∧
        l.val < os * m / 2 - m / 2 + m then
      small ((k.val - (os * n / 2 - n / 2) : ℕ) : ZMod n) ((l.val - (os * m / 2 - m / 2) : ℕ) : ZMod m)
      else 0 := rfl
  have hfar : ∀ i j, farField small i j =
      (Real.sqrt (meanCounts mask patterns (background.getD fun _ _ => 0) i j) : ℂ) := by
    intro i j
    rw [hsmall, far_field_unitary.2.1]
    simp only [hint]
  have pos : ∀ (N a : ℕ) [NeZero a] [NeZero N] (ha : a ≤ N) (i : ZMod a),
      ((N / 2 : ℕ) : ZMod N) + (((i.val : ℤ) - (a / 2 : ℕ) : ℤ) : ZMod N) =
        ((N / 2 - a / 2 + i.val : ℕ) : ZMod N) ∧ N / 2 - a / 2 + i.val < N := by
    intro N a _ _ ha i
    have hi := i.val_lt
    refine ⟨?_, by omega⟩
    have h2 : N / 2 - a / 2 + a / 2 = N / 2 := by omega
    generalize N / 2 - a / 2 = c at *
    rw [← h2]
    generalize a / 2 = d
    push_cast; ring
  generalize sharpProbe os mask patterns background = W at hs ⊢
  change @power (os * n) (os * m) i0 i1 W = _ ∧ _
  generalize hL : os * n = N at *
  generalize hM : os * m = M at *
  refine ⟨?_, small, hfar, ?_, ?_⟩
  · rw [hs]
    have hw := zmod_sum_window2 (n := n) (m := m) (N := N) (M := M) (N / 2 - n / 2) (M / 2 - m / 2)
      (by omega) (by omega) fun _ _ i j => ‖small i j‖ ^ 2
    have : power (n := N) (m := M) (fun k l =>
        if N / 2 - n / 2 ≤ k.val ∧ k.val < N / 2 - n / 2 + n ∧ M / 2 - m / 2 ≤ l.val ∧
          l.val < M / 2 - m / 2 + m then
        small ((k.val - (N / 2 - n / 2) : ℕ) : ZMod n) ((l.val - (M / 2 - m / 2) : ℕ) : ZMod m)
        else 0) = power small := by
      unfold power
      rw [← hw]
      refine sum_congr rfl fun k _ => sum_congr rfl fun l _ => ?_
      beta_reduce
      by_cases hc : N / 2 - n / 2 ≤ k.val ∧ k.val < N / 2 - n / 2 + n ∧ M / 2 - m / 2 ≤ l.val ∧
          l.val < M / 2 - m / 2 + m
      · rw [if_pos hc, if_pos hc]
      · rw [if_neg hc, if_neg hc]; simp
    rw [this, ← far_field_unitary.2.2.1 small]
    unfold power
    refine sum_congr rfl fun i _ => sum_congr rfl fun j _ => ?_
    rw [hfar, Complex.norm_real, Real.norm_of_nonneg (Real.sqrt_nonneg _), Real.sq_sqrt]
    exact le_max_right _ _
  · intro k l
    by_cases hc : N / 2 - n / 2 ≤ k.val ∧ k.val < N / 2 - n / 2 + n ∧ M / 2 - m / 2 ≤ l.val ∧
          l.val < M / 2 - m / 2 + m
    · right
      refine ⟨((k.val - (N / 2 - n / 2) : ℕ) : ZMod n), ((l.val - (M / 2 - m / 2) : ℕ) : ZMod m), ?_, ?_⟩
      · rw [(pos N n hn _).1, ZMod.val_natCast, Nat.mod_eq_of_lt (by omega),
          show N / 2 - n / 2 + (k.val - (N / 2 - n / 2)) = k.val by omega]
        simp
      · rw [(pos M m hm' _).1, ZMod.val_natCast, Nat.mod_eq_of_lt (by omega),
          show M / 2 - m / 2 + (l.val - (M / 2 - m / 2)) = l.val by omega]
        simp
    · left
      rw [hs]
      exact if_neg hc
  · intro i j
    obtain ⟨e0, b0⟩ := pos N n hn i
    obtain ⟨e1, b1⟩ := pos M m hm' j
    have hi := i.val_lt
    have hj := j.val_lt
    rw [e0, e1, hs]
    beta_reduce
    rw [ZMod.val_natCast, ZMod.val_natCast, Nat.mod_eq_of_lt b0, Nat.mod_eq_of_lt b1, if_pos (by omega),
      Nat.add_sub_cancel_left, Nat.add_sub_cancel_left]
    simp

/-- Non-vacuity: two 1 × 1 patterns with 3 and 5 counts and a background of 1, oversampled twice. -/
example : power (n := 2 * 1) (m := 2 * 1) (sharpProbe (n := 1) (m := 1) 2 (fun _ _ => 1)
    [fun _ _ => 3, fun _ _ => 5] (some fun _ _ => 1)) = 3 := by
  have h := (sharp_probe_matches_data (n := 1) (m := 1) 2 two_pos (fun _ _ => 1)
    [fun _ _ => 3, fun _ _ => 5] (some fun _ _ => 1) (by simp) (by simp)).1
  refine h.trans ?_
  simp [meanCounts]
  norm_num

/-- **C60**: the propagated probe never has more intensity, and has exactly the same if every
frequency of the (oversampled) grid propagates. -/
theorem sharp_probe_propagated_power (os : ℕ) (hos : 0 < os) (mask : RealIm n m)
    (patterns : List (RealIm n m)) (background : Option (RealIm n m)) (d0 d1 dist wl z : ℝ)
    (h0 : 0 < d0) (h1 : 0 < d1) (hd : 0 < dist) (hw : 0 < wl) :
    (haveI : NeZero (os * n) := ⟨Nat.mul_ne_zero hos.ne' (NeZero.ne n)⟩
     haveI : NeZero (os * m) := ⟨Nat.mul_ne_zero hos.ne' (NeZero.ne m)⟩
     power (sharpProbePropagated os mask patterns background d0 d1 dist wl z) ≤
       power (sharpProbe os mask patterns background) ∧
     ((∀ k l, Propagates (os * n) (os * m) (wl * dist / (n * d0)) (wl * dist / (m * d1)) wl k l) →
       power (sharpProbePropagated os mask patterns background d0 d1 dist wl z) =
       power (sharpProbe os mask patterns background))) := by
  haveI i0 : NeZero (os * n) := ⟨Nat.mul_ne_zero hos.ne' (NeZero.ne n)⟩
  haveI i1 : NeZero (os * m) := ⟨Nat.mul_ne_zero hos.ne' (NeZero.ne m)⟩
  have hn : (0 : ℝ) < n := by exact_mod_cast Nat.pos_of_ne_zero (NeZero.ne n)
  have hm : (0 : ℝ) < m := by exact_mod_cast Nat.pos_of_ne_zero (NeZero.ne m)
  have p0 : 0 < wl * dist / (n * d0) := by positivity
  have p1 : 0 < wl * dist / (m * d1) := by positivity
  have hg := fun k l => angular_spectrum_group (n := os * n) (m := os * m) _ _ wl p0 p1 hw k l
  unfold sharpProbePropagated
  generalize sharpProbe os mask patterns background = w
  constructor
  · have h := ifft2_parseval_norm (n := os * n) (m := os * m) fun k l =>
      angularSpectrum (os * n) (os * m) (wl * dist / (n * d0)) (wl * dist / (m * d1)) wl z none k l *
        fft2 w k l
    have h2 := fft2_parseval_norm w
    have hle : ∑ k, ∑ l, ‖angularSpectrum (os * n) (os * m) (wl * dist / (n * d0))
        (wl * dist / (m * d1)) wl z none k l * fft2 w k l‖ ^ 2 ≤ ∑ k, ∑ l, ‖fft2 w k l‖ ^ 2 := by
      refine sum_le_sum fun k _ => sum_le_sum fun l _ => ?_
      rw [norm_mul]
      refine pow_le_pow_left₀ (by positivity) ?_ 2
      exact mul_le_of_le_one_left (norm_nonneg _) ((hg k l).2.2.2.2.1 z)
    rw [← h, h2] at hle
    exact le_of_mul_le_mul_left hle size_pos
  · intro hp
    exact (near_field_unitary _ (fun k l => ((hg k l).2.2.1 (hp k l) z).1) w).1

end Cdtools
