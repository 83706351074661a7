/-
C78: the forward model of `Bragg2DPtycho` (`models/bragg_2d_ptycho.py:487-560`).
-/
import Verif.Model.Bragg
import Verif.Props.HighNA
import Verif.Props.Multislice
import Verif.Props.PlaneWave
import Verif.Props.Geometry

set_option linter.unusedSectionVars false

namespace Cdtools
open Finset Matrix ZMod

variable {n m a b N k : ℕ} [NeZero n] [NeZero m] [NeZero a] [NeZero b]

/-! ### Specification -/

/-- What the detector of the model records for an intensity distribution. -/
noncomputable def Bragg.record (M : Bragg n m a b N k) (I : ℕ → ℕ → ℝ) : Img ℝ :=
  measQuadratic { saturation := M.saturation, oversampling := M.oversampling } M.background none ⟨a, b, I⟩

/-- The wavenumber. -/
noncomputable def Bragg.k0 (M : Bragg n m a b N k) : ℝ := 2 * Real.pi / M.wavelength

/-! ### The propagation of the probe -/

theorem unit_z (c : ℝ) (hc : 0 < c) : Vec3.unit ![0, 0, c] = ![0, 0, 1] := by
  have h : Vec3.dot ![0, 0, c] ![0, 0, c] = c * c := by simp [Vec3.dot]
  funext i
  unfold Vec3.unit
  rw [h, Real.sqrt_mul_self hc.le]
  fin_cases i
  · simp
  · simp
  · simp [hc.ne']

/-- The phase of the universal propagator at a propagating frequency. -/
theorem universalPropagator_eq (B : Matrix (Fin 3) (Fin 2) ℝ) (wl : ℝ) (hw : 0 < wl) (ki kj : ℝ) (hB : Spans B)
    (nrm : Vec3) (hn1 : nrm.dot (basisCol B 0) = 0) (hn2 : nrm.dot (basisCol B 1) = 0) (hnn : nrm.dot nrm = 1)
    (hz : 0 < nrm 2) (K : Vec3) (hK : K.dot K = (2 * Real.pi / wl) ^ 2) (hside : 0 ≤ K.dot nrm)
    (h1 : K.dot (basisCol B 0) = ki + 2 * Real.pi / wl * B 2 0)
    (h2 : K.dot (basisCol B 1) = kj + 2 * Real.pi / wl * B 2 1) :
    universalPropagator B wl ki kj = (K 2 - 2 * Real.pi / wl) / (2 * Real.pi / wl) := by
  set k := 2 * Real.pi / wl with hk
  have hk0 : 0 < k := by positivity
  have hoff : (0 : ℝ) < wl / (2 * Real.pi) := by positivity
  have hkinv : wl / (2 * Real.pi) = k⁻¹ := by rw [hk, inv_div]
  have hu := unit_z _ hoff
  have key := generalized_plane_wave (basisCol B 0) (basisCol B 1) nrm wl hw ![0, 0, wl / (2 * Real.pi)]
    (some ![0, 0, wl / (2 * Real.pi)]) ki kj hB hn1 hn2 hnn
    (by simp only [Option.getD_some, Vec3.dot]; simp; positivity) K hK hside
    (by rw [h1]; simp [tiltAlong, hu, Vec3.dot, basisCol, hk])
    (by rw [h2]; simp [tiltAlong, hu, Vec3.dot, basisCol, hk])
  have hcar : carrier k (some ![0, 0, wl / (2 * Real.pi)]) nrm = ![0, 0, k] := by
    funext i
    simp only [carrier, hu]
    fin_cases i <;> simp
  have hdot : Vec3.dot ![0, 0, wl / (2 * Real.pi)] (fun i => K i - carrier k (some ![0, 0, wl / (2 * Real.pi)]) nrm i) =
      (K 2 - k) / k := by
    rw [hcar]
    simp [Vec3.dot, hkinv]
    ring
  have hKz : K 2 ^ 2 ≤ k ^ 2 := by
    rw [← hK]; simp only [Vec3.dot]; nlinarith [sq_nonneg (K 0), sq_nonneg (K 1)]
  have hKz' := abs_le_of_sq_le_sq' hKz hk0.le
  have hlo : -2 ≤ (K 2 - k) / k := by rw [le_div_iff₀ hk0]; linarith [hKz'.1]
  have hhi : (K 2 - k) / k ≤ 0 := div_nonpos_of_nonpos_of_nonneg (by linarith [hKz'.2]) hk0.le
  unfold universalPropagator
  have e : generalizedPropagator (fun c => B c 0) (fun c => B c 1) wl ![0, 0, wl / (2 * Real.pi)]
      (some ![0, 0, wl / (2 * Real.pi)]) ki kj = Complex.exp (((K 2 - k) / k : ℝ) * Complex.I) := by
    rw [mul_comm ((_ : ℝ) : ℂ) Complex.I, ← hdot]
    exact key
  rw [e, Complex.arg_exp_mul_I, toIocMod_eq_self]
  have hpi := Real.two_le_pi
  have hpi' : Real.pi ≠ 2 := by
    intro h
    have := Real.cos_pi_div_two
    rw [h] at this
    have h1 : (2 : ℝ) / 2 = 1 := by norm_num
    rw [h1] at this
    exact (Real.cos_one_pos).ne' this
  have hlt : 2 < Real.pi := lt_of_le_of_ne hpi (Ne.symm hpi')
  constructor <;> linarith

/-- **C78** (propagation of the probe): consider a plane wave with wavevector `K`, `|K| = 2π/λ`, that passes through the
plane of the probe in the direction of the beam (`nrm` is the normal of that plane on the side of the beam) and whose
phase, relative to that of a wave along the beam, advances by the frequency `(x, y)` from pixel to pixel. Propagation over
any distance `d` along the beam, of either sign, multiplies it by its phase relative to the wave along the beam,
`exp(i d (K_z - 2π/λ))`; for all, also tilted and oblique, sample bases. -/
theorem bragg_propagation_plane_wave (M : Bragg n m a b N k) (hw : 0 < M.wavelength) (hB : Spans M.probeBasis)
    (nrm : Vec3) (hn1 : nrm.dot (basisCol M.probeBasis 0) = 0) (hn2 : nrm.dot (basisCol M.probeBasis 1) = 0)
    (hnn : nrm.dot nrm = 1) (hz : 0 < nrm 2) (x : ZMod n) (y : ZMod m)
    (K : Vec3) (hK : K.dot K = M.k0 ^ 2) (hside : 0 ≤ K.dot nrm)
    (h1 : K.dot (basisCol M.probeBasis 0) = 2 * Real.pi * fftfreq n x + M.k0 * M.probeBasis 2 0)
    (h2 : K.dot (basisCol M.probeBasis 1) = 2 * Real.pi * fftfreq m y + M.k0 * M.probeBasis 2 1) (d : ℝ) :
    M.propagator d x y = Complex.exp (Complex.I * ((d * (K 2 - M.k0) : ℝ) : ℂ)) := by
  unfold Bragg.propagator
  rw [universalPropagator_eq M.probeBasis M.wavelength hw _ _ hB nrm hn1 hn2 hnn hz K hK hside h1 h2]
  have hk : (2 * Real.pi / M.wavelength) ≠ 0 := by positivity
  have : d * (2 * Real.pi) / M.wavelength * ((K 2 - 2 * Real.pi / M.wavelength) / (2 * Real.pi / M.wavelength)) =
      d * (K 2 - M.k0) := by
    unfold Bragg.k0
    field_simp
  rw [this]

/-- Non-vacuity: a sample tilted by 45°, the frequency 1 of 4 along its first axis, wavelength 16/9 pixels. -/
example : ∃ (B : Matrix (Fin 3) (Fin 2) ℝ) (nrm K : Vec3) (wl : ℝ), 0 < wl ∧ Spans B ∧ B 2 1 ≠ 0 ∧
    nrm.dot (basisCol B 0) = 0 ∧ nrm.dot (basisCol B 1) = 0 ∧ nrm.dot nrm = 1 ∧ 0 < nrm 2 ∧
    K.dot K = (2 * Real.pi / wl) ^ 2 ∧ 0 ≤ K.dot nrm ∧
    K.dot (basisCol B 0) = 2 * Real.pi * fftfreq 4 1 + 2 * Real.pi / wl * B 2 0 ∧
    K.dot (basisCol B 1) = 2 * Real.pi * fftfreq 4 0 + 2 * Real.pi / wl * B 2 1 := by
  have h2 : Real.sqrt 2 * Real.sqrt 2 = 2 := Real.mul_self_sqrt (by norm_num)
  have hs : 0 < Real.sqrt 2 := Real.sqrt_pos.2 (by norm_num)
  have hf : fftfreq 4 1 = 1 / 4 := by
    have : (1 : ZMod 4).val = 1 := by decide
    unfold fftfreq; rw [this]; norm_num
  have hf0 : fftfreq 4 0 = 0 := by
    have : (0 : ZMod 4).val = 0 := by decide
    unfold fftfreq; rw [this]; norm_num
  refine ⟨!![0, -1; -1, 0; 0, 1], ![Real.sqrt 2 / 2, 0, Real.sqrt 2 / 2],
    ![-(Real.pi / 8), -(4 * Real.pi / 8), 8 * Real.pi / 8], 16 / 9, by norm_num, ?_, ?_, ?_, ?_, ?_, ?_, ?_, ?_, ?_, ?_⟩
  · simp [Spans, basisCol, Vec3.dot]
  · simp
  · simp [basisCol, Vec3.dot]
  · simp [basisCol, Vec3.dot]
  · simp [Vec3.dot]; nlinarith
  · simp
  · simp [Vec3.dot]; ring
  · simp [Vec3.dot]; nlinarith [mul_pos Real.pi_pos hs]
  · rw [hf]; simp [basisCol, Vec3.dot]; ring
  · rw [hf0]; simp [basisCol, Vec3.dot]; ring

/-- **C78** (propagation, all frequencies): the propagators are phases and add up: propagation over zero distance changes
nothing, over `d` and then over `e` is propagation over `d + e`, and every propagation conserves the power of the probe. -/
theorem bragg_propagation_group (M : Bragg n m a b N k) (d e : ℝ) (w : Wave n m) :
    nearField (M.propagator 0) w = w ∧
    nearField (M.propagator e) (nearField (M.propagator d) w) = nearField (M.propagator (d + e)) w ∧
    (∀ x y, ‖M.propagator d x y‖ = 1) ∧ power (nearField (M.propagator d) w) = power w := by
  have h1 : ∀ x y, ‖M.propagator d x y‖ = 1 := by
    intro x y
    unfold Bragg.propagator
    rw [mul_comm]; exact Complex.norm_exp_ofReal_mul_I _
  refine ⟨?_, ?_, h1, (near_field_unitary _ h1 w).1⟩
  · have : M.propagator 0 = fun _ _ => 1 := by
      funext x y; simp [Bragg.propagator]
    unfold nearField
    simp only [this, one_mul]
    exact ifft2_fft2 w
  · unfold nearField
    rw [fft2_ifft2]
    congr 1
    funext x y
    rw [← mul_assoc]
    congr 1
    unfold Bragg.propagator
    rw [← Complex.exp_add]
    congr 1
    push_cast
    ring

/-- **C78** (violated): evanescent waves are not damped. The angle of the propagator forgets its modulus: for pixels
below half a wavelength, the propagator of `generate_generalized_angular_spectrum_propagator` over any `d > 0` damps the
highest frequency, that of the model does not. -/
theorem bragg_evanescent_violated (M : Bragg n m a b N k) (s : ℝ) (hs : 0 < s) (hw : 2 * s < M.wavelength)
    (hB : M.probeBasis = !![0, -s; -s, 0; 0, 0]) (d : ℝ) (hd : 0 < d) (x : ZMod n) (hx : fftfreq n x = -(1 / 2)) :
    ‖generalizedPropagator (fun c => M.probeBasis c 0) (fun c => M.probeBasis c 1) M.wavelength ![0, 0, d]
      (some ![0, 0, 1]) (2 * Real.pi * fftfreq n x) (2 * Real.pi * fftfreq m 0)‖ < 1 ∧
    ‖M.propagator d x 0‖ = 1 := by
  refine ⟨?_, (bragg_propagation_group M d 0 fun _ _ => 0).2.2.1 x 0⟩
  have hwl : 0 < M.wavelength := by linarith
  have hc0 : (fun c => M.probeBasis c 0) = ![0, -s, 0] := by
    funext c; rw [hB]; fin_cases c <;> simp
  have hc1 : (fun c => M.probeBasis c 1) = ![-s, 0, 0] := by
    funext c; rw [hB]; fin_cases c <;> simp
  rw [generalized_norm _ _ _ hwl]
  have hperp : perpDir ![0, -s, 0] ![-s, 0, 0] ![0, 0, 1] = ![0, 0, 1] := by
    refine perpDir_eq _ _ _ _ ?_ ?_ ?_ ?_ ?_
    · simp [Vec3.dot, hs.ne']
    · simp [Vec3.dot]
    · simp [Vec3.dot]
    · simp [Vec3.dot]
    · simp [Vec3.dot]
  have hz : fftfreq m 0 = 0 := by
    unfold fftfreq
    simp [NeZero.pos m]
  rw [hc0, hc1, Option.getD_some, hperp]
  have hin : inPlaneK ![0, -s, 0] ![-s, 0, 0] M.wavelength ![0, 0, 1] (some ![0, 0, 1]) (2 * Real.pi * fftfreq n x)
      (2 * Real.pi * fftfreq m 0) = ![0, Real.pi / s, 0] := by
    have hu := unit_z 1 one_pos
    have hR : refWave M.wavelength ![0, 0, 1] (some ![0, 0, 1]) = fun _ => 0 := by
      funext i; simp only [refWave, hu]; fin_cases i <;> simp
    rw [hz, hx]
    unfold inPlaneK
    simp only [hR]
    funext i
    have hs0 := hs.ne'
    fin_cases i <;> simp [dualBasis, Vec3.dot] <;> field_simp
  rw [hin]
  have hK : Vec3.dot ![0, Real.pi / s, 0] ![0, Real.pi / s, 0] = (Real.pi / s) ^ 2 := by simp [Vec3.dot]; ring
  have hlt : (2 * Real.pi / M.wavelength) ^ 2 - (Real.pi / s) ^ 2 < 0 := by
    have h : 2 * Real.pi / M.wavelength < Real.pi / s := by
      rw [div_lt_div_iff₀ hwl hs]
      nlinarith [Real.pi_pos]
    have h0 : 0 < 2 * Real.pi / M.wavelength := by positivity
    nlinarith
  rw [hK, csqrt, if_neg (not_le.mpr hlt)]
  have hneg : ¬ ∃ p : Vec3, (some ![0, 0, 1] : Option Vec3) = some p ∧ p.dot ![0, 0, d] < 0 := by
    rintro ⟨p, hp, hp'⟩
    obtain rfl := Option.some.inj hp
    simp [Vec3.dot] at hp'
    linarith
  rw [if_neg hneg, Real.exp_lt_one_iff]
  have hd' : Vec3.dot ![0, 0, d] ![0, 0, 1] = d := by simp [Vec3.dot]
  have him : (Complex.I * ((Real.sqrt (-((2 * Real.pi / M.wavelength) ^ 2 - (Real.pi / s) ^ 2)) : ℝ) : ℂ)).im =
      Real.sqrt (-((2 * Real.pi / M.wavelength) ^ 2 - (Real.pi / s) ^ 2)) := by simp
  rw [hd', him]
  have : 0 < Real.sqrt (-((2 * Real.pi / M.wavelength) ^ 2 - (Real.pi / s) ^ 2)) := Real.sqrt_pos.mpr (by linarith)
  nlinarith [mul_pos hd this]

/-! ### Positions -/

/-- **C43/C58**: for the normal of the basis, `translations_to_pixel` and `project_translations_to_sample` give the same
pixel positions. -/
theorem translations_agree (B : Matrix (Fin 3) (Fin 2) ℝ) (hT : Transverse B ![0, 0, 1]) :
    (∀ p, translationsToPixel B (sampleNormal B) (B.mulVec p) = p) ∧
    (∀ t, translationsToPixel B (sampleNormal B) t = (projectToSample B t).1) ∧
    (∀ p, pixelToTranslations B (sampleNormal B) p = ![B.mulVec p 0, B.mulVec p 1, 0]) := by
  set C := (col B 0).cross (col B 1) with hC
  have hc2 : C 2 ≠ 0 := by
    unfold Transverse at hT
    simpa [Vec3.dot, ← hC] using hT
  have hCC : 0 < C.dot C :=
    lt_of_le_of_ne (by simp only [Vec3.dot]; nlinarith [mul_self_nonneg (C 0), mul_self_nonneg (C 1), mul_self_nonneg (C 2)])
      (Ne.symm (dot_self_pos hT))
  set nrm := sampleNormal B with hn
  have hswap : Vec3.cross (fun i => B i 1) (fun i => B i 0) = fun i => -C i := by
    funext i
    rw [hC]
    fin_cases i <;> simp [Vec3.cross, col] <;> ring
  have hdd : Vec3.dot (fun i => -C i) (fun i => -C i) = C.dot C := by
    simp only [Vec3.dot]; ring
  have hnrm : ∀ i, nrm i = -C i / Real.sqrt (C.dot C) := by
    intro i
    rw [hn, sampleNormal, hswap]
    simp only [Vec3.unit, hdd]
  have hsq : Real.sqrt (C.dot C) ≠ 0 := (Real.sqrt_pos.2 hCC).ne'
  have hn2 : nrm 2 ≠ 0 := by
    rw [hnrm]; exact div_ne_zero (neg_ne_zero.2 hc2) hsq
  have hTn : Transverse B nrm := by
    unfold Transverse
    rw [← hC]
    have : C.dot nrm = -(C.dot C) / Real.sqrt (C.dot C) := by
      simp only [Vec3.dot] at hnrm ⊢
      rw [hnrm 0, hnrm 1, hnrm 2]; ring
    rw [this]
    exact div_ne_zero (neg_ne_zero.2 hCC.ne') hsq
  have hplane : ∀ p, Vec3.dot nrm (B.mulVec p) = 0 := by
    intro p
    have : Vec3.dot nrm (B.mulVec p) = -(C.dot (B.mulVec p)) / Real.sqrt (C.dot C) := by
      simp only [Vec3.dot] at hnrm ⊢
      rw [hnrm 0, hnrm 1, hnrm 2]; ring
    rw [this]
    have h0 : C.dot (B.mulVec p) = 0 := by
      rw [hC]
      simp [Vec3.dot, Vec3.cross, col, mulVec, dotProduct]
      ring
    rw [h0]; simp
  have h1 : ∀ p, translationsToPixel B nrm (B.mulVec p) = p := by
    intro p
    unfold translationsToPixel
    rw [pixelProjection_mulVec B nrm _ hn2]
    have : lift nrm (B.mulVec p) = B.mulVec p := by
      funext i
      have h := hplane p
      simp only [Vec3.dot] at h
      fin_cases i
      · rfl
      · rfl
      · show -(nrm 0 * B.mulVec p 0 + nrm 1 * B.mulVec p 1) / nrm 2 = B.mulVec p 2
        rw [div_eq_iff hn2]; linarith
    rw [this, pinvTall_mulVec_mulVec (gram_unit hT)]
  have inv := translations_pixels_inverse B nrm hn2 hTn
  refine ⟨h1, fun t => ?_, fun p => ?_⟩
  · have hp := (project_translations_meet_sample B hT t).1
    have h := h1 (projectToSample B t).1
    rw [hp] at h
    rw [← h]
    unfold translationsToPixel
    rw [pixelProjection_mulVec B nrm _ hn2, pixelProjection_mulVec B nrm _ hn2]
    congr 1
    funext i
    fin_cases i <;> simp [lift]
  · have h := inv.2.1 (B.mulVec p)
    rw [h1] at h
    exact h

/-- **C78** (where the probe meets the sample): for every sample not parallel to the beam, the probe translated by `t` and
propagated by `distance + median_propagation` along the beam meets the sample at pixel `pix_trans + min_translation`. -/
theorem bragg_position (M : Bragg n m a b N k) (hT : Transverse M.objBasis ![0, 0, 1]) (ho : M.offsets = none)
    (idx : Fin N) (t : Fin 3 → ℝ) :
    M.objBasis.mulVec (M.pixTrans idx t + M.minTranslation) =
      t + (M.distance t + M.medianPropagation) • ![0, 0, 1] := by
  unfold Bragg.pixTrans Bragg.distance
  rw [ho]
  simp only [sub_add_cancel]
  exact (project_translations_meet_sample M.objBasis hT t).1

/-! ### The pattern -/

/-- The exit wave of a mode: the propagated probe, shifted by the fractional part of the position, times the object. -/
noncomputable def Bragg.exitWave (M : Bragg n m a b N k) (W : Fin N → ℝ) (idx : Fin N) (t : Fin 3 → ℝ) (sel : Wave a b)
    (p : Wave n m) : Wave a b := fun x y => (M.probeNorm : ℂ) * sincApply false (M.pixTrans idx t 0, M.pixTrans idx t 1) sel
      (M.illumination (W idx) (M.distance t) p) x y

theorem Bragg.forward_eq (M : Bragg n m a b N k) (W : Fin N → ℝ) (hW : M.weights = some W) (idx : Fin N) (t : Fin 3 → ℝ) :
    M.forward idx t = (objWindow a b M.obj ⌊M.pixTrans idx t 0⌋ ⌊M.pixTrans idx t 1⌋).map fun sel =>
      M.record fun x y => ∑ j, ‖M.toDetector (M.exitWave W idx t sel (M.probe j)) x y‖ ^ 2 := by
  have hsum : ∀ modes : Fin k → ℕ → ℕ → ℂ, sumModes a b (List.ofFn modes) =
      ⟨a, b, fun x y => ∑ u, ‖modes u x y‖ ^ 2⟩ := by
    intro modes
    unfold sumModes
    congr 1
    funext x y
    exact listSum_ofFn _ _ _
  unfold Bragg.forward
  simp only [hW]
  cases hw : objWindow a b M.obj ⌊M.pixTrans idx t 0⌋ ⌊M.pixTrans idx t 1⌋ with
  | error e => rfl
  | ok sel =>
    simp only [Except.map]
    rw [hsum]
    rfl

/-- **C78** (violated): a model made without weights, the default of the constructor, cannot simulate any exposure. -/
theorem bragg_without_weights_violated (M : Bragg n m a b N k) (h : M.weights = none) (idx : Fin N) (t : Fin 3 → ℝ) :
    M.forward idx t = .error "TypeError" := by
  unfold Bragg.forward
  rw [h]

/-- **C78** (pattern): at integer positions inside the object, the detector records the incoherent sum over the modes of
what reaches it of (propagated probe) × (object), with the weight of the exposure and the support applied to the probe. -/
theorem bragg_forward_integer (M : Bragg n m a b N k) (W : Fin N → ℝ) (hW : M.weights = some W) (idx : Fin N)
    (t : Fin 3 → ℝ) (s r : ℕ) (hs : M.pixTrans idx t = ![(s : ℝ), (r : ℝ)]) (hin : s + a ≤ M.obj.h ∧ r + b ≤ M.obj.w) :
    M.forward idx t = .ok (M.record fun x y => ∑ j, ‖M.toDetector (fun u v =>
      (M.probeNorm : ℂ) * (M.illumination (W idx) (M.distance t) (M.probe j) u v * M.obj.px (s + u.val) (r + v.val))) x y‖ ^ 2) := by
  have h0 : M.pixTrans idx t 0 = (s : ℝ) := by rw [hs]; rfl
  have h1 : M.pixTrans idx t 1 = (r : ℝ) := by rw [hs]; rfl
  rw [M.forward_eq W hW, h0, h1, Int.floor_natCast, Int.floor_natCast,
    objWindow_inside ⟨by omega, by omega⟩ ⟨by omega, by omega⟩]
  simp only [Except.map, Int.toNat_natCast]
  refine congrArg (fun I => Except.ok (M.record I)) (funext fun x => funext fun y => ?_)
  refine sum_congr rfl fun j _ => ?_
  refine congrArg (fun w => ‖M.toDetector w x y‖ ^ 2) ?_
  unfold Bragg.exitWave
  funext u v
  rw [h0, h1, sincApply_false]
  simp only [Int.floor_natCast, Int.cast_natCast, sub_self]
  rw [(shifts_preserve_energy_and_compose _ 0 0 0 0).2.2.1]

/-- **C78** (in focus): at the median propagation distance, propagating the probe changes nothing. -/
theorem bragg_in_focus (M : Bragg n m a b N k) (w : ℝ) (p : Wave n m) :
    M.illumination w 0 p = padProbe a b fun x y => w * p x y * (if M.support x y then 1 else 0) := by
  unfold Bragg.illumination
  simp only
  split_ifs
  · rw [(bragg_propagation_group M 0 0 _).1]
  · rfl

/-- **C78** (untilted sample): in a sample plane perpendicular to the beam the distance depends on the translation along
the beam only. -/
theorem bragg_untilted_distance (M : Bragg n m a b N k) (hT : Transverse M.objBasis ![0, 0, 1])
    (h0 : M.objBasis 2 0 = 0) (h1 : M.objBasis 2 1 = 0) (t : Fin 3 → ℝ) :
    M.distance t = -t 2 - M.medianPropagation := by
  have h := congrFun (project_translations_meet_sample M.objBasis hT t).1 2
  simp only [mulVec, dotProduct, Fin.sum_univ_two, h0, h1, zero_mul, add_zero, Pi.add_apply, Pi.smul_apply, smul_eq_mul] at h
  have h2 : (![0, 0, 1] : Fin 3 → ℝ) 2 = 1 := rfl
  rw [h2] at h
  unfold Bragg.distance
  linarith

/-- The `FancyPtycho` model with the parameters of a Bragg model. -/
noncomputable def Bragg.asFancy (M : Bragg n m a b N k) (W : Fin N → ℝ) (detBasis : Matrix (Fin 3) (Fin 2) ℝ) :
    Fancy n m a b N k where
  probe := M.probe
  probeNorm := M.probeNorm
  support := M.support
  weights := .perShot W
  fourierProbe := false
  obj := M.obj
  exponentiate := false
  phaseOnly := false
  nearField := false
  propagator := fun _ _ => 1
  objBasis := M.objBasis
  detBasis := detBasis
  normal := sampleNormal M.objBasis
  minTranslation := M.minTranslation
  translationScale := M.translationScale
  offsets := M.offsets
  fourierShifts := none
  simulateTranslation := false
  oversampling := M.oversampling
  background := M.background
  qe := none
  saturation := M.saturation

/-- **C78** (relation to `FancyPtycho`): without tilt correction, and where the probe needs no propagation, the Bragg model
predicts what the `FancyPtycho` model with the surface normal of the sample predicts, for all tilted samples, offsets and
fractional positions, including its errors. -/
theorem bragg_is_fancy (M : Bragg n m a b N k) (W : Fin N → ℝ) (hW : M.weights = some W) (htilt : M.tilt = none)
    (hT : Transverse M.objBasis ![0, 0, 1]) (detBasis : Matrix (Fin 3) (Fin 2) ℝ) (idx : Fin N) (t : Fin 3 → ℝ)
    (hd : M.propagateProbe = false ∨ M.distance t = 0) :
    M.forward idx t = (M.asFancy W detBasis).forward idx t := by
  set F := M.asFancy W detBasis with hF
  have hpt : F.pixTrans idx t = M.pixTrans idx t := by
    unfold Fancy.pixTrans Bragg.pixTrans
    simp only [hF, Bragg.asFancy, (translations_agree M.objBasis hT).2.1]
    cases M.offsets <;> rfl
  have htr : F.transmission = M.obj := by
    unfold Fancy.transmission
    simp only [hF, Bragg.asFancy, Bool.false_eq_true, if_false]
  have hcond : ¬ (F.simulateTranslation = true ∧ F.fourierShifts = none) := by
    simp [hF, Bragg.asFancy]
  have hill : ∀ p : Wave n m, M.illumination (W idx) (M.distance t) p =
      padProbe a b fun x y => W idx * p x y * (if M.support x y then 1 else 0) := by
    intro p
    rcases hd with h | h
    · unfold Bragg.illumination
      rw [h]; rfl
    · rw [h, bragg_in_focus]
  rw [M.forward_eq W hW]
  unfold Fancy.forward
  rw [if_neg hcond]
  simp only [hpt, htr]
  cases hw : objWindow a b M.obj ⌊M.pixTrans idx t 0⌋ ⌊M.pixTrans idx t 1⌋ with
  | error e => rfl
  | ok sel =>
    have hsum : ∀ modes : Fin F.weights.rank → ℕ → ℕ → ℂ, sumModes a b (List.ofFn modes) =
        ⟨a, b, fun x y => ∑ u, ‖modes u x y‖ ^ 2⟩ := by
      intro modes
      unfold sumModes
      congr 1
      funext x y
      exact listSum_ofFn _ _ _
    simp only [Except.map]
    rw [hsum]
    have hI : ∀ (j : Fin k) (x y : ℕ), M.toDetector (M.exitWave W idx t sel (M.probe j)) x y =
        F.toDetector idx t sel (shotProbes F.weights idx F.basisProbes j) x y := by
      intro j x y
      unfold Bragg.toDetector
      rw [htilt]
      unfold Fancy.toDetector Fancy.propagate
      have hnf : F.nearField = false := rfl
      have hramp : F.ramp idx t = fun _ _ => 1 := by
        unfold Fancy.ramp
        simp [hF, Bragg.asFancy]
      simp only [hpt, hramp, hnf, Bool.false_eq_true, if_false, mul_one]
      have hsh : shotProbes F.weights idx F.basisProbes j =
          fun x y => W idx * M.probe j x y * (if M.support x y then 1 else 0) := by
        funext u v
        have : shotProbes F.weights idx F.basisProbes j u v = (W idx : ℂ) * F.basisProbes j u v := rfl
        rw [this, F.basisProbes_eq]
        unfold Fancy.realSpace
        simp only [hF, Bragg.asFancy, Bool.false_eq_true, if_false]
        ring
      unfold Bragg.exitWave
      rw [hill, hsh]
      rfl
    unfold Bragg.record
    have : (fun x y => ∑ j, ‖M.toDetector (M.exitWave W idx t sel (M.probe j)) x y‖ ^ 2) = fun x y : ℕ =>
        ∑ j : Fin F.weights.rank, ‖F.toDetector idx t sel (shotProbes F.weights idx F.basisProbes j) x y‖ ^ 2 := by
      funext x y
      exact sum_congr rfl fun j _ => by rw [hI]
    rw [this]
    rfl

/-- A model for non-vacuity: a sample tilted by 45°, a 4 × 4 object of modulus one. -/
noncomputable def toyBragg : Bragg 2 2 2 2 1 1 where
  probe := fun _ x y => x.val + Complex.I * y.val
  probeNorm := 2
  support := fun _ _ => true
  weights := some fun _ => 3
  obj := ⟨4, 4, fun i j => Complex.I ^ (i + j)⟩
  objBasis := !![0, -1; -1, 0; 0, 1]
  probeBasis := !![0, -1; -1, 0; 0, 1]
  wavelength := 1
  minTranslation := 0
  medianPropagation := 0
  translationScale := 1
  offsets := none
  propagateProbe := true
  tilt := none
  oversampling := 1
  background := ⟨2, 2, fun _ _ => 0⟩
  saturation := none

/-- Non-vacuity of the theorems on patterns: the toy model has a transverse sample, an integer position inside the object
out of focus, and an object of modulus one. -/
example : Transverse toyBragg.objBasis ![0, 0, 1] ∧ toyBragg.pixTrans 0 ![-1, -2, 0] = ![((2 : ℕ) : ℝ), ((1 : ℕ) : ℝ)] ∧
    toyBragg.distance ![-1, -2, 0] = 1 ∧ (2 + 2 ≤ toyBragg.obj.h ∧ 1 + 2 ≤ toyBragg.obj.w) ∧
    ∀ i j, ‖toyBragg.obj.px i j‖ = 1 := by
  have hT : Transverse toyBragg.objBasis ![0, 0, 1] := by
    unfold Transverse
    simp [toyBragg, Vec3.dot, Vec3.cross, col]
  have hu := (project_translations_meet_sample toyBragg.objBasis hT ![-1, -2, 0]).2 ![2, 1] 1 (by
    funext i
    fin_cases i <;> simp [toyBragg, mulVec, dotProduct])
  refine ⟨hT, ?_, ?_, ⟨by simp [toyBragg], by simp [toyBragg]⟩, fun i j => by simp [toyBragg]⟩
  · have e : toyBragg.pixTrans 0 ![-1, -2, 0] = (projectToSample toyBragg.objBasis ![-1, -2, 0]).1 - 0 := rfl
    rw [e, ← hu.1]; simp
  · have e : toyBragg.distance ![-1, -2, 0] = (projectToSample toyBragg.objBasis ![-1, -2, 0]).2 - 0 := rfl
    rw [e, ← hu.2]; simp

/-! ### Energy -/

theorem sum_padded (n a l : ℕ) [NeZero n] [NeZero a] (hl : l + n ≤ a) (f : ZMod n → ℝ) :
    ∑ x : ZMod a, (if l ≤ x.val ∧ x.val < l + n then f ((x.val - l : ℕ) : ZMod n) else 0) = ∑ i, f i := by
  rw [← sum_filter]
  symm
  refine sum_bij (fun i _ => ((i.val + l : ℕ) : ZMod a)) ?_ ?_ ?_ ?_
  · intro i _
    have := ZMod.val_lt i
    simp only [mem_filter, mem_univ, true_and]
    rw [ZMod.val_natCast_of_lt (by omega)]
    omega
  · intro i _ j _ h
    have hi := ZMod.val_lt i
    have hj := ZMod.val_lt j
    have := congrArg ZMod.val h
    rw [ZMod.val_natCast_of_lt (by omega), ZMod.val_natCast_of_lt (by omega)] at this
    exact ZMod.val_injective n (by omega)
  · intro x hx
    simp only [mem_filter, mem_univ, true_and] at hx
    refine ⟨((x.val - l : ℕ) : ZMod n), mem_univ _, ?_⟩
    rw [ZMod.val_natCast_of_lt (by omega)]
    have : x.val - l + l = x.val := by omega
    rw [this, ZMod.natCast_zmod_val]
  · intro i _
    have := ZMod.val_lt i
    rw [ZMod.val_natCast_of_lt (by omega), Nat.add_sub_cancel, ZMod.natCast_zmod_val]

/-- Padding a probe in Fourier space conserves its power. -/
theorem power_padProbe (ha : n ≤ a) (hb : m ≤ b) (p : Wave n m) : power (padProbe a b p : Wave a b) = power p := by
  have hinv : ∀ w : Wave a b, power (inverseFarField w) = power w := by
    intro w
    have h := far_field_unitary.2.2.1 (inverseFarField w)
    rw [far_field_unitary.2.1] at h
    exact h.symm
  unfold padProbe
  simp only
  rw [hinv, ← far_field_unitary.2.2.1 p]
  unfold power
  beta_reduce
  have hl0 : (a - n) / 2 + n ≤ a := by omega
  have hl1 : (b - m) / 2 + m ≤ b := by omega
  rw [← sum_padded n a _ hl0]
  refine sum_congr rfl fun x _ => ?_
  by_cases hx : (a - n) / 2 ≤ x.val ∧ x.val < (a - n) / 2 + n
  · rw [if_pos hx, ← sum_padded m b _ hl1]
    refine sum_congr rfl fun y _ => ?_
    by_cases hy : (b - m) / 2 ≤ y.val ∧ y.val < (b - m) / 2 + m
    · rw [if_pos hy, if_pos ⟨hx.1, hx.2, hy.1, hy.2⟩]
    · rw [if_neg hy, if_neg (fun h => hy ⟨h.2.2.1, h.2.2.2⟩)]
      simp
  · rw [if_neg hx]
    refine sum_eq_zero fun y _ => ?_
    rw [if_neg (fun h => hx ⟨h.1, h.2.1⟩)]
    simp

/-- **C78** (energy): a pure phase object scatters the whole power of the probe inside its support, with the weight of the
exposure, into the detector plane (without tilt correction), at every position and distance. -/
theorem bragg_energy (M : Bragg n m a b N k) (W : Fin N → ℝ) (hW : M.weights = some W) (htilt : M.tilt = none)
    (ha : n ≤ a) (hb : m ≤ b) (hph : ∀ i j, ‖M.obj.px i j‖ = 1) (idx : Fin N) (t : Fin 3 → ℝ) (Q : Img ℝ)
    (h : M.forward idx t = .ok Q) :
    ∃ I : ℕ → ℕ → ℝ, Q = M.record I ∧ ∑ x : ZMod a, ∑ y : ZMod b, I x.val y.val =
      M.probeNorm ^ 2 * W idx ^ 2 * ∑ j, ∑ x, ∑ y, (if M.support x y then ‖M.probe j x y‖ ^ 2 else 0) := by
  rw [M.forward_eq W hW] at h
  cases hw : objWindow a b M.obj ⌊M.pixTrans idx t 0⌋ ⌊M.pixTrans idx t 1⌋ with
  | error e => rw [hw] at h; exact (nomatch h)
  | ok sel =>
    rw [hw] at h
    refine ⟨_, (Except.ok.inj h).symm, ?_⟩
    have hsel : ∀ x y, ‖sel x y‖ = 1 := by
      unfold objWindow at hw
      simp only at hw
      split at hw
      · obtain rfl := Except.ok.inj hw
        exact fun x y => hph _ _
      · exact (nomatch hw)
    have hsw : ∀ f : ZMod a → ZMod b → Fin k → ℝ, ∑ x, ∑ y, ∑ u, f x y u = ∑ u, ∑ x, ∑ y, f x y u := by
      intro f
      rw [sum_comm (s := (univ : Finset (Fin k)))]
      exact sum_congr rfl fun x _ => sum_comm
    rw [hsw, mul_sum]
    refine sum_congr rfl fun j _ => ?_
    have e1 : ∑ x : ZMod a, ∑ y : ZMod b, ‖M.toDetector (M.exitWave W idx t sel (M.probe j)) x.val y.val‖ ^ 2 =
        power (farField (M.exitWave W idx t sel (M.probe j))) := by
      unfold power Bragg.toDetector
      rw [htilt]
      simp only [ZMod.natCast_zmod_val]
    have e2 : power (M.exitWave W idx t sel (M.probe j)) =
        M.probeNorm ^ 2 * power (M.illumination (W idx) (M.distance t) (M.probe j)) := by
      have : power (sincApply false (M.pixTrans idx t 0, M.pixTrans idx t 1) sel
          (M.illumination (W idx) (M.distance t) (M.probe j))) = power (M.illumination (W idx) (M.distance t) (M.probe j)) := by
        rw [sincApply_false]
        unfold power
        simp only [norm_mul, hsel, mul_one]
        exact (shifts_preserve_energy_and_compose _ _ _ 0 0).1
      rw [← this]
      unfold power Bragg.exitWave
      simp only [norm_mul, mul_pow, mul_sum, Complex.norm_real, Real.norm_eq_abs, sq_abs]
    have e3 : power (M.illumination (W idx) (M.distance t) (M.probe j)) =
        power (fun x y => (W idx : ℂ) * M.probe j x y * (if M.support x y then 1 else 0) : Wave n m) := by
      unfold Bragg.illumination
      simp only
      rw [power_padProbe ha hb]
      split_ifs
      · exact (bragg_propagation_group M (M.distance t) 0 _).2.2.2
      · rfl
    rw [e1, far_field_unitary.2.2.1, e2, e3]
    unfold power
    beta_reduce
    rw [mul_assoc]
    congr 1
    rw [mul_sum]
    refine sum_congr rfl fun x _ => ?_
    rw [mul_sum]
    refine sum_congr rfl fun y _ => ?_
    cases M.support x y
    · simp
    · simp [mul_pow]

/-! ### Gauge freedoms -/

/-- From a probe mode to a pixel of the detector, everything is linear. -/
theorem Bragg.isLinear_shot (M : Bragg n m a b N k) (W : Fin N → ℝ) (idx : Fin N) (t : Fin 3 → ℝ) (sel : Wave a b)
    (x y : ℕ) : IsLinearMap ℂ fun (p : Wave n m) => M.toDetector (M.exitWave W idx t sel p) x y := by
  have h1 : IsLinearMap ℂ fun p : Wave n m => (fun x y => (W idx : ℂ) * p x y * (if M.support x y then 1 else 0) : Wave n m) :=
    isLinear_comp (isLinear_mulRight fun x y => if M.support x y then (1 : ℂ) else 0) (isLinear_mulLeft (W idx : ℂ))
  have h2 : IsLinearMap ℂ fun p : Wave n m => M.illumination (W idx) (M.distance t) p := by
    unfold Bragg.illumination
    cases M.propagateProbe
    · exact isLinear_comp isLinear_padProbe h1
    · exact isLinear_comp isLinear_padProbe (isLinear_comp (isLinear_nearField _) h1)
  have h3 : IsLinearMap ℂ fun p : Wave n m => M.exitWave W idx t sel p := by
    have h := isLinear_comp (isLinear_mulLeft (M.probeNorm : ℂ)) (isLinear_comp
      (isLinear_sincApply false (M.pixTrans idx t 0, M.pixTrans idx t 1) sel) h2)
    exact h
  have h4 : IsLinearMap ℂ fun w : Wave a b => M.toDetector w x y := by
    unfold Bragg.toDetector
    cases M.tilt with
    | none =>
      exact ⟨fun v w => congrFun (congrFun (isLinear_farField.map_add v w) _) _,
        fun c w => congrFun (congrFun (isLinear_farField.map_smul c w) _) _⟩
    | some q =>
      have h := high_na_linear (n := a) (m := b) q.1 (some q.2)
      exact ⟨fun v w => congrFun (congrFun (h.map_add v w) x) y, fun c w => congrFun (congrFun (h.map_smul c w) x) y⟩
  exact isLinear_comp h4 h3

/-- The model with other probe modes. -/
def Bragg.withProbe {k' : ℕ} (M : Bragg n m a b N k) (P : Fin k' → Wave n m) : Bragg n m a b N k' where
  probe := P
  probeNorm := M.probeNorm
  support := M.support
  weights := M.weights
  obj := M.obj
  objBasis := M.objBasis
  probeBasis := M.probeBasis
  wavelength := M.wavelength
  minTranslation := M.minTranslation
  medianPropagation := M.medianPropagation
  translationScale := M.translationScale
  offsets := M.offsets
  propagateProbe := M.propagateProbe
  tilt := M.tilt
  oversampling := M.oversampling
  background := M.background
  saturation := M.saturation

/-- **C78** (modes): the patterns depend on the probe modes only through their mutual coherence, with and without tilt
correction and propagation. -/
theorem bragg_coherence {k' : ℕ} (M : Bragg n m a b N k) (P : Fin k' → Wave n m)
    (h : mutualCoherence (flatten2 P) = mutualCoherence (flatten2 M.probe)) (idx : Fin N) (t : Fin 3 → ℝ) :
    (M.withProbe P).forward idx t = M.forward idx t := by
  cases hW : M.weights with
  | none =>
    rw [bragg_without_weights_violated M hW, bragg_without_weights_violated (M.withProbe P) hW]
  | some W =>
    rw [M.forward_eq W hW, (M.withProbe P).forward_eq W hW]
    have : ∀ sel : Wave a b, (M.withProbe P).record (fun x y => ∑ j, ‖(M.withProbe P).toDetector
        ((M.withProbe P).exitWave W idx t sel ((M.withProbe P).probe j)) x y‖ ^ 2) =
        M.record fun x y => ∑ j, ‖M.toDetector (M.exitWave W idx t sel (M.probe j)) x y‖ ^ 2 := by
      intro sel
      refine congrArg M.record (funext fun x => funext fun y => ?_)
      have hl := M.isLinear_shot W idx t sel x y
      have hl' : IsLinearMap ℂ fun p : Wave n m => (fun _ _ => M.toDetector (M.exitWave W idx t sel p) x y : Wave 1 1) :=
        ⟨fun v w => by funext _ _; exact hl.map_add v w, fun c w => by funext _ _; exact hl.map_smul c w⟩
      exact sum_modes_of_coherence hl' h 0 0
    simp only [this]
    rfl

/-- **C78** (scale and phase): multiplying the object by `c` and the probes by `d` changes no pattern if `|c d| = 1`. -/
theorem bragg_scale_gauge (M : Bragg n m a b N k) (c d : ℂ) (hc : ‖c * d‖ = 1) (idx : Fin N) (t : Fin 3 → ℝ) :
    Bragg.forward ({ M with obj := M.obj.map fun z => c * z, probe := fun j x y => d * M.probe j x y } :
      Bragg n m a b N k) idx t = M.forward idx t := by
  set M' : Bragg n m a b N k := { M with obj := M.obj.map fun z => c * z, probe := fun j x y => d * M.probe j x y } with hM'
  cases hW : M.weights with
  | none =>
    rw [bragg_without_weights_violated M hW, bragg_without_weights_violated M' hW]
  | some W =>
    rw [M.forward_eq W hW, M'.forward_eq W hW]
    have hw : objWindow a b M'.obj ⌊M'.pixTrans idx t 0⌋ ⌊M'.pixTrans idx t 1⌋ =
        (objWindow a b M.obj ⌊M.pixTrans idx t 0⌋ ⌊M.pixTrans idx t 1⌋).map fun sel x y => c * sel x y := by
      have h1 : M'.obj = M.obj.map fun z => c * z := rfl
      have h2 : M'.pixTrans idx t = M.pixTrans idx t := rfl
      rw [h1, h2, objWindow_map_mul]
    have hI : ∀ sel : Wave a b, M'.record (fun x y => ∑ j, ‖M'.toDetector (M'.exitWave W idx t (fun x y => c * sel x y)
        (M'.probe j)) x y‖ ^ 2) = M.record fun x y => ∑ j, ‖M.toDetector (M.exitWave W idx t sel (M.probe j)) x y‖ ^ 2 := by
      intro sel
      have hrec : M'.record = M.record := rfl
      rw [hrec]
      refine congrArg M.record (funext fun x => funext fun y => ?_)
      refine sum_congr rfl fun j _ => ?_
      refine congrArg (fun z : ℝ => z ^ 2) ?_
      have hl := (M.isLinear_shot W idx t sel x y).map_smul (c * d) (M.probe j)
      have e : M'.exitWave W idx t (fun x y => c * sel x y) (M'.probe j) = M.exitWave W idx t sel ((c * d) • M.probe j) := by
        have h1 : M'.exitWave W idx t (fun x y => c * sel x y) (M'.probe j) =
            M.exitWave W idx t (fun x y => c * sel x y) (d • M.probe j) := rfl
        rw [h1, mul_smul]
        unfold Bragg.exitWave
        rw [sincApply_sel]
        have h2 : IsLinearMap ℂ fun p : Wave n m => (M.illumination (W idx) (M.distance t) p : Wave a b) := by
          unfold Bragg.illumination
          have h1 : IsLinearMap ℂ fun p : Wave n m => (fun x y => (W idx : ℂ) * p x y * (if M.support x y then 1 else 0) : Wave n m) :=
            isLinear_comp (isLinear_mulRight fun x y => if M.support x y then (1 : ℂ) else 0) (isLinear_mulLeft (W idx : ℂ))
          cases M.propagateProbe
          · exact isLinear_comp isLinear_padProbe h1
          · exact isLinear_comp isLinear_padProbe (isLinear_comp (isLinear_nearField _) h1)
        rw [h2.map_smul c]
        rfl
      have e' : M'.toDetector = M.toDetector := rfl
      rw [e, e', hl, smul_eq_mul, norm_mul, hc, one_mul]
    rw [hw]
    generalize objWindow a b M.obj ⌊M.pixTrans idx t 0⌋ ⌊M.pixTrans idx t 1⌋ = win
    cases win with
    | error e => simp only [Except.map]
    | ok sel => simp only [Except.map, hI]

/-! ### Corrected translations -/

/-- The model without offsets. -/
def Bragg.withoutOffsets (M : Bragg n m a b N k) : Bragg n m a b N k := { M with offsets := none }

/-- **C78** (`corrected_translations`): the corrected translations put the probe, without offsets, on the same pixels, but
change the propagation distance by the component along the beam of the offset in the sample plane. -/
theorem bragg_corrected_positions (M : Bragg n m a b N k) (hT : Transverse M.objBasis ![0, 0, 1])
    (o : Fin N → Fin 2 → ℝ) (ho : M.offsets = some o) (idx : Fin N) (t : Fin 3 → ℝ) :
    M.withoutOffsets.pixTrans idx (M.correctedTranslation idx t) = M.pixTrans idx t ∧
    M.withoutOffsets.distance (M.correctedTranslation idx t) =
      M.distance t + M.objBasis.mulVec (M.translationScale • o idx) 2 := by
  have hct : M.correctedTranslation idx t =
      t + ![M.objBasis.mulVec (M.translationScale • o idx) 0, M.objBasis.mulVec (M.translationScale • o idx) 1, 0] := by
    unfold Bragg.correctedTranslation
    rw [ho]
    simp only
    rw [(translations_agree M.objBasis hT).2.2]
  set v := M.translationScale • o idx with hv
  have hp := (project_translations_meet_sample M.objBasis hT t).1
  have hu := (project_translations_meet_sample M.objBasis hT (M.correctedTranslation idx t)).2
    ((projectToSample M.objBasis t).1 + v) ((projectToSample M.objBasis t).2 + M.objBasis.mulVec v 2) (by
      rw [mulVec_add, hp, hct]
      funext i
      fin_cases i <;> simp
      ring)
  constructor
  · have e : M.withoutOffsets.pixTrans idx (M.correctedTranslation idx t) =
        (projectToSample M.objBasis (M.correctedTranslation idx t)).1 - M.minTranslation := rfl
    rw [e, ← hu.1]
    unfold Bragg.pixTrans
    rw [ho]
    simp only [← hv]
    abel
  · have e : M.withoutOffsets.distance (M.correctedTranslation idx t) =
        (projectToSample M.objBasis (M.correctedTranslation idx t)).2 - M.medianPropagation := rfl
    rw [e, ← hu.2]
    unfold Bragg.distance
    ring

/-- **C78** (`corrected_translations`, partial): simulating the corrected translations without offsets reproduces the
patterns if the probe is not propagated or the offset has no component along the beam (e.g. the sample is untilted). -/
theorem bragg_corrected_translations_partial (M : Bragg n m a b N k) (hT : Transverse M.objBasis ![0, 0, 1])
    (o : Fin N → Fin 2 → ℝ) (ho : M.offsets = some o) (idx : Fin N) (t : Fin 3 → ℝ)
    (h : M.propagateProbe = false ∨ M.objBasis.mulVec (M.translationScale • o idx) 2 = 0) :
    M.withoutOffsets.forward idx (M.correctedTranslation idx t) = M.forward idx t := by
  obtain ⟨h1, h2⟩ := bragg_corrected_positions M hT o ho idx t
  cases hW : M.weights with
  | none =>
    rw [bragg_without_weights_violated M hW, bragg_without_weights_violated M.withoutOffsets hW]
  | some W =>
    rw [M.forward_eq W hW, M.withoutOffsets.forward_eq W hW, h1]
    have hex : ∀ (sel : Wave a b) (p : Wave n m), M.withoutOffsets.exitWave W idx (M.correctedTranslation idx t) sel p =
        M.exitWave W idx t sel p := by
      intro sel p
      have hill : M.withoutOffsets.illumination (W idx) (M.withoutOffsets.distance (M.correctedTranslation idx t)) p =
          (M.illumination (W idx) (M.distance t) p : Wave a b) := by
        rcases h with h | h
        · unfold Bragg.illumination
          have h' : M.withoutOffsets.propagateProbe = false := h
          rw [h, h']
          rfl
        · rw [h2, h, add_zero]
          rfl
      unfold Bragg.exitWave
      rw [h1, hill]
      rfl
    simp only [hex]
    rfl

end Cdtools
