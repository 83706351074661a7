/- Property theorems C33, C34, C35, C56: propagation. -/
import Verif.Lemmas.Fourier
import Mathlib.Tactic.Positivity
import Mathlib.Tactic.NormNum

namespace Cdtools
open Finset ZMod
set_option linter.unusedSectionVars false
variable {n m : ℕ} [NeZero n] [NeZero m]

/-- Total intensity of a wave. -/
noncomputable def power (w : Wave n m) : ℝ := ∑ i, ∑ j, ‖w i j‖ ^ 2

theorem power_roll (w : Wave n m) (a : ZMod n) (b : ZMod m) :
    power (fun i j => w (i + a) (j + b)) = power w :=
  sum_roll (fun i j => ‖w i j‖ ^ 2) a b

theorem fftshift2_ifftshift2 (w : Wave n m) : fftshift2 (ifftshift2 w) = w := by
  funext i j; simp [fftshift2, ifftshift2]

theorem ifftshift2_fftshift2 (w : Wave n m) : ifftshift2 (fftshift2 w) = w := by
  funext i j; simp [fftshift2, ifftshift2]

theorem power_fftshift2 (w : Wave n m) : power (fftshift2 w) = power w := by
  have e : fftshift2 w = fun i j => w (i + -((n / 2 : ℕ) : ZMod n)) (j + -((m / 2 : ℕ) : ZMod m)) := by
    funext i j
    simp [fftshift2, sub_eq_add_neg]
  rw [e, power_roll]

theorem power_ifftshift2 (w : Wave n m) : power (ifftshift2 w) = power w := power_roll w _ _

theorem size_pos : (0 : ℝ) < (n : ℝ) * m := by
  have h1 : (0 : ℝ) < n := by exact_mod_cast Nat.pos_of_ne_zero (NeZero.ne n)
  have h2 : (0 : ℝ) < m := by exact_mod_cast Nat.pos_of_ne_zero (NeZero.ne m)
  positivity

theorem sqrt_size_ne : (Real.sqrt ((n : ℝ) * m) : ℂ) ≠ 0 := by
  exact_mod_cast (Real.sqrt_pos.2 (size_pos (n := n) (m := m))).ne'

theorem ifft2_smul (c : ℂ) (w : Wave n m) :
    ifft2 (fun i j => w i j / c) = fun i j => ifft2 w i j / c := by
  funext i j
  simp only [ifft2_eq]
  simp only [div_eq_mul_inv, sum_mul]
  exact sum_congr rfl fun k _ => sum_congr rfl fun l _ => by ring

theorem fft2_smul (c : ℂ) (w : Wave n m) :
    fft2 (fun i j => w i j * c) = fun i j => fft2 w i j * c := by
  funext i j
  simp only [fft2_eq, sum_mul]
  exact sum_congr rfl fun k _ => sum_congr rfl fun l _ => by ring

theorem fft2_add (v w : Wave n m) (k : ZMod n) (l : ZMod m) :
    fft2 (fun i j => v i j + w i j) k l = fft2 v k l + fft2 w k l := by
  simp only [fft2_eq, ← sum_add_distrib]
  exact sum_congr rfl fun i _ => sum_congr rfl fun j _ => by ring

/-! ### C33 -/

/-- **C33**: for every shape (even, odd, rectangular) and all wavefields, `inverse_far_field` undoes
`far_field` and conversely, both preserve total intensity, `far_field` is linear, and a uniform wave
of value `c` becomes `c √(nm)` at the centre pixel `(n // 2, m // 2)` and 0 elsewhere. -/
theorem far_field_unitary :
    (∀ w : Wave n m, inverseFarField (farField w) = w) ∧
    (∀ w : Wave n m, farField (inverseFarField w) = w) ∧
    (∀ w : Wave n m, power (farField w) = power w) ∧
    (∀ w : Wave n m, power (inverseFarField w) = power w) ∧
    (∀ (v w : Wave n m) (a b : ℂ) i j, farField (fun i j => a * v i j + b * w i j) i j =
      a * farField v i j + b * farField w i j) ∧
    (∀ (c : ℂ) (k : ZMod n) (l : ZMod m), farField (fun _ _ => c) k l =
      if k = ((n / 2 : ℕ) : ZMod n) ∧ l = ((m / 2 : ℕ) : ZMod m) then
        c * Real.sqrt (n * m) else 0) := by
  have hc := sqrt_size_ne (n := n) (m := m)
  have h1 : ∀ w : Wave n m, inverseFarField (farField w) = w := by
    intro w
    unfold inverseFarField farField
    rw [ifftshift2_fftshift2, ifft2_smul, ifft2_fft2]
    funext i j
    simp only [fftshift2]
    rw [div_mul_cancel₀ _ hc]
    simp [ifftshift2]
  have h2 : ∀ w : Wave n m, farField (inverseFarField w) = w := by
    intro w
    unfold inverseFarField farField
    rw [ifftshift2_fftshift2, fft2_smul, fft2_ifft2]
    funext i j
    simp only [fftshift2]
    rw [mul_div_cancel_right₀ _ hc]
    simp [ifftshift2]
  have h3 : ∀ w : Wave n m, power (farField w) = power w := by
    intro w
    unfold farField
    rw [power_fftshift2, ← power_ifftshift2 w]
    unfold power
    simp only [norm_div, div_pow]
    simp only [← sum_div]
    rw [fft2_parseval_norm, Complex.norm_real, Real.norm_eq_abs, sq_abs,
      Real.sq_sqrt size_pos.le]
    field_simp [size_pos.ne']
    rw [mul_div_cancel_left₀ _ (size_pos (n := n) (m := m)).ne']
  refine ⟨h1, h2, h3, fun w => ?_, fun v w a b i j => ?_, fun c k l => ?_⟩
  · rw [← h3 (inverseFarField w), h2]
  · have : ∀ k l, fft2 (ifftshift2 fun i j => a * v i j + b * w i j) k l =
        a * fft2 (ifftshift2 v) k l + b * fft2 (ifftshift2 w) k l := by
      intro k l
      have h := fft2_add (fun i j => ifftshift2 v i j * a) (fun i j => ifftshift2 w i j * b) k l
      rw [fft2_smul, fft2_smul] at h
      rw [mul_comm a, mul_comm b, ← h]
      congr 1
      funext i j
      simp only [ifftshift2]
      ring
    simp only [farField, fftshift2]
    rw [this]
    ring
  · simp only [farField, fftshift2]
    have hsum : fft2 (ifftshift2 fun (_ : ZMod n) (_ : ZMod m) => c) (k - ((n / 2 : ℕ) : ZMod n))
        (l - ((m / 2 : ℕ) : ZMod m)) = (if k = ((n / 2 : ℕ) : ZMod n) then (n : ℂ) else 0) *
        (if l = ((m / 2 : ℕ) : ZMod m) then (m : ℂ) else 0) * c := by
      have e1 := char_sum (-(k - ((n / 2 : ℕ) : ZMod n)))
      have e2 := char_sum (-(l - ((m / 2 : ℕ) : ZMod m)))
      simp only [neg_eq_zero, sub_eq_zero] at e1 e2
      rw [fft2_eq, ← e1, ← e2, sum_mul_sum, sum_mul]
      refine sum_congr rfl fun i _ => ?_
      rw [sum_mul]
      refine sum_congr rfl fun j _ => ?_
      simp only [mul_neg, ifftshift2]
    rw [hsum]
    have hsq : ((Real.sqrt (n * m) : ℝ) : ℂ) * (Real.sqrt (n * m) : ℝ) = (n : ℂ) * m := by
      rw [← Complex.ofReal_mul, Real.mul_self_sqrt size_pos.le]
      push_cast
      rfl
    by_cases hk : k = ((n / 2 : ℕ) : ZMod n)
    · by_cases hl : l = ((m / 2 : ℕ) : ZMod m)
      · rw [if_pos hk, if_pos hl, if_pos ⟨hk, hl⟩, div_eq_iff hc, mul_assoc c, hsq]
        ring
      · simp [hl]
    · simp [hk]

/-- Non-vacuity: a 3×4 grid. -/
example : farField (fun (_ : ZMod 3) (_ : ZMod 4) => (1 : ℂ)) 1 2 = Real.sqrt (3 * 4) := by
  rw [far_field_unitary.2.2.2.2.2]
  norm_num

/-! ### C34 -/

/-- **C34**: with any propagator of modulus 1, `near_field` preserves total intensity and
`inverse_near_field` undoes it on both sides; for any propagators, propagating by `P₁` then `P₂` is
propagating by their product. -/
theorem near_field_unitary (p : Wave n m) (hp : ∀ k l, ‖p k l‖ = 1) (w : Wave n m) :
    power (nearField p w) = power w ∧
    inverseNearField p (nearField p w) = w ∧
    nearField p (inverseNearField p w) = w := by
  have hu : ∀ k l, (starRingEnd ℂ) (p k l) * p k l = 1 := by
    intro k l
    rw [mul_comm, Complex.mul_conj, Complex.normSq_eq_norm_sq, hp]
    norm_num
  refine ⟨?_, ?_, ?_⟩
  · have h := ifft2_parseval_norm (fun k l => p k l * fft2 w k l)
    have h2 := fft2_parseval_norm w
    simp only [norm_mul, hp, one_mul] at h
    rw [h2] at h
    exact mul_left_cancel₀ (size_pos (n := n) (m := m)).ne' h
  · unfold inverseNearField nearField
    rw [fft2_ifft2]
    have : (fun k l => p k l * fft2 w k l * (starRingEnd ℂ) (p k l)) = fft2 w := by
      funext k l
      calc p k l * fft2 w k l * (starRingEnd ℂ) (p k l)
          = (starRingEnd ℂ) (p k l) * p k l * fft2 w k l := by ring
        _ = fft2 w k l := by rw [hu, one_mul]
    rw [this, ifft2_fft2]
  · unfold inverseNearField nearField
    rw [fft2_ifft2]
    have : (fun k l => p k l * (fft2 w k l * (starRingEnd ℂ) (p k l))) = fft2 w := by
      funext k l
      calc p k l * (fft2 w k l * (starRingEnd ℂ) (p k l))
          = (starRingEnd ℂ) (p k l) * p k l * fft2 w k l := by ring
        _ = fft2 w k l := by rw [hu, one_mul]
    rw [this, ifft2_fft2]

theorem near_field_compose (p q w : Wave n m) :
    nearField q (nearField p w) = nearField (fun k l => p k l * q k l) w := by
  unfold nearField
  rw [fft2_ifft2]
  congr 1
  funext k l
  ring

/-- Non-vacuity: the constant propagator `i`. -/
example (w : Wave 3 5) : inverseNearField (fun _ _ => Complex.I) (nearField (fun _ _ => Complex.I) w)
    = w := (near_field_unitary _ (by simp) w).2.1

/-! ### C35 -/

/-- Squared transverse wavenumber at frequency `(k, l)` for pixel sizes `s0`, `s1`. -/
noncomputable def transverse2 (n m : ℕ) (s0 s1 : ℝ) (k : ZMod n) (l : ZMod m) : ℝ :=
  (2 * Real.pi * fftfreq n k / s0) ^ 2 + (2 * Real.pi * fftfreq m l / s1) ^ 2

theorem csqrt_sq (x : ℝ) : csqrt x * csqrt x = x := by
  unfold csqrt
  split
  · rename_i h
    rw [← Complex.ofReal_mul, Real.mul_self_sqrt h]
  · rename_i h
    have : 0 ≤ -x := by linarith
    calc Complex.I * (Real.sqrt (-x) : ℂ) * (Complex.I * (Real.sqrt (-x) : ℂ))
        = (Complex.I * Complex.I) * ((Real.sqrt (-x) : ℂ) * (Real.sqrt (-x) : ℂ)) := by ring
      _ = x := by
        rw [Complex.I_mul_I, ← Complex.ofReal_mul, Real.mul_self_sqrt this]
        push_cast
        ring

theorem csqrt_parts (x : ℝ) : 0 ≤ (csqrt x).re ∧ 0 ≤ (csqrt x).im := by
  unfold csqrt
  split <;> simp [Real.sqrt_nonneg]

/-- The numerically stable form equals `√(k² - K²) - k`. -/
theorem koop_eq (k0 K2 : ℝ) (hk : 0 < k0) :
    -(K2 : ℂ) / (csqrt (k0 ^ 2 - K2) + k0) = csqrt (k0 ^ 2 - K2) - k0 := by
  have hne : csqrt (k0 ^ 2 - K2) + (k0 : ℂ) ≠ 0 := by
    intro h
    have h1 := congrArg Complex.re h
    have h2 := (csqrt_parts (k0 ^ 2 - K2)).1
    simp at h1
    linarith
  rw [div_eq_iff hne]
  have := csqrt_sq (k0 ^ 2 - K2)
  calc -(K2 : ℂ) = ((k0 ^ 2 - K2 : ℝ) : ℂ) - k0 * k0 := by push_cast; ring
    _ = csqrt (k0 ^ 2 - K2) * csqrt (k0 ^ 2 - K2) - k0 * k0 := by rw [this]
    _ = _ := by ring

theorem unit_axis1 (s : ℝ) (hs : 0 < s) : Vec3.unit ![0, -s, 0] = ![0, -1, 0] := by
  have : Real.sqrt (s * s) = s := Real.sqrt_mul_self hs.le
  funext i
  fin_cases i <;> simp [Vec3.unit, Vec3.dot, this, neg_div, hs.ne']

theorem unit_axis0 (s : ℝ) (hs : 0 < s) : Vec3.unit ![-s, 0, 0] = ![-1, 0, 0] := by
  have : Real.sqrt (s * s) = s := Real.sqrt_mul_self hs.le
  funext i
  fin_cases i <;> simp [Vec3.unit, Vec3.dot, this, neg_div, hs.ne']

/-- What the code computes without band limit: the standard angular spectrum phase
`|z| (√(k² - K²) - k)`, conjugated for negative `z`. -/
theorem angularSpectrum_eq (s0 s1 wl z : ℝ) (h0 : 0 < s0) (h1 : 0 < s1) (hw : 0 < wl)
    (k : ZMod n) (l : ZMod m) :
    angularSpectrum n m s0 s1 wl z none k l =
      let p := Complex.exp (Complex.I * (|z| : ℝ) *
        (csqrt ((2 * Real.pi / wl) ^ 2 - transverse2 n m s0 s1 k l) - (2 * Real.pi / wl : ℝ)))
      if z < 0 then (starRingEnd ℂ) p else p := by
  have hk : 0 < 2 * Real.pi / wl := by positivity
  have hgen : generalizedPropagator ![0, -s0, 0] ![-s1, 0, 0] wl ![0, 0, z] none
      (2 * Real.pi * fftfreq n k) (2 * Real.pi * fftfreq m l) =
      Complex.exp (Complex.I * (|z| : ℝ) *
        (csqrt ((2 * Real.pi / wl) ^ 2 - transverse2 n m s0 s1 k l) - (2 * Real.pi / wl : ℝ))) := by
    unfold generalizedPropagator perpDir
    simp only [refWave, inPlaneK, unit_axis1 s0 h0, unit_axis0 s1 h1, Option.getD_none]
    have hperp : Vec3.unit (Vec3.cross ![0, -1, 0] ![-1, 0, 0]) = ![0, 0, -1] := by
      funext i
      fin_cases i <;> simp [Vec3.unit, Vec3.dot, Vec3.cross]
    have hK : Vec3.dot (fun i => (dualBasis ![0, -s0, 0] ![-s1, 0, 0]).1 i *
          (2 * Real.pi * fftfreq n k) + (dualBasis ![0, -s0, 0] ![-s1, 0, 0]).2 i *
          (2 * Real.pi * fftfreq m l))
        (fun i => (dualBasis ![0, -s0, 0] ![-s1, 0, 0]).1 i *
          (2 * Real.pi * fftfreq n k) + (dualBasis ![0, -s0, 0] ![-s1, 0, 0]).2 i *
          (2 * Real.pi * fftfreq m l)) = transverse2 n m s0 s1 k l := by
      simp only [Vec3.dot, dualBasis, transverse2]
      simp
      field_simp
      ring
    rw [hK, koop_eq _ _ hk, hperp]
    congr 1
    have hs : z * ((-1) * sgn (Vec3.dot ![0, 0, -1] ![0, 0, z])) = |z| := by
      simp only [Vec3.dot, sgn]
      simp
      rcases lt_trichotomy z 0 with h | h | h
      · simp [h, abs_of_neg h]
      · simp [h]
      · simp [h, not_lt.2 h.le, abs_of_pos h]
    rw [Fin.sum_univ_three]
    simp only [Matrix.cons_val_zero, Matrix.cons_val_one, Matrix.cons_val_two, Matrix.tail_cons,
      Matrix.head_cons, Complex.ofReal_zero, zero_mul, zero_add, Pi.zero_apply, sub_zero]
    rw [← hs]
    have hz : (dualBasis ![0, -s0, 0] ![-s1, 0, 0]).1 2 = 0 ∧
        (dualBasis ![0, -s0, 0] ![-s1, 0, 0]).2 2 = 0 := by
      constructor <;> simp [dualBasis]
    rw [hz.1, hz.2]
    push_cast
    simp
    ring
  unfold angularSpectrum
  simp only [hgen]

/-- A frequency that propagates: its transverse wavenumber does not exceed the wavenumber. -/
def Propagates (n m : ℕ) (s0 s1 wl : ℝ) (k : ZMod n) (l : ZMod m) : Prop :=
  transverse2 n m s0 s1 k l ≤ (2 * Real.pi / wl) ^ 2

/-- The band-limited propagator is the propagator restricted to a set of frequencies that does not
depend on the distance. -/
theorem angularSpectrum_bandlimit (n m : ℕ) (s0 s1 wl : ℝ) (b : Option ℝ) (k : ZMod n)
    (l : ZMod m) : ∃ keep : Prop, ∃ _ : Decidable keep, ∀ z, angularSpectrum n m s0 s1 wl z b k l =
      if keep then angularSpectrum n m s0 s1 wl z none k l else 0 := by
  classical
  cases b with
  | none => exact ⟨True, inferInstance, fun z => by simp⟩
  | some b => exact ⟨_, inferInstance, fun z => rfl⟩

/-- **C35** (frequencies): the frequency at index `k` is `q/n` cycles per pixel, where `q` is the integer congruent to `k`
with `-n/2 ≤ q < n/2`: the Nyquist frequency of an even grid counts as negative. -/
theorem fftfreq_spec (n : ℕ) [NeZero n] (k : ZMod n) : ∃ q : ℤ, fftfreq n k = q / n ∧ (q : ZMod n) = k ∧
    -(n : ℤ) ≤ 2 * q ∧ 2 * q < n := by
  have hlt := ZMod.val_lt k
  unfold fftfreq
  split_ifs with h
  · exact ⟨k.val, by push_cast; ring, by simp, by omega, by omega⟩
  · exact ⟨(k.val : ℤ) - n, by push_cast; ring, by simp, by omega, by omega⟩

theorem fftfreq_sq (n : ℕ) [NeZero n] (k : ZMod n) : fftfreq n k ^ 2 = ((k.valMinAbs : ℝ) / n) ^ 2 := by
  obtain ⟨q, hq, hk, hl, hu⟩ := fftfreq_spec n k
  rw [hq]
  by_cases hN : 2 * q = -(n : ℤ)
  · have hv : k.valMinAbs = -q := by
      rw [ZMod.valMinAbs_spec]
      refine ⟨?_, ?_⟩
      · rw [← hk]; push_cast
        have : ((2 * q : ℤ) : ZMod n) = 0 := by rw [hN]; simp
        push_cast at this
        linear_combination this
      · constructor <;> have := NeZero.pos n <;> omega
    rw [hv]; push_cast; ring
  · have hv : k.valMinAbs = q := by
      rw [ZMod.valMinAbs_spec]
      exact ⟨hk.symm, by constructor <;> omega⟩
    rw [hv]

/-- **C35** (band limit): a band limit `b` keeps the propagator unchanged strictly inside the ellipse of relative radius
`b` (a fraction of the largest frequency `(n-1)/2` along each axis) and sets it to zero on and outside the ellipse. -/
theorem angularSpectrum_bandlimit_ellipse (n m : ℕ) [NeZero n] [NeZero m] (s0 s1 wl z b : ℝ) (hb : 0 < b) (k : ZMod n)
    (l : ZMod m) :
    ((k.valMinAbs / ((n - 1) / 2 : ℕ) : ℝ) ^ 2 + (l.valMinAbs / ((m - 1) / 2 : ℕ) : ℝ) ^ 2 < b ^ 2 →
      angularSpectrum n m s0 s1 wl z (some b) k l = angularSpectrum n m s0 s1 wl z none k l) ∧
    (b ^ 2 ≤ (k.valMinAbs / ((n - 1) / 2 : ℕ) : ℝ) ^ 2 + (l.valMinAbs / ((m - 1) / 2 : ℕ) : ℝ) ^ 2 →
      angularSpectrum n m s0 s1 wl z (some b) k l = 0) := by
  have hn : (n : ℝ) ≠ 0 := Nat.cast_ne_zero.mpr (NeZero.ne n)
  have hm : (m : ℝ) ≠ 0 := Nat.cast_ne_zero.mpr (NeZero.ne m)
  have key : ∀ (n : ℕ) [NeZero n] (k : ZMod n), (fftfreq n k / (((n - 1) / 2 : ℕ) / n)) ^ 2 =
      ((k.valMinAbs / ((n - 1) / 2 : ℕ) : ℝ)) ^ 2 := by
    intro n _ k
    have hn : (n : ℝ) ≠ 0 := Nat.cast_ne_zero.mpr (NeZero.ne n)
    rw [div_pow, fftfreq_sq, ← div_pow]
    congr 1
    generalize (((n - 1) / 2 : ℕ) : ℝ) = c
    field_simp
  have hr : ∀ u : ℝ, Real.sqrt u < b ↔ u < b ^ 2 := fun u => Real.sqrt_lt' hb
  constructor <;> intro h
  · simp only [angularSpectrum, key, hr, if_pos h]
  · simp only [angularSpectrum, key, hr, if_neg (not_lt.mpr h)]

/-- **C35**: for all positive pixel sizes and wavelengths, at every frequency: (1) the propagator
for `z₁` times that for `z₂` is the one for `z₁ + z₂` if the distances have the same sign, and, at
propagating frequencies, for all distances; (2) at propagating frequencies it has modulus 1 and
the one for `-z` is its inverse; (3) for `z = 0` it is 1; (4) it never exceeds 1 in modulus, whatever
the frequency, and at other frequencies it decays with distance. -/
theorem angular_spectrum_group (s0 s1 wl : ℝ) (h0 : 0 < s0) (h1 : 0 < s1) (hw : 0 < wl)
    (k : ZMod n) (l : ZMod m) :
    let A := fun z => angularSpectrum n m s0 s1 wl z none k l
    (∀ z₁ z₂, 0 ≤ z₁ * z₂ → A z₁ * A z₂ = A (z₁ + z₂)) ∧
    (Propagates n m s0 s1 wl k l → ∀ z₁ z₂, A z₁ * A z₂ = A (z₁ + z₂)) ∧
    (Propagates n m s0 s1 wl k l → ∀ z, ‖A z‖ = 1 ∧ A (-z) * A z = 1) ∧
    A 0 = 1 ∧
    (∀ z, ‖A z‖ ≤ 1) ∧
    (¬ Propagates n m s0 s1 wl k l → ∀ z, z ≠ 0 → ‖A z‖ < 1) := by
  intro A
  set S : ℂ := csqrt ((2 * Real.pi / wl) ^ 2 - transverse2 n m s0 s1 k l) -
    (2 * Real.pi / wl : ℝ) with hS
  have hA : ∀ z, A z = if z < 0 then (starRingEnd ℂ) (Complex.exp (Complex.I * (|z| : ℝ) * S))
      else Complex.exp (Complex.I * (|z| : ℝ) * S) := by
    intro z
    exact angularSpectrum_eq s0 s1 wl z h0 h1 hw k l
  have hneg : ∀ z, z ≤ 0 → A z = (starRingEnd ℂ) (Complex.exp (Complex.I * ((-z : ℝ) : ℂ) * S)) := by
    intro z hz
    rcases hz.eq_or_lt with h | h
    · subst h; rw [hA]; simp
    · rw [hA, if_pos h, abs_of_neg h]
  have hpos : ∀ z, 0 ≤ z → A z = Complex.exp (Complex.I * (z : ℂ) * S) := by
    intro z hz
    rw [hA, if_neg (not_lt.2 hz), abs_of_nonneg hz]
  have hSim : 0 ≤ S.im := by
    have := (csqrt_parts ((2 * Real.pi / wl) ^ 2 - transverse2 n m s0 s1 k l)).2
    rw [hS]
    simpa using this
  have hnorm : ∀ z, ‖A z‖ = Real.exp (-(|z| * S.im)) := by
    intro z
    have e : ‖Complex.exp (Complex.I * (|z| : ℝ) * S)‖ = Real.exp (-(|z| * S.im)) := by
      rw [Complex.norm_exp]
      congr 1
      simp
    rw [hA]
    split
    · rw [RCLike.norm_conj, e]
    · exact e
  have hreal : Propagates n m s0 s1 wl k l → S.im = 0 := by
    intro hp
    have : 0 ≤ (2 * Real.pi / wl) ^ 2 - transverse2 n m s0 s1 k l := sub_nonneg.2 hp
    rw [hS, csqrt, if_pos this]
    simp
  have hsame : ∀ z₁ z₂, 0 ≤ z₁ * z₂ → A z₁ * A z₂ = A (z₁ + z₂) := by
    intro z₁ z₂ hz
    have hcase : (0 ≤ z₁ ∧ 0 ≤ z₂) ∨ (z₁ ≤ 0 ∧ z₂ ≤ 0) := by
      rcases mul_nonneg_iff.1 hz with h | h
      · exact Or.inl h
      · exact Or.inr h
    rcases hcase with ⟨ha, hb⟩ | ⟨ha, hb⟩
    · rw [hpos _ ha, hpos _ hb, hpos _ (by linarith), ← Complex.exp_add]
      congr 1
      push_cast
      ring
    · rw [hneg _ ha, hneg _ hb, hneg _ (by linarith), ← map_mul, ← Complex.exp_add]
      congr 2
      push_cast
      ring
  have hall : Propagates n m s0 s1 wl k l → ∀ z, A z = Complex.exp (Complex.I * (z : ℂ) * S) := by
    intro hp z
    rcases le_total 0 z with h | h
    · exact hpos z h
    · rw [hneg z h, ← Complex.exp_conj]
      congr 1
      have hSr : (starRingEnd ℂ) S = S := Complex.conj_eq_iff_im.2 (hreal hp)
      rw [map_mul, map_mul, hSr, Complex.conj_I, Complex.conj_ofReal]
      push_cast
      ring
  refine ⟨hsame, fun hp z₁ z₂ => ?_, fun hp z => ⟨?_, ?_⟩, ?_, fun z => ?_, fun hp z hz => ?_⟩
  · rw [hall hp, hall hp, hall hp, ← Complex.exp_add]
    congr 1
    push_cast
    ring
  · rw [hnorm, hreal hp]
    simp
  · rw [hall hp, hall hp, ← Complex.exp_add]
    rw [show Complex.I * ((-z : ℝ) : ℂ) * S + Complex.I * (z : ℂ) * S = 0 by push_cast; ring]
    exact Complex.exp_zero
  · rw [hpos 0 le_rfl]
    simp
  · rw [hnorm]
    exact Real.exp_le_one_iff.2 (by have := mul_nonneg (abs_nonneg z) hSim; linarith)
  · rw [hnorm]
    have hlt : (2 * Real.pi / wl) ^ 2 - transverse2 n m s0 s1 k l < 0 := by
      unfold Propagates at hp
      push Not at hp
      linarith
    have : 0 < S.im := by
      rw [hS, csqrt, if_neg (not_le.2 hlt)]
      simp
      linarith
    rw [Real.exp_lt_one_iff]
    have := mul_pos (abs_pos.2 hz) this
    linarith

/-- Non-vacuity: zero frequency propagates; the group law is about a non-trivial function. -/
example (s0 s1 wl : ℝ) : Propagates 4 6 s0 s1 wl 0 0 := by
  simp [Propagates, transverse2, fftfreq]
  positivity

/-! ### C56 -/

theorem sgn_mul_self (x : ℝ) : x * sgn x = |x| := by
  unfold sgn
  rcases lt_trichotomy x 0 with h | h | h
  · simp [h, not_lt.2 h.le, abs_of_neg h]
  · simp [h]
  · simp [h, abs_of_pos h]

theorem dot_smul_right (a b : Vec3) (c : ℝ) : a.dot (fun i => b i * c) = a.dot b * c := by
  simp only [Vec3.dot]; ring

theorem dot_comm (a b : Vec3) : a.dot b = b.dot a := by simp only [Vec3.dot]; ring

/-- Modulus of the generalized propagator: an exponential whose exponent is minus the offset along
the oriented normal, times the decay constant, with the sign flipped when the code conjugates. -/
theorem generalized_norm (b1 b2 : Vec3) (wl : ℝ) (hw : 0 < wl) (offset : Vec3) (prop : Option Vec3)
    (ki kj : ℝ) :
    ‖generalizedPropagator b1 b2 wl offset prop ki kj‖ =
      Real.exp (-((if ∃ p, prop = some p ∧ p.dot offset < 0 then -1 else 1) *
        (offset.dot (perpDir b1 b2 (prop.getD offset)) *
          (csqrt ((2 * Real.pi / wl) ^ 2 -
            (inPlaneK b1 b2 wl (perpDir b1 b2 (prop.getD offset)) prop ki kj).dot
            (inPlaneK b1 b2 wl (perpDir b1 b2 (prop.getD offset)) prop ki kj))).im))) := by
  have hk : 0 < 2 * Real.pi / wl := by positivity
  simp only [generalizedPropagator]
  rw [koop_eq _ _ hk]
  set perp := perpDir b1 b2 (prop.getD offset)
  set K := inPlaneK b1 b2 wl perp prop ki kj
  set S := csqrt ((2 * Real.pi / wl) ^ 2 - K.dot K)
  have him : (∑ i, (offset i : ℂ) * ((K i : ℂ) + perp i * (S - ((2 * Real.pi / wl : ℝ) : ℂ)) -
      refWave wl perp prop i)).im = offset.dot perp * S.im := by
    rw [Fin.sum_univ_three]
    simp [Vec3.dot]
    ring
  cases prop with
  | none =>
    simp only [Complex.norm_exp, Complex.mul_re, Complex.I_re, Complex.I_im, zero_mul, one_mul,
      zero_sub]
    rw [him]
    simp
  | some p =>
    by_cases hp : p.dot offset < 0
    · simp only [hp, if_true, Complex.norm_exp, Complex.mul_re, Complex.I_re, Complex.I_im,
        zero_mul, one_mul, zero_sub, Complex.conj_im]
      rw [him]
      simp [hp]
    · simp only [hp, if_false, Complex.norm_exp, Complex.mul_re, Complex.I_re, Complex.I_im,
        zero_mul, one_mul, zero_sub]
      rw [him]
      simp [hp]

/-- **C56** (what holds): for every pair of basis vectors, wavelength, offset and frequency, the
generalized propagator does not amplify — if no propagation vector is given, or if offset and
propagation vector lie on the same side of the plane exactly when they form an acute angle (in
particular when the propagation vector is the offset). Missing: other propagation vectors
(`generalized_propagator_violated`). -/
theorem generalized_propagator_partial (b1 b2 : Vec3) (wl : ℝ) (hw : 0 < wl) (offset : Vec3)
    (prop : Option Vec3) (ki kj : ℝ)
    (h : ∀ p, prop = some p → (0 ≤ p.dot offset ↔
      0 ≤ ((b1.unit.cross b2.unit).unit.dot p) * ((b1.unit.cross b2.unit).unit.dot offset))) :
    ‖generalizedPropagator b1 b2 wl offset prop ki kj‖ ≤ 1 := by
  rw [generalized_norm b1 b2 wl hw, Real.exp_le_one_iff]
  have hi := (csqrt_parts ((2 * Real.pi / wl) ^ 2 -
    (inPlaneK b1 b2 wl (perpDir b1 b2 (prop.getD offset)) prop ki kj).dot
    (inPlaneK b1 b2 wl (perpDir b1 b2 (prop.getD offset)) prop ki kj))).2
  have hd : offset.dot (perpDir b1 b2 (prop.getD offset)) =
      (b1.unit.cross b2.unit).unit.dot offset *
        sgn ((b1.unit.cross b2.unit).unit.dot (prop.getD offset)) := by
    unfold perpDir
    rw [dot_smul_right, dot_comm]
  set N := (b1.unit.cross b2.unit).unit
  cases prop with
  | none =>
    simp only [Option.getD_none] at hd hi ⊢
    rw [hd, sgn_mul_self]
    have := mul_nonneg (abs_nonneg (N.dot offset)) hi
    simp
    exact this
  | some p =>
    simp only [Option.getD_some] at hd hi ⊢
    have h' := h p rfl
    rw [hd]
    by_cases hp : p.dot offset < 0
    · have h1 : N.dot p * N.dot offset < 0 := by
        by_contra hc
        exact absurd (h'.2 (not_lt.1 hc)) (not_le.2 hp)
      have h2 : N.dot offset * sgn (N.dot p) ≤ 0 := by
        unfold sgn
        rcases mul_neg_iff.1 h1 with ⟨ha, hb⟩ | ⟨ha, hb⟩
        · simp [ha, hb.le]
        · simp [ha, not_lt.2 ha.le, hb.le]
      have := mul_nonneg (neg_nonneg.2 h2) hi
      simp [hp]
      linarith
    · have h1 := h'.1 (not_lt.1 hp)
      have h2 : 0 ≤ N.dot offset * sgn (N.dot p) := by
        unfold sgn
        rcases lt_trichotomy (N.dot p) 0 with ha | ha | ha
        · have : N.dot offset ≤ 0 := by
            by_contra hc
            push Not at hc
            nlinarith
          simp [ha, not_lt.2 ha.le, this]
        · simp [ha]
        · have : 0 ≤ N.dot offset := by
            by_contra hc
            push Not at hc
            nlinarith
          simp [ha, this]
      have := mul_nonneg h2 hi
      simp [hp]
      linarith

/-- Non-vacuity: with `propagate_along_offset` the condition always holds. -/
example (b1 b2 : Vec3) (wl : ℝ) (hw : 0 < wl) (offset : Vec3) (ki kj : ℝ) :
    ‖generalizedPropagator b1 b2 wl offset (some offset) ki kj‖ ≤ 1 := by
  refine generalized_propagator_partial b1 b2 wl hw offset _ ki kj fun p hp => ?_
  obtain rfl : offset = p := by simpa using hp
  have h1 : 0 ≤ offset.dot offset := by
    simp only [Vec3.dot]
    nlinarith [mul_self_nonneg (offset 0), mul_self_nonneg (offset 1), mul_self_nonneg (offset 2)]
  exact ⟨fun _ => mul_self_nonneg _, fun _ => h1⟩

/-- **C56 is violated** for other propagation vectors: in the plane spanned by `-y` and `-x`, with
offset `(1, 0, 1)` and propagation vector `(-10, 0, 1)` (same side of the plane, obtuse angle), a
wave of frequency `π` radians per pixel at wavelength 4 pixels grows. -/
theorem generalized_propagator_violated :
    1 < ‖generalizedPropagator ![0, -1, 0] ![-1, 0, 0] 4 ![1, 0, 1] (some ![-10, 0, 1])
      Real.pi 0‖ := by
  rw [generalized_norm _ _ _ (by norm_num), Real.one_lt_exp_iff]
  have u1 : Vec3.unit ![0, -1, 0] = ![0, -1, 0] := by
    have := unit_axis1 1 one_pos; simpa using this
  have u0 : Vec3.unit ![-1, 0, 0] = ![-1, 0, 0] := by
    have := unit_axis0 1 one_pos; simpa using this
  have hperp : Vec3.unit (Vec3.cross ![0, -1, 0] ![-1, 0, 0]) = ![0, 0, -1] := by
    funext i
    fin_cases i <;> simp [Vec3.unit, Vec3.dot, Vec3.cross]
  have hp : perpDir ![0, -1, 0] ![-1, 0, 0] ![-10, 0, 1] = ![0, 0, 1] := by
    unfold perpDir
    rw [u1, u0, hperp]
    funext i
    fin_cases i <;> simp [Vec3.dot, sgn]
  simp only [Option.getD_some]
  rw [hp]
  have hneg : Vec3.dot ![-10, 0, 1] ![1, 0, 1] < 0 := by simp [Vec3.dot]
  have hoff : Vec3.dot ![1, 0, 1] ![0, 0, 1] = 1 := by simp [Vec3.dot]
  rw [hoff, if_pos ⟨_, rfl, hneg⟩]
  set K := inPlaneK ![0, -1, 0] ![-1, 0, 0] 4 ![0, 0, 1] (some ![-10, 0, 1]) Real.pi 0 with hK
  have hK1 : K 1 = -Real.pi := by
    rw [hK]
    simp [inPlaneK, refWave, dualBasis, Vec3.dot, Vec3.unit]
  have hlt : (2 * Real.pi / 4) ^ 2 - K.dot K < 0 := by
    have : Real.pi ^ 2 ≤ K.dot K := by
      simp only [Vec3.dot, hK1]
      nlinarith [mul_self_nonneg (K 0), mul_self_nonneg (K 2)]
    nlinarith [Real.pi_pos]
  have : 0 < (csqrt ((2 * Real.pi / 4) ^ 2 - K.dot K)).im := by
    rw [csqrt, if_neg (not_le.2 hlt)]
    simp
    linarith
  linarith

end Cdtools
