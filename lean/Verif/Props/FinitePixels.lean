/-
C82: detector pixels of finite size (`simulate_finite_pixels=True`).
-/
import Verif.Model.FinitePixels
import Verif.Props.Upsample
import Verif.Props.TidyProbes
import Mathlib.Analysis.SpecialFunctions.Integrals.Basic
import Mathlib.Analysis.SpecialFunctions.Trigonometric.Bounds
import Mathlib.MeasureTheory.Integral.IntervalIntegral.FundThmCalculus

set_option linter.unusedSectionVars false
set_option linter.unusedSimpArgs false

namespace Cdtools
open Finset ZMod

variable {n m : ℕ} [NeZero n] [NeZero m]

/-! ### Specification -/

/-- `exp(-2πi x)`. -/
noncomputable def ph (x : ℝ) : ℂ := Complex.exp (((-(2 * Real.pi * x) : ℝ) : ℂ) * Complex.I)

/-- Offset of a pixel from the centre of the real-space window. -/
def offset (i : ZMod n) : ℤ := (i.val : ℤ) - (n / 2 : ℕ)

/-- The field at any point of the detector plane, not only at the centres of the pixels: `s` and `t` are measured in pixels
and the wave in real space, behind the window of the simulation, is zero. -/
noncomputable def fieldAt (w : Wave n n) (s t : ℝ) : ℂ :=
  ∑ i, ∑ j, fftshift2 (ifft2 w) i j * ph ((offset i * s + offset j * t) / n)

/-- What a detector pixel of full size measures: the mean of the intensity over its area. -/
noncomputable def pixelMean (w : Wave n n) (u v : ℕ) : ℝ :=
  ∫ s in ((u : ℝ) - 1 / 2)..((u : ℝ) + 1 / 2), ∫ t in ((v : ℝ) - 1 / 2)..((v : ℝ) + 1 / 2), ‖fieldAt w s t‖ ^ 2

/-! ### Phases -/

theorem ph_add (x y : ℝ) : ph (x + y) = ph x * ph y := by
  unfold ph; rw [← Complex.exp_add]; congr 1; push_cast; ring

theorem ph_zero : ph 0 = 1 := by simp [ph]

theorem ph_norm (x : ℝ) : ‖ph x‖ = 1 := by unfold ph; rw [Complex.norm_exp_ofReal_mul_I]

theorem ph_conj (x : ℝ) : (starRingEnd ℂ) (ph x) = ph (-x) := by
  unfold ph
  rw [← Complex.exp_conj, map_mul, Complex.conj_I, Complex.conj_ofReal]
  congr 1; push_cast; ring

theorem ph_sub (x y : ℝ) : ph x * (starRingEnd ℂ) (ph y) = ph (x - y) := by
  rw [ph_conj, sub_eq_add_neg, ph_add]

theorem stdAddChar_ph {N : ℕ} [NeZero N] (k : ℤ) : (stdAddChar (-(k : ZMod N)) : ℂ) = ph (k / N) := by
  rw [← Int.cast_neg, stdAddChar_coe]
  unfold ph
  congr 1; push_cast; ring

theorem norm_sq_sum {ι : Type} [Fintype ι] (f : ι → ℂ) :
    (((‖∑ p, f p‖ ^ 2 : ℝ)) : ℂ) = ∑ p, ∑ q, f p * (starRingEnd ℂ) (f q) := by
  push_cast
  rw [← Complex.mul_conj', map_sum, sum_mul_sum]

/-- At the centres of the pixels the field is the wavefield. -/
theorem fieldAt_pixel (w : Wave n n) (u v : ℕ) : fieldAt w u v = w (u : ZMod n) (v : ZMod n) := by
  conv_rhs => rw [← fft2_ifft2 w]
  rw [fft2_eq, ← sum_roll _ (-((n / 2 : ℕ) : ZMod n)) (-((n / 2 : ℕ) : ZMod n))]
  unfold fieldAt
  refine sum_congr rfl fun i _ => sum_congr rfl fun j _ => ?_
  have h : ∀ (i : ZMod n) (u : ℕ), (stdAddChar (-((i + -((n / 2 : ℕ) : ZMod n)) * (u : ZMod n))) : ℂ) =
      ph (offset i * u / n) := by
    intro i u
    have := stdAddChar_ph (N := n) (offset i * (u : ℤ))
    rw [show ((offset i * (u : ℤ) : ℤ) : ZMod n) = (i + -((n / 2 : ℕ) : ZMod n)) * (u : ZMod n) by
      unfold offset
      generalize n / 2 = c
      push_cast; simp [sub_eq_add_neg]] at this
    rw [this]; push_cast; rfl
  rw [h, h, add_div, ph_add, fftshift2, sub_eq_add_neg, sub_eq_add_neg]
  ring

theorem ifft2_roll (w : Wave n m) (a : ZMod n) (b : ZMod m) (i : ZMod n) (j : ZMod m) :
    ifft2 (fun k l => w (k - a) (l - b)) i j = stdAddChar (i * a) * stdAddChar (j * b) * ifft2 w i j := by
  rw [ifft2_eq, ifft2_eq, ← sum_roll _ a b, mul_div_assoc', mul_sum]
  congr 1
  refine sum_congr rfl fun k _ => ?_
  rw [mul_sum]
  refine sum_congr rfl fun l _ => ?_
  rw [add_sub_cancel_right, add_sub_cancel_right, mul_add, mul_add, AddChar.map_add_eq_mul, AddChar.map_add_eq_mul]
  ring

/-- **C82.** For the simulated far field of an exit wave, the field in the detector plane is the Fourier transform of the
exit wave, at the distance from the centre of the detector. -/
theorem fieldAt_farField (ψ : Wave n n) (s t : ℝ) :
    fieldAt (farField ψ) s t =
      (∑ i, ∑ j, ψ i j * ph ((offset i * (s - (n / 2 : ℕ)) + offset j * (t - (n / 2 : ℕ))) / n)) / n := by
  have hn : (n : ℝ) ≠ 0 := by exact_mod_cast NeZero.ne n
  have hq : Real.sqrt ((n : ℝ) * n) = n := by rw [← pow_two, Real.sqrt_sq (Nat.cast_nonneg n)]
  have hy : ∀ i j, fftshift2 (ifft2 (farField ψ)) i j =
      ψ i j * (ph (-(offset i * (n / 2 : ℕ) / n)) * ph (-(offset j * (n / 2 : ℕ) / n))) / n := by
    intro i j
    have h1 : farField ψ = fun k l => (fun k l => fft2 (ifftshift2 ψ) k l / (n : ℂ)) (k - ((n / 2 : ℕ) : ZMod n)) (l - ((n / 2 : ℕ) : ZMod n)) := by
      funext k l
      simp only [farField, fftshift2]
      rw [hq]; push_cast; rfl
    have h2 : ifft2 (fun k l => fft2 (ifftshift2 ψ) k l / (n : ℂ)) = fun i j => ifftshift2 ψ i j / (n : ℂ) := by
      have h3 := isLinear_ifft2.map_smul (n : ℂ)⁻¹ (fft2 (ifftshift2 ψ))
      rw [ifft2_fft2] at h3
      funext i j
      have h4 := congrFun (congrFun h3 i) j
      simp only [Pi.smul_apply, smul_eq_mul] at h4
      rw [div_eq_inv_mul, ← h4]
      congr 1
      funext k l
      simp [div_eq_inv_mul]
    have hc : ∀ i : ZMod n, (stdAddChar ((i - ((n / 2 : ℕ) : ZMod n)) * ((n / 2 : ℕ) : ZMod n)) : ℂ) =
        ph (-(offset i * (n / 2 : ℕ) / n)) := by
      intro i
      have := stdAddChar_ph (N := n) (-(offset i * ((n / 2 : ℕ) : ℤ)))
      rw [show (-((-(offset i * ((n / 2 : ℕ) : ℤ)) : ℤ) : ZMod n)) = (i - ((n / 2 : ℕ) : ZMod n)) * ((n / 2 : ℕ) : ZMod n) by
        unfold offset
        generalize n / 2 = c
        push_cast; simp] at this
      rw [this]
      congr 1
      generalize n / 2 = c
      push_cast; ring
    show ifft2 (farField ψ) (i - ((n / 2 : ℕ) : ZMod n)) (j - ((n / 2 : ℕ) : ZMod n)) = _
    rw [h1, ifft2_roll (fun k l => fft2 (ifftshift2 ψ) k l / (n : ℂ)), h2, hc, hc]
    simp only [ifftshift2, sub_add_cancel]
    ring
  unfold fieldAt
  rw [sum_div]
  refine sum_congr rfl fun i _ => ?_
  rw [sum_div]
  refine sum_congr rfl fun j _ => ?_
  rw [hy, mul_div_right_comm (ψ i j), mul_assoc, ← ph_add, ← ph_add, mul_div_right_comm (ψ i j)]
  congr 2
  generalize n / 2 = c
  field_simp
  ring

/-! ### Both patterns as sums over pairs of pixels of the real-space wave -/

/-- The Fourier sum of the intensity with the frequencies weighted by `μ`. -/
noncomputable def weighted (μ : ℤ → ℝ) (w : Wave n n) (u v : ℕ) : ℂ :=
  ∑ p : ZMod n × ZMod n, ∑ q : ZMod n × ZMod n,
    fftshift2 (ifft2 w) p.1 p.2 * (starRingEnd ℂ) (fftshift2 (ifft2 w) q.1 q.2) *
      ((μ (offset p.1 - offset q.1) * μ (offset p.2 - offset q.2) : ℝ) : ℂ) *
      (ph ((offset p.1 - offset q.1 : ℤ) * u / n) * ph ((offset p.2 - offset q.2 : ℤ) * v / n))

theorem integral_ph (a : ℝ) (u : ℝ) :
    ∫ s in (u - 1 / 2)..(u + 1 / 2), ph (a * s) = (tsinc a : ℂ) * ph (a * u) := by
  by_cases ha : a = 0
  · subst ha; simp [ph_zero, tsinc]; norm_num
  · have hc : ((-(2 * Real.pi * a) : ℝ) : ℂ) * Complex.I ≠ 0 := by
      have := Real.pi_ne_zero
      simp [ha, this]
    have h1 : ∀ s : ℝ, ph (a * s) = Complex.exp ((((-(2 * Real.pi * a) : ℝ) : ℂ) * Complex.I) * s) := by
      intro s; unfold ph; congr 1; push_cast; ring
    simp only [h1]
    rw [integral_exp_mul_complex hc]
    have e1 : (((-(2 * Real.pi * a) : ℝ) : ℂ) * Complex.I) * ((u + 1 / 2 : ℝ) : ℂ) =
        ((-(2 * Real.pi * a) : ℝ) : ℂ) * Complex.I * (u : ℂ) + -((Real.pi * a : ℝ) : ℂ) * Complex.I := by
      push_cast; ring
    have e2 : (((-(2 * Real.pi * a) : ℝ) : ℂ) * Complex.I) * ((u - 1 / 2 : ℝ) : ℂ) =
        ((-(2 * Real.pi * a) : ℝ) : ℂ) * Complex.I * (u : ℂ) + ((Real.pi * a : ℝ) : ℂ) * Complex.I := by
      push_cast; ring
    rw [e1, e2, Complex.exp_add, Complex.exp_add]
    have hp : Real.pi * a ≠ 0 := mul_ne_zero Real.pi_ne_zero ha
    have hs : (tsinc a : ℂ) = Complex.sin ((Real.pi * a : ℝ) : ℂ) / ((Real.pi * a : ℝ) : ℂ) := by
      unfold tsinc; rw [Real.sinc_of_ne_zero hp]; push_cast; rfl
    rw [hs, Complex.sin]
    have hpi : (Real.pi : ℂ) ≠ 0 := by exact_mod_cast Real.pi_ne_zero
    have ha' : (a : ℂ) ≠ 0 := by exact_mod_cast ha
    generalize Complex.exp (((-(2 * Real.pi * a) : ℝ) : ℂ) * Complex.I * (u : ℂ)) = E
    push_cast
    generalize Complex.exp (-((Real.pi : ℂ) * a) * Complex.I) = F
    generalize Complex.exp ((Real.pi : ℂ) * a * Complex.I) = G
    have hI : Complex.I ≠ 0 := Complex.I_ne_zero
    field_simp
    rw [Complex.I_sq]; ring

theorem continuous_ph : Continuous ph := by unfold ph; fun_prop

/-- What a pixel measures, as a sum. -/
theorem pixelMean_eq (w : Wave n n) (u v : ℕ) :
    (pixelMean w u v : ℂ) = weighted (fun d => tsinc (d / n)) w u v := by
  have hn : (n : ℝ) ≠ 0 := by exact_mod_cast NeZero.ne n
  have key : ∀ s t : ℝ, ((‖fieldAt w s t‖ ^ 2 : ℝ) : ℂ) = ∑ p : ZMod n × ZMod n, ∑ q : ZMod n × ZMod n,
      fftshift2 (ifft2 w) p.1 p.2 * (starRingEnd ℂ) (fftshift2 (ifft2 w) q.1 q.2) *
      (ph ((offset p.1 - offset q.1 : ℤ) / n * s) * ph ((offset p.2 - offset q.2 : ℤ) / n * t)) := by
    intro s t
    unfold fieldAt
    rw [← Fintype.sum_prod_type' fun i j => fftshift2 (ifft2 w) i j * ph ((offset i * s + offset j * t) / n),
      norm_sq_sum]
    refine sum_congr rfl fun p _ => sum_congr rfl fun q _ => ?_
    rw [map_mul, ← ph_add]
    rw [show ∀ a b c d : ℂ, a * b * (c * d) = a * c * (b * d) by intros; ring, ph_sub]
    congr 2
    push_cast; field_simp; ring
  unfold pixelMean weighted
  rw [← intervalIntegral.integral_ofReal]
  simp only [← intervalIntegral.integral_ofReal]
  simp only [key]
  have cont : ∀ c d : ℝ, Continuous fun t : ℝ => ph (c * t) := fun c d => continuous_ph.comp (by fun_prop)
  have inner : ∀ s : ℝ, (∫ t in ((v : ℝ) - 1 / 2)..((v : ℝ) + 1 / 2), ∑ p : ZMod n × ZMod n, ∑ q : ZMod n × ZMod n,
      fftshift2 (ifft2 w) p.1 p.2 * (starRingEnd ℂ) (fftshift2 (ifft2 w) q.1 q.2) *
      (ph ((offset p.1 - offset q.1 : ℤ) / n * s) * ph ((offset p.2 - offset q.2 : ℤ) / n * t))) =
      ∑ p : ZMod n × ZMod n, ∑ q : ZMod n × ZMod n,
        fftshift2 (ifft2 w) p.1 p.2 * (starRingEnd ℂ) (fftshift2 (ifft2 w) q.1 q.2) *
        (ph ((offset p.1 - offset q.1 : ℤ) / n * s) * ((tsinc ((offset p.2 - offset q.2 : ℤ) / n) : ℂ) *
          ph ((offset p.2 - offset q.2 : ℤ) / n * v))) := by
    intro s
    have c1 : ∀ (p q : ZMod n × ZMod n), Continuous fun t : ℝ =>
        fftshift2 (ifft2 w) p.1 p.2 * (starRingEnd ℂ) (fftshift2 (ifft2 w) q.1 q.2) *
        (ph ((offset p.1 - offset q.1 : ℤ) / n * s) * ph ((offset p.2 - offset q.2 : ℤ) / n * t)) :=
      fun p q => (cont _ 0).const_mul _ |>.const_mul _
    rw [intervalIntegral.integral_finsetSum fun p _ =>
      (continuous_finset_sum _ fun q _ => c1 p q).intervalIntegrable _ _]
    refine sum_congr rfl fun p _ => ?_
    rw [intervalIntegral.integral_finsetSum fun q _ => (c1 p q).intervalIntegrable _ _]
    refine sum_congr rfl fun q _ => ?_
    rw [intervalIntegral.integral_const_mul, intervalIntegral.integral_const_mul, integral_ph]
  simp only [inner]
  have c2 : ∀ (p q : ZMod n × ZMod n), Continuous fun s : ℝ =>
      fftshift2 (ifft2 w) p.1 p.2 * (starRingEnd ℂ) (fftshift2 (ifft2 w) q.1 q.2) *
      (ph ((offset p.1 - offset q.1 : ℤ) / n * s) * ((tsinc ((offset p.2 - offset q.2 : ℤ) / n) : ℂ) *
          ph ((offset p.2 - offset q.2 : ℤ) / n * v))) :=
    fun p q => (cont _ 0).mul_const _ |>.const_mul _
  rw [intervalIntegral.integral_finsetSum fun p _ =>
      (continuous_finset_sum _ fun q _ => c2 p q).intervalIntegrable _ _]
  refine sum_congr rfl fun p _ => ?_
  rw [intervalIntegral.integral_finsetSum fun q _ => (c2 p q).intervalIntegrable _ _]
  refine sum_congr rfl fun q _ => ?_
  rw [intervalIntegral.integral_const_mul, intervalIntegral.integral_mul_const, integral_ph]
  rw [show ∀ a b c : ℝ, a * b / c = a / c * b by intros; ring]
  rw [show ∀ a b c : ℝ, a * b / c = a / c * b by intros; ring]
  push_cast
  ring

/-! ### What the code computes -/

/-- The weight that the code gives to frequency `d`. -/
noncomputable def codeWeight (n : ℕ) (d : ℤ) : ℝ := tsinc ((2 * d + 1) / (2 * n - 1))

theorem half_double (n : ℕ) : (n + n) / 2 = n := by omega

theorem double_zero (n : ℕ) : ((n : ℕ) : ZMod (n + n)) + ((n : ℕ) : ZMod (n + n)) = 0 := by
  rw [← Nat.cast_add, ZMod.natCast_self]

theorem ifftshiftRowsTwice_eq (x : Wave (n + n) (n + n)) : ifftshiftRowsTwice x = x := by
  funext i j
  unfold ifftshiftRowsTwice
  rw [half_double, add_assoc, double_zero, add_zero]

/-- The upsampled field, up to a phase. -/
theorem upsampledField_eq (w : Wave n n) (k l : ZMod (n + n)) :
    upsampledField w k l = (stdAddChar (-(((2 * (n / 2) : ℕ) : ZMod (n + n)) * k)) * stdAddChar (-(((2 * (n / 2) : ℕ) : ZMod (n + n)) * l))) *
      ∑ p : ZMod n × ZMod n, fftshift2 (ifft2 w) p.1 p.2 *
        (stdAddChar (-((offset p.1 : ZMod (n + n)) * k)) * stdAddChar (-((offset p.2 : ZMod (n + n)) * l))) := by
  unfold upsampledField
  rw [ifftshiftRowsTwice_eq, fft2_eq]
  set y := fftshift2 (ifft2 w)
  have hw := zmod_sum_window2 (n := n) (m := n) (N := n + n) (M := n + n) (n / 2) (n / 2) (by omega) (by omega)
    fun a b i j => stdAddChar (-(a * k)) * stdAddChar (-(b * l)) * y i j
  rw [Fintype.sum_prod_type]
  calc _ = ∑ a : ZMod (n + n), ∑ b : ZMod (n + n),
        (if n / 2 ≤ a.val ∧ a.val < n / 2 + n ∧ n / 2 ≤ b.val ∧ b.val < n / 2 + n then
          stdAddChar (-(a * k)) * stdAddChar (-(b * l)) *
            y ((a.val - n / 2 : ℕ) : ZMod n) ((b.val - n / 2 : ℕ) : ZMod n) else 0) := by
        refine sum_congr rfl fun a _ => sum_congr rfl fun b _ => ?_
        unfold padPixels
        split <;> simp
    _ = _ := by
        rw [hw, mul_sum]
        refine sum_congr rfl fun i _ => ?_
        rw [mul_sum]
        refine sum_congr rfl fun j _ => ?_
        have c : ∀ (i : ZMod n) (k : ZMod (n + n)), (stdAddChar (-(((n / 2 + i.val : ℕ) : ZMod (n + n)) * k)) : ℂ) =
            stdAddChar (-(((2 * (n / 2) : ℕ) : ZMod (n + n)) * k)) * stdAddChar (-((offset i : ZMod (n + n)) * k)) := by
          intro i k
          rw [← AddChar.map_add_eq_mul]
          congr 1
          unfold offset
          generalize n / 2 = c
          push_cast
          ring
        rw [c, c]
        ring

/-- The field between the pixel centres for a detector of any shape; `s` and `t` are measured in pixels. -/
noncomputable def fieldAt2 (w : Wave n m) (s t : ℝ) : ℂ :=
  ∑ i, ∑ j, fftshift2 (ifft2 w) i j * ph (offset i * s / n + offset j * t / m)

/-- For square detectors this is the field of the specification above. -/
theorem fieldAt2_square (w : Wave n n) (s t : ℝ) : fieldAt2 w s t = fieldAt w s t := by
  unfold fieldAt2 fieldAt
  refine sum_congr rfl fun i _ => sum_congr rfl fun j _ => ?_
  rw [add_div]

/-- **C82, detectors of any shape.** The sampled field has the modulus of the true field, without loss, at points which are
`n/(n+m)` pixels apart along the first axis and `m/(n+m)` along the second: half a pixel for square detectors only. -/
theorem finite_pixels_upsampled (w : Wave n m) (k l : ℕ) :
    ‖upsampledField w (k : ZMod (n + m)) (l : ZMod (n + m))‖ =
      ‖fieldAt2 w (k * ((n : ℝ) / (n + m))) (l * ((m : ℝ) / (n + m)))‖ := by
  have hn : (n : ℝ) ≠ 0 := by exact_mod_cast NeZero.ne n
  have hm : (m : ℝ) ≠ 0 := by exact_mod_cast NeZero.ne m
  unfold upsampledField
  have hr : ifftshiftRowsTwice (padPixels (fftshift2 (ifft2 w))) = fun i j => padPixels (fftshift2 (ifft2 w))
      (i - (-((((n + m) / 2 : ℕ) : ZMod (n + m)) + (((n + m) / 2 : ℕ) : ZMod (n + m))))) (j - 0) := by
    funext i j
    unfold ifftshiftRowsTwice
    rw [sub_neg_eq_add, sub_zero, add_assoc]
  rw [hr, fft2_roll (padPixels (fftshift2 (ifft2 w))), norm_mul, norm_mul, stdAddChar_norm, stdAddChar_norm, one_mul, one_mul, fft2_eq]
  unfold fieldAt2
  set y := fftshift2 (ifft2 w)
  have hw := zmod_sum_window2 (n := n) (m := m) (N := n + m) (M := n + m) (m / 2) (n / 2) (by omega) (by omega)
    fun a b i j => stdAddChar (-(a * (k : ZMod (n + m)))) * stdAddChar (-(b * (l : ZMod (n + m)))) * y i j
  have e1 : ∑ a : ZMod (n + m), ∑ b : ZMod (n + m), (stdAddChar (-(a * (k : ZMod (n + m)))) * stdAddChar (-(b * (l : ZMod (n + m)))) *
      padPixels y a b : ℂ) = ∑ a : ZMod (n + m), ∑ b : ZMod (n + m),
        (if m / 2 ≤ a.val ∧ a.val < m / 2 + n ∧ n / 2 ≤ b.val ∧ b.val < n / 2 + m then
          stdAddChar (-(a * (k : ZMod (n + m)))) * stdAddChar (-(b * (l : ZMod (n + m)))) *
            y ((a.val - m / 2 : ℕ) : ZMod n) ((b.val - n / 2 : ℕ) : ZMod m) else 0) := by
    refine sum_congr rfl fun a _ => sum_congr rfl fun b _ => ?_
    unfold padPixels
    split <;> simp
  have e2 : ∑ i : ZMod n, ∑ j : ZMod m, (stdAddChar (-(((m / 2 + i.val : ℕ) : ZMod (n + m)) * (k : ZMod (n + m)))) *
        stdAddChar (-(((n / 2 + j.val : ℕ) : ZMod (n + m)) * (l : ZMod (n + m)))) * y i j : ℂ) =
      (ph (((m / 2 + n / 2 : ℕ) : ℝ) * k / (n + m)) * ph (((m / 2 + n / 2 : ℕ) : ℝ) * l / (n + m))) *
        ∑ i, ∑ j, y i j * ph (offset i * (k * ((n : ℝ) / (n + m))) / n + offset j * (l * ((m : ℝ) / (n + m))) / m) := by
    rw [mul_sum]
    refine sum_congr rfl fun i _ => ?_
    rw [mul_sum]
    refine sum_congr rfl fun j _ => ?_
    have h1 := stdAddChar_ph (N := n + m) (((m / 2 + i.val : ℕ) : ℤ) * (k : ℤ))
    have h2 := stdAddChar_ph (N := n + m) (((n / 2 + j.val : ℕ) : ℤ) * (l : ℤ))
    rw [show ((((m / 2 + i.val : ℕ) : ℤ) * (k : ℤ) : ℤ) : ZMod (n + m)) = ((m / 2 + i.val : ℕ) : ZMod (n + m)) * (k : ZMod (n + m)) by
      generalize m / 2 = c; push_cast; rfl] at h1
    rw [show ((((n / 2 + j.val : ℕ) : ℤ) * (l : ℤ) : ℤ) : ZMod (n + m)) = ((n / 2 + j.val : ℕ) : ZMod (n + m)) * (l : ZMod (n + m)) by
      generalize n / 2 = c; push_cast; rfl] at h2
    rw [h1, h2, ← ph_add, ← ph_add, mul_comm (ph _) (y i j), mul_comm (ph _) (_ * _), mul_assoc, ← ph_add]
    congr 2
    unfold offset
    generalize n / 2 = c
    generalize m / 2 = d
    have hs : (n : ℝ) + m ≠ 0 := by
      have := Nat.pos_of_ne_zero (NeZero.ne n)
      have : (0 : ℝ) < (n : ℝ) + m := by positivity
      exact this.ne'
    push_cast
    field_simp
    ring
  rw [e1, hw, e2, norm_mul, norm_mul, ph_norm, ph_norm, one_mul, one_mul]

theorem offset_bounds (i : ZMod n) : -((n / 2 : ℕ) : ℤ) ≤ offset i ∧ offset i < n - (n / 2 : ℕ) := by
  have := i.val_lt
  unfold offset
  omega

theorem mask_value (d e : ℤ) (hd : -(n : ℤ) < d) (hd' : d < n) (he : -(n : ℤ) < e) (he' : e < n) :
    pixelMask ((d : ZMod (n + n)) + ((n : ℕ) : ZMod (n + n))) ((e : ZMod (n + n)) + ((n : ℕ) : ZMod (n + n))) =
      codeWeight n d * codeWeight n e := by
  have hn := Nat.pos_of_ne_zero (NeZero.ne n)
  have val : ∀ d : ℤ, -(n : ℤ) < d → d < n → (((((d : ZMod (n + n)) + ((n : ℕ) : ZMod (n + n))).val : ℕ) : ℝ)) = d + n := by
    intro d h h'
    obtain ⟨k, hk⟩ : ∃ k : ℕ, d + n = k := ⟨(d + n).toNat, by omega⟩
    have : (d : ZMod (n + n)) + ((n : ℕ) : ZMod (n + n)) = ((k : ℕ) : ZMod (n + n)) := by
      have := congrArg (fun z : ℤ => (z : ZMod (n + n))) hk
      push_cast at this
      exact this
    rw [this, ZMod.val_natCast, Nat.mod_eq_of_lt (by omega)]
    exact_mod_cast hk.symm
  have hne : (2 * (n : ℝ) - 1) ≠ 0 := by
    have : (1 : ℝ) ≤ n := by exact_mod_cast hn
    linarith
  have arg : ∀ d : ℤ, ((d : ℝ) + n) / ((n + n - 1 : ℕ) : ℝ) * 2 - 1 = (2 * d + 1) / (2 * n - 1) := by
    intro d
    rw [Nat.cast_sub (by omega)]
    push_cast
    rw [show (n : ℝ) + n - 1 = 2 * n - 1 by ring, div_mul_eq_mul_div, div_sub_one hne]
    congr 1
    ring
  unfold pixelMask codeWeight
  rw [val d hd hd', val e he he', arg, arg]

/-- The Fourier coefficients of a wave. -/
theorem ifft2_characters {N : ℕ} [NeZero N] (a b k l : ZMod N) :
    ifft2 (fun i j : ZMod N => (stdAddChar (-(a * i)) * stdAddChar (-(b * j)) : ℂ)) k l =
      if k = a ∧ l = b then 1 else 0 := by
  have hN : (N : ℂ) ≠ 0 := by exact_mod_cast NeZero.ne N
  rw [ifft2_eq]
  have h : ∀ i : ZMod N, ∑ j : ZMod N, (stdAddChar (k * i) * stdAddChar (l * j) *
      (stdAddChar (-(a * i)) * stdAddChar (-(b * j))) : ℂ) =
      stdAddChar (i * (k - a)) * ∑ j : ZMod N, (stdAddChar (j * (l - b)) : ℂ) := by
    intro i
    rw [mul_sum]
    refine sum_congr rfl fun j _ => ?_
    rw [show i * (k - a) = k * i + -(a * i) by ring, show j * (l - b) = l * j + -(b * j) by ring,
      AddChar.map_add_eq_mul, AddChar.map_add_eq_mul]
    ring
  simp only [h]
  rw [← sum_mul, char_sum, char_sum]
  simp only [sub_eq_zero]
  by_cases h1 : k = a <;> by_cases h2 : l = b <;> simp [h1, h2, hN]

theorem upsampled_intensity_eq (w : Wave n n) (k l : ZMod (n + n)) :
    ((‖upsampledField w k l‖ ^ 2 : ℝ) : ℂ) = ∑ p : ZMod n × ZMod n, ∑ q : ZMod n × ZMod n,
      fftshift2 (ifft2 w) p.1 p.2 * (starRingEnd ℂ) (fftshift2 (ifft2 w) q.1 q.2) *
        (stdAddChar (-(((offset p.1 - offset q.1 : ℤ) : ZMod (n + n)) * k)) *
          stdAddChar (-(((offset p.2 - offset q.2 : ℤ) : ZMod (n + n)) * l))) := by
  rw [upsampledField_eq, norm_mul, norm_mul, stdAddChar_norm, stdAddChar_norm, one_mul, one_mul, norm_sq_sum]
  refine sum_congr rfl fun p _ => sum_congr rfl fun q _ => ?_
  have hc : ∀ a : ZMod (n + n), (starRingEnd ℂ) (stdAddChar a : ℂ) = stdAddChar (-a) := by
    intro a
    rw [stdAddChar_apply, stdAddChar_apply, ← Circle.coe_inv_eq_conj, AddChar.map_neg_eq_inv]
  have hm : ∀ (a b : ℤ) (k : ZMod (n + n)), (stdAddChar (-(((a - b : ℤ) : ZMod (n + n)) * k)) : ℂ) =
      stdAddChar (-((a : ZMod (n + n)) * k)) * stdAddChar (- -((b : ZMod (n + n)) * k)) := by
    intro a b k
    rw [← AddChar.map_add_eq_mul]
    congr 1
    push_cast
    ring
  rw [map_mul, map_mul, hc, hc, hm, hm]
  ring

/-- Blurring is linear. -/
theorem blur_sum {N : ℕ} [NeZero N] {ι : Type} (S : Finset ι) (c : ι → ℂ) (a b : ι → ZMod N)
    (I : ZMod N → ZMod N → ℝ)
    (hI : ∀ k l, (I k l : ℂ) = ∑ r ∈ S, c r * (stdAddChar (-(a r * k)) * stdAddChar (-(b r * l)))) (k l : ZMod N) :
    ifft2 (fun i j => (I i j : ℂ)) k l = ∑ r ∈ S, c r * if k = a r ∧ l = b r then 1 else 0 := by
  simp only [hI]
  rw [ifft2_eq]
  simp only [mul_sum]
  have : (∑ i, ∑ j, ∑ r ∈ S, (stdAddChar (k * i) * stdAddChar (l * j) *
      (c r * (stdAddChar (-(a r * i)) * stdAddChar (-(b r * j)))) : ℂ)) =
      ∑ r ∈ S, c r * ∑ i, ∑ j, (stdAddChar (k * i) * stdAddChar (l * j) *
      (stdAddChar (-(a r * i)) * stdAddChar (-(b r * j)))) := by
    rw [show (∑ i, ∑ j, ∑ r ∈ S, (stdAddChar (k * i) * stdAddChar (l * j) *
      (c r * (stdAddChar (-(a r * i)) * stdAddChar (-(b r * j)))) : ℂ)) = ∑ i, ∑ r ∈ S, ∑ j, (stdAddChar (k * i) *
      stdAddChar (l * j) * (c r * (stdAddChar (-(a r * i)) * stdAddChar (-(b r * j))))) from
      sum_congr rfl fun i _ => sum_comm, sum_comm]
    refine sum_congr rfl fun r _ => ?_
    rw [mul_sum]
    refine sum_congr rfl fun i _ => ?_
    rw [mul_sum]
    refine sum_congr rfl fun j _ => ?_
    ring
  rw [this, sum_div]
  refine sum_congr rfl fun r _ => ?_
  rw [← ifft2_characters, ifft2_eq, mul_div_assoc]

/-- Blurring and sampling multiply every frequency by the weight of the code. -/
theorem blurred_eq {ι : Type} (S : Finset ι) (c : ι → ℂ) (a b : ι → ℤ)
    (ha : ∀ r ∈ S, -(n : ℤ) < a r ∧ a r < n) (hb : ∀ r ∈ S, -(n : ℤ) < b r ∧ b r < n)
    (I : ZMod (n + n) → ZMod (n + n) → ℝ)
    (hI : ∀ k l, (I k l : ℂ) = ∑ r ∈ S, c r * (stdAddChar (-((a r : ZMod (n + n)) * k)) *
      stdAddChar (-((b r : ZMod (n + n)) * l)))) (u v : ℕ) :
    (everySecond (blurredIntensity I)).px u v = ∑ r ∈ S, c r *
      ((codeWeight n (a r) * codeWeight n (b r) : ℝ) : ℂ) * (ph (a r * u / n) * ph (b r * v / n)) := by
  have hn : (n : ℝ) ≠ 0 := by exact_mod_cast NeZero.ne n
  show blurredIntensity I ((2 * u : ℕ) : ZMod (n + n)) ((2 * v : ℕ) : ZMod (n + n)) = _
  unfold blurredIntensity
  rw [ifftshiftRowsTwice_eq, fft2_eq]
  have h1 : ∀ i j, fftshift2 (ifft2 fun i j => (I i j : ℂ)) i j =
      ∑ r ∈ S, c r * if i = (a r : ZMod (n + n)) + ((n : ℕ) : ZMod (n + n)) ∧
        j = (b r : ZMod (n + n)) + ((n : ℕ) : ZMod (n + n)) then 1 else 0 := by
    intro i j
    unfold fftshift2
    rw [blur_sum S c (fun r => (a r : ZMod (n + n))) (fun r => (b r : ZMod (n + n))) I hI, half_double]
    simp only [sub_eq_iff_eq_add]
  simp only [h1]
  have char : ∀ (d : ℤ) (u : ℕ), (stdAddChar (-(((d : ZMod (n + n)) + ((n : ℕ) : ZMod (n + n))) *
      ((2 * u : ℕ) : ZMod (n + n)))) : ℂ) = ph (d * u / n) := by
    intro d u
    have h2 : ((d : ZMod (n + n)) + ((n : ℕ) : ZMod (n + n))) * ((2 * u : ℕ) : ZMod (n + n)) =
        ((d * (2 * u) : ℤ) : ZMod (n + n)) := by
      have := double_zero n
      push_cast
      linear_combination (u : ZMod (n + n)) * this
    rw [h2, stdAddChar_ph]
    congr 1
    push_cast
    field_simp
    ring
  calc _ = ∑ i : ZMod (n + n), ∑ j : ZMod (n + n), ∑ r ∈ S,
        if i = (a r : ZMod (n + n)) + ((n : ℕ) : ZMod (n + n)) ∧
          j = (b r : ZMod (n + n)) + ((n : ℕ) : ZMod (n + n)) then
          c r * (pixelMask i j : ℂ) * (stdAddChar (-(i * ((2 * u : ℕ) : ZMod (n + n)))) *
            stdAddChar (-(j * ((2 * v : ℕ) : ZMod (n + n))))) else 0 := by
        refine sum_congr rfl fun i _ => sum_congr rfl fun j _ => ?_
        rw [mul_sum, mul_sum]
        refine sum_congr rfl fun r _ => ?_
        split <;> simp
        ring
    _ = ∑ r ∈ S, ∑ i : ZMod (n + n), ∑ j : ZMod (n + n),
        if i = (a r : ZMod (n + n)) + ((n : ℕ) : ZMod (n + n)) ∧
          j = (b r : ZMod (n + n)) + ((n : ℕ) : ZMod (n + n)) then
          c r * (pixelMask i j : ℂ) * (stdAddChar (-(i * ((2 * u : ℕ) : ZMod (n + n)))) *
            stdAddChar (-(j * ((2 * v : ℕ) : ZMod (n + n))))) else 0 := by
        exact (sum_congr rfl fun i _ => sum_comm).trans sum_comm
    _ = _ := by
        refine sum_congr rfl fun r hr => ?_
        rw [sum_eq_single ((a r : ZMod (n + n)) + ((n : ℕ) : ZMod (n + n)))
          (fun i _ hi => sum_eq_zero fun j _ => if_neg fun h => hi h.1) (fun h => absurd (mem_univ _) h),
          sum_eq_single ((b r : ZMod (n + n)) + ((n : ℕ) : ZMod (n + n)))
          (fun j _ hj => if_neg fun h => hj h.2) (fun h => absurd (mem_univ _) h), if_pos ⟨rfl, rfl⟩,
          mask_value _ _ (ha r hr).1 (ha r hr).2 (hb r hr).1 (hb r hr).2, char, char]

theorem offset_sub (i j : ZMod n) : -(n : ℤ) < offset i - offset j ∧ offset i - offset j < n := by
  have := offset_bounds i
  have := offset_bounds j
  omega

/-- **C82.** For square detectors: what the code computes. -/
theorem finite_pixels_eq (modes : List (Wave n n)) (u v : ℕ) :
    (finitePixels modes).px u v = (modes.map fun w => weighted (codeWeight n) w u v).sum := by
  unfold finitePixels
  rw [blurred_eq (univ : Finset (Fin modes.length × ((ZMod n × ZMod n) × (ZMod n × ZMod n))))
    (fun r => fftshift2 (ifft2 modes[r.1]) r.2.1.1 r.2.1.2 *
      (starRingEnd ℂ) (fftshift2 (ifft2 modes[r.1]) r.2.2.1 r.2.2.2))
    (fun r => offset r.2.1.1 - offset r.2.2.1) (fun r => offset r.2.1.2 - offset r.2.2.2)
    (fun r _ => offset_sub _ _) (fun r _ => offset_sub _ _)]
  · rw [Fintype.sum_prod_type, ← Fin.sum_univ_fun_getElem]
    refine sum_congr rfl fun k _ => ?_
    rw [Fintype.sum_prod_type]
    rfl
  · intro k l
    rw [Fintype.sum_prod_type, ← Fin.sum_univ_fun_getElem]
    rw [Complex.ofReal_sum]
    refine sum_congr rfl fun i _ => ?_
    conv_rhs => rw [Fintype.sum_prod_type]
    exact upsampled_intensity_eq _ _ _

/-! ### How good this is -/

theorem tsinc_lipschitz (a b : ℝ) : |tsinc a - tsinc b| ≤ Real.pi * |a - b| := by
  have h : ∀ c : ℝ, (tsinc c : ℂ) = ∫ s in (-(1 / 2 : ℝ))..(1 / 2), ph (c * s) := by
    intro c
    have := integral_ph c 0
    simp only [zero_sub, zero_add, mul_zero, ph_zero, mul_one] at this
    exact this.symm
  have cont : ∀ c : ℝ, Continuous fun t : ℝ => ph (c * t) := fun c => continuous_ph.comp (by fun_prop)
  have e : ((tsinc a - tsinc b : ℝ) : ℂ) = ∫ s in (-(1 / 2 : ℝ))..(1 / 2), (ph (a * s) - ph (b * s)) := by
    rw [intervalIntegral.integral_sub ((cont a).intervalIntegrable _ _) ((cont b).intervalIntegrable _ _), ← h, ← h]
    push_cast; rfl
  have hb : ∀ s ∈ Set.uIoc (-(1 / 2 : ℝ)) (1 / 2), ‖ph (a * s) - ph (b * s)‖ ≤ Real.pi * |a - b| := by
    intro s hs
    rw [Set.uIoc_of_le (by norm_num)] at hs
    have hs' : |s| ≤ 1 / 2 := abs_le.2 ⟨hs.1.le, hs.2⟩
    have h1 : ph (a * s) - ph (b * s) = ph (b * s) * (Complex.exp (((-(2 * Real.pi * ((a - b) * s)) : ℝ) : ℂ) * Complex.I) - 1) := by
      have : ph (a * s) = ph (b * s) * ph ((a - b) * s) := by rw [← ph_add]; congr 1; ring
      rw [this]; unfold ph; ring
    rw [h1, norm_mul, ph_norm, one_mul, mul_comm _ Complex.I]
    refine (Real.norm_exp_I_mul_ofReal_sub_one_le).trans ?_
    rw [Real.norm_eq_abs, abs_neg, abs_mul, abs_mul, abs_mul, abs_of_pos Real.pi_pos, abs_of_pos (by norm_num : (0 : ℝ) < 2)]
    nlinarith [mul_nonneg Real.pi_pos.le (abs_nonneg (a - b))]
  have := intervalIntegral.norm_integral_le_of_norm_le_const hb
  rw [← e, Complex.norm_real, Real.norm_eq_abs] at this
  refine this.trans (le_of_eq ?_)
  norm_num

theorem tsinc_abs_le (a : ℝ) : |tsinc a| ≤ 1 := Real.abs_sinc_le_one _

/-- The weights of the code are close to the right ones. -/
theorem codeWeight_close (d : ℤ) (h : -(n : ℤ) < d) (h' : d < n) :
    |codeWeight n d - tsinc (d / n)| ≤ Real.pi / n := by
  have hn : (1 : ℝ) ≤ n := by exact_mod_cast Nat.one_le_iff_ne_zero.2 (NeZero.ne n)
  have h1 : (0 : ℝ) < 2 * n - 1 := by linarith
  refine (tsinc_lipschitz _ _).trans ?_
  have e : ((2 * (d : ℝ) + 1) / (2 * n - 1) - d / n) = (n + d) / ((2 * n - 1) * n) := by
    field_simp; ring
  rw [e]
  have hd : (0 : ℝ) ≤ n + d := by exact_mod_cast (by omega : (0 : ℤ) ≤ n + d)
  have hd' : (n : ℝ) + d ≤ 2 * n - 1 := by
    have : (n : ℤ) + d + 1 ≤ 2 * n := by omega
    have : ((n : ℝ) + d + 1) ≤ 2 * n := by exact_mod_cast this
    linarith
  rw [abs_of_nonneg (by positivity), div_eq_mul_one_div Real.pi]
  refine mul_le_mul_of_nonneg_left ?_ Real.pi_pos.le
  rw [div_le_div_iff₀ (by positivity) (by linarith)]
  nlinarith

theorem weighted_close (w : Wave n n) (u v : ℕ) :
    ‖weighted (codeWeight n) w u v - weighted (fun d => tsinc (d / n)) w u v‖ ≤
      2 * Real.pi / n * (∑ i, ∑ j, ‖ifft2 w i j‖) ^ 2 := by
  have hr : ∑ i, ∑ j, ‖ifft2 w i j‖ = ∑ p : ZMod n × ZMod n, ‖fftshift2 (ifft2 w) p.1 p.2‖ := by
    rw [Fintype.sum_prod_type]
    unfold fftshift2
    simp only [sub_eq_add_neg]
    exact (sum_roll (fun i j => ‖ifft2 w i j‖) _ _).symm
  rw [hr]
  unfold weighted
  rw [← sum_sub_distrib, pow_two, sum_mul_sum, mul_sum]
  refine (norm_sum_le _ _).trans (sum_le_sum fun p _ => ?_)
  rw [← sum_sub_distrib, mul_sum]
  refine (norm_sum_le _ _).trans (sum_le_sum fun q _ => ?_)
  rw [← sub_mul, ← mul_sub, norm_mul, norm_mul, norm_mul, norm_mul, ph_norm, ph_norm, ← Complex.ofReal_sub,
    Complex.norm_real, RCLike.norm_conj, Real.norm_eq_abs, mul_one, mul_one, mul_comm]
  refine mul_le_mul_of_nonneg_right ?_ (by positivity)
  have b1 := codeWeight_close (n := n) _ (offset_sub p.1 q.1).1 (offset_sub p.1 q.1).2
  have b2 := codeWeight_close (n := n) _ (offset_sub p.2 q.2).1 (offset_sub p.2 q.2).2
  have l1 : |codeWeight n (offset p.1 - offset q.1)| ≤ 1 := tsinc_abs_le _
  have l2 : |tsinc ((offset p.2 - offset q.2 : ℤ) / n)| ≤ 1 := tsinc_abs_le _
  beta_reduce
  generalize codeWeight n (offset p.1 - offset q.1) = A at *
  generalize codeWeight n (offset p.2 - offset q.2) = B at *
  generalize tsinc ((offset p.1 - offset q.1 : ℤ) / n) = A' at *
  generalize tsinc ((offset p.2 - offset q.2 : ℤ) / n) = B' at *
  calc |A * B - A' * B'| = |A * (B - B') + (A - A') * B'| := by congr 1; ring
    _ ≤ |A * (B - B')| + |(A - A') * B'| := abs_add_le _ _
    _ = |A| * |B - B'| + |A - A'| * |B'| := by rw [abs_mul, abs_mul]
    _ ≤ 1 * (Real.pi / n) + Real.pi / n * 1 :=
        add_le_add (mul_le_mul l1 b2 (abs_nonneg _) zero_le_one)
          (mul_le_mul b1 l2 (abs_nonneg _) ((abs_nonneg _).trans b1))
    _ = 2 * Real.pi / n := by ring

/-- **C82, approximately.** For square detectors the simulated intensity of a pixel (without binning, slice and
saturation) differs from the mean intensity over the area of the pixel at most by `2π/n` times the square of the sum of the
real-space amplitudes. -/
theorem finite_pixels_close_partial (ε : ℝ) (modes : List (Wave n n)) (u v : ℕ) :
    |(finiteIncoherent { epsilon := ε } modes).px u v - ((modes.map fun w => pixelMean w u v).sum + ε)| ≤
      2 * Real.pi / n * (modes.map fun w => (∑ i, ∑ j, ‖ifft2 w i j‖) ^ 2).sum := by
  have e : (finiteIncoherent { epsilon := ε } modes).px u v = ‖(finitePixels modes).px u v‖ + ε := rfl
  have nn : ∀ l : List (Wave n n), 0 ≤ (l.map fun w => pixelMean w u v).sum := by
    intro l
    refine List.sum_nonneg fun x hx => ?_
    obtain ⟨w, -, rfl⟩ := List.mem_map.1 hx
    refine intervalIntegral.integral_nonneg (by linarith) fun s _ => intervalIntegral.integral_nonneg (by linarith) fun t _ => ?_
    positivity
  have key : ∀ l : List (Wave n n), ‖(l.map fun w => weighted (codeWeight n) w u v).sum -
      (((l.map fun w => pixelMean w u v).sum : ℝ) : ℂ)‖ ≤
      2 * Real.pi / n * (l.map fun w => (∑ i, ∑ j, ‖ifft2 w i j‖) ^ 2).sum := by
    intro l
    induction l with
    | nil => simp
    | cons w l ih =>
      simp only [List.map_cons, List.sum_cons, Complex.ofReal_add, mul_add]
      rw [add_sub_add_comm]
      refine (norm_add_le _ _).trans (add_le_add ?_ ih)
      rw [pixelMean_eq]
      exact weighted_close w u v
  rw [e, finite_pixels_eq, add_sub_add_right_eq_sub]
  have h0 : (modes.map fun w => pixelMean w u v).sum = ‖((((modes.map fun w => pixelMean w u v).sum : ℝ)) : ℂ)‖ := by
    rw [Complex.norm_real, Real.norm_of_nonneg (nn modes)]
  rw [h0]
  exact (abs_norm_sub_norm_le _ _).trans (key modes)

/-- **C82.** The output has the shape of the detector exactly if the detector is square. -/
theorem finite_pixels_shape (modes : List (Wave n m)) :
    (finitePixels modes).h = (n + m + 1) / 2 ∧ (finitePixels modes).w = (n + m + 1) / 2 ∧
      ((finitePixels modes).h = n ∧ (finitePixels modes).w = m ↔ n = m) := by
  refine ⟨rfl, rfl, ?_⟩
  show (n + m + 1) / 2 = n ∧ (n + m + 1) / 2 = m ↔ n = m
  omega

/-! ### Total intensity -/

theorem weighted_total (μ : ℤ → ℝ) (w : Wave n n) :
    ∑ u ∈ range n, ∑ v ∈ range n, weighted μ w u v = ((μ 0 ^ 2 * ∑ i, ∑ j, ‖w i j‖ ^ 2 : ℝ) : ℂ) := by
  have hn : (n : ℂ) ≠ 0 := by exact_mod_cast NeZero.ne n
  have chars : ∀ i j : ZMod n, ∑ u ∈ range n, ph ((offset i - offset j : ℤ) * u / n) = if i = j then (n : ℂ) else 0 := by
    intro i j
    have h1 : ∀ u : ℕ, ph ((offset i - offset j : ℤ) * u / n) = stdAddChar ((u : ZMod n) * (j - i)) := by
      intro u
      have := stdAddChar_ph (N := n) ((offset i - offset j) * (u : ℤ))
      rw [show (-(((offset i - offset j) * (u : ℤ) : ℤ) : ZMod n)) = (u : ZMod n) * (j - i) by
        unfold offset
        generalize n / 2 = c
        push_cast; simp; ring] at this
      rw [this]; push_cast; rfl
    simp only [h1]
    rw [← zmod_sum_range fun u : ZMod n => (stdAddChar (u * (j - i)) : ℂ), char_sum]
    by_cases h : i = j
    · subst h; simp
    · rw [if_neg h, if_neg fun h2 => h (sub_eq_zero.1 h2).symm]
  unfold weighted
  have step : ∑ u ∈ range n, ∑ v ∈ range n, ∑ p : ZMod n × ZMod n, ∑ q : ZMod n × ZMod n,
      fftshift2 (ifft2 w) p.1 p.2 * (starRingEnd ℂ) (fftshift2 (ifft2 w) q.1 q.2) *
      ((μ (offset p.1 - offset q.1) * μ (offset p.2 - offset q.2) : ℝ) : ℂ) *
      (ph ((offset p.1 - offset q.1 : ℤ) * u / n) * ph ((offset p.2 - offset q.2 : ℤ) * v / n)) =
      ∑ p : ZMod n × ZMod n, ∑ q : ZMod n × ZMod n,
      fftshift2 (ifft2 w) p.1 p.2 * (starRingEnd ℂ) (fftshift2 (ifft2 w) q.1 q.2) *
      ((μ (offset p.1 - offset q.1) * μ (offset p.2 - offset q.2) : ℝ) : ℂ) *
      ((∑ u ∈ range n, ph ((offset p.1 - offset q.1 : ℤ) * u / n)) *
        ∑ v ∈ range n, ph ((offset p.2 - offset q.2 : ℤ) * v / n)) := by
    simp only [sum_mul_sum]
    simp only [mul_sum]
    rw [sum_congr rfl fun u _ => sum_comm, sum_comm]
    refine sum_congr rfl fun p _ => ?_
    rw [sum_congr rfl fun u _ => sum_comm, sum_comm]
  rw [step]
  simp only [chars]
  have diag : ∀ p : ZMod n × ZMod n, ∑ q : ZMod n × ZMod n,
      fftshift2 (ifft2 w) p.1 p.2 * (starRingEnd ℂ) (fftshift2 (ifft2 w) q.1 q.2) *
      ((μ (offset p.1 - offset q.1) * μ (offset p.2 - offset q.2) : ℝ) : ℂ) *
      ((if p.1 = q.1 then (n : ℂ) else 0) * if p.2 = q.2 then (n : ℂ) else 0) =
      ((μ 0 ^ 2 * ((n : ℝ) * n) * ‖fftshift2 (ifft2 w) p.1 p.2‖ ^ 2 : ℝ) : ℂ) := by
    intro p
    rw [sum_eq_single p]
    · simp only [if_true, sub_self]
      rw [Complex.mul_conj']
      push_cast; ring
    · intro q _ hq
      have : ¬ (p.1 = q.1 ∧ p.2 = q.2) := fun h => hq (Prod.ext h.1.symm h.2.symm)
      by_cases h1 : p.1 = q.1
      · rw [if_neg fun h2 => this ⟨h1, h2⟩]; ring
      · rw [if_neg h1]; ring
    · intro h; exact absurd (mem_univ _) h
  simp only [diag]
  rw [← Complex.ofReal_sum, ← mul_sum, Fintype.sum_prod_type]
  congr 1
  have hp := ifft2_parseval_norm w
  have hr : ∑ i, ∑ j, ‖fftshift2 (ifft2 w) i j‖ ^ 2 = ∑ i, ∑ j, ‖ifft2 w i j‖ ^ 2 := by
    unfold fftshift2
    simp only [sub_eq_add_neg]
    exact sum_roll (fun i j => ‖ifft2 w i j‖ ^ 2) _ _
  rw [hr, ← hp]
  ring

theorem list_sum_comm {ι : Type} (S : Finset ℕ) (l : List ι) (f : ℕ → ℕ → ι → ℂ) :
    ∑ u ∈ S, ∑ v ∈ S, (l.map fun w => f u v w).sum = (l.map fun w => ∑ u ∈ S, ∑ v ∈ S, f u v w).sum := by
  induction l with
  | nil => simp
  | cons w l ih => simp only [List.map_cons, List.sum_cons, sum_add_distrib, ih]

theorem tsinc_lt_one {x : ℝ} (h0 : 0 < x) (h1 : x ≤ 1) : 0 ≤ tsinc x ∧ tsinc x < 1 := by
  have hp := Real.pi_pos
  have : 0 < Real.pi * x := by positivity
  unfold tsinc
  rw [Real.sinc_of_ne_zero this.ne']
  refine ⟨div_nonneg (Real.sin_nonneg_of_nonneg_of_le_pi this.le (by nlinarith)) this.le, ?_⟩
  rw [div_lt_one this]
  exact Real.sin_lt this

/-- **C82, violated part.** The mean intensities over the pixels of a square detector add up to the total intensity of the
wavefield, but the simulated values add up to less: to `sinc²(1/(2n-1))` times the total. -/
theorem finite_pixels_total_violated (modes : List (Wave n n)) :
    (∀ w : Wave n n, ∑ u ∈ range n, ∑ v ∈ range n, pixelMean w u v = ∑ i, ∑ j, ‖w i j‖ ^ 2) ∧
    ∑ u ∈ range n, ∑ v ∈ range n, (finitePixels modes).px u v =
      ((tsinc (1 / (2 * n - 1)) ^ 2 * (modes.map fun w => ∑ i, ∑ j, ‖w i j‖ ^ 2).sum : ℝ) : ℂ) ∧
    tsinc (1 / (2 * n - 1)) ^ 2 < 1 := by
  have hn : (1 : ℝ) ≤ n := by exact_mod_cast Nat.one_le_iff_ne_zero.2 (NeZero.ne n)
  refine ⟨fun w => ?_, ?_, ?_⟩
  · have := weighted_total (fun d => tsinc (d / n)) w
    simp only [← pixelMean_eq] at this
    have h0 : tsinc (((0 : ℤ) : ℝ) / n) = 1 := by simp [tsinc]
    rw [h0, one_pow, one_mul] at this
    exact_mod_cast this
  · simp only [finite_pixels_eq]
    rw [list_sum_comm]
    simp only [weighted_total]
    have h0 : codeWeight n 0 = tsinc (1 / (2 * n - 1)) := by simp [codeWeight]
    rw [h0]
    clear hn
    induction modes with
    | nil => simp
    | cons w l ih =>
      simp only [List.map_cons, List.sum_cons, ih]
      push_cast; ring
  · obtain ⟨a, b⟩ := tsinc_lt_one (x := 1 / (2 * n - 1)) (by apply div_pos one_pos; linarith)
      (by rw [div_le_one (by linarith)]; linarith)
    nlinarith

/-- **C82, violated part.** A flat pattern gets darker in every pixel. -/
theorem finite_pixels_flat_violated (c : ℂ) (hc : c ≠ 0) (ε : ℝ) (u v : ℕ) :
    let w : Wave n n := fun _ _ => c
    (finiteIncoherent { epsilon := ε } [w]).px u v = tsinc (1 / (2 * n - 1)) ^ 2 * ‖c‖ ^ 2 + ε ∧
      (finiteIncoherent { epsilon := ε } [w]).px u v < pixelMean w u v + ε := by
  intro w
  have hn : (1 : ℝ) ≤ n := by exact_mod_cast Nat.one_le_iff_ne_zero.2 (NeZero.ne n)
  have hnc : (n : ℂ) ≠ 0 := by exact_mod_cast NeZero.ne n
  have hy : ∀ i j, fftshift2 (ifft2 w) i j = if i = ((n / 2 : ℕ) : ZMod n) ∧ j = ((n / 2 : ℕ) : ZMod n) then c else 0 := by
    intro i j
    unfold fftshift2
    rw [ifft2_eq]
    have : ∀ k : ZMod n, ∑ l : ZMod n, (stdAddChar ((i - ((n / 2 : ℕ) : ZMod n)) * k) *
        stdAddChar ((j - ((n / 2 : ℕ) : ZMod n)) * l) * w k l : ℂ) =
        stdAddChar (k * (i - ((n / 2 : ℕ) : ZMod n))) * ((∑ l : ZMod n, (stdAddChar (l * (j - ((n / 2 : ℕ) : ZMod n))) : ℂ)) * c) := by
      intro k
      rw [sum_mul, mul_sum]
      refine sum_congr rfl fun l _ => ?_
      rw [mul_comm (j - _) l, mul_comm (i - _) k]
      ring
    simp only [this]
    rw [← sum_mul, char_sum, char_sum]
    simp only [sub_eq_zero]
    by_cases h1 : i = ((n / 2 : ℕ) : ZMod n) <;> by_cases h2 : j = ((n / 2 : ℕ) : ZMod n) <;> simp [h1, h2]
    field_simp
  have hw : ∀ μ : ℤ → ℝ, weighted μ w u v = ((μ 0 ^ 2 * ‖c‖ ^ 2 : ℝ) : ℂ) := by
    intro μ
    unfold weighted
    rw [sum_eq_single (((n / 2 : ℕ) : ZMod n), ((n / 2 : ℕ) : ZMod n)),
      sum_eq_single (((n / 2 : ℕ) : ZMod n), ((n / 2 : ℕ) : ZMod n))]
    · rw [hy, if_pos ⟨rfl, rfl⟩, Complex.mul_conj']
      simp [ph_zero]; ring
    · intro q _ hq
      rw [hy q.1 q.2, if_neg fun h => hq (Prod.ext h.1 h.2)]; simp
    · intro h; exact absurd (mem_univ _) h
    · intro p _ hp
      refine sum_eq_zero fun q _ => ?_
      rw [hy p.1 p.2, if_neg fun h => hp (Prod.ext h.1 h.2)]; simp
    · intro h; exact absurd (mem_univ _) h
  have e : (finiteIncoherent { epsilon := ε } [w]).px u v = ‖(finitePixels [w]).px u v‖ + ε := rfl
  have h0 : codeWeight n 0 = tsinc (1 / (2 * n - 1)) := by simp [codeWeight]
  have e2 : (finiteIncoherent { epsilon := ε } [w]).px u v = tsinc (1 / (2 * n - 1)) ^ 2 * ‖c‖ ^ 2 + ε := by
    rw [e, finite_pixels_eq]
    simp only [List.map_cons, List.map_nil, List.sum_cons, List.sum_nil, add_zero]
    rw [hw, Complex.norm_real, Real.norm_of_nonneg (by positivity), h0]
  refine ⟨e2, ?_⟩
  have hm : pixelMean w u v = ‖c‖ ^ 2 := by
    have := pixelMean_eq w u v
    rw [hw] at this
    have t0 : tsinc (((0 : ℤ) : ℝ) / n) = 1 := by simp [tsinc]
    rw [t0, one_pow, one_mul] at this
    exact_mod_cast this
  rw [e2, hm]
  have := (finite_pixels_total_violated ([] : List (Wave n n))).2.2
  have : 0 < ‖c‖ ^ 2 := by positivity
  nlinarith

/-- **C82, violated part.** `intensity` with finite pixels raises with binning or saturation, and else returns complex
numbers: here is a 2 × 2 wavefield for which they are not even real. -/
theorem finite_intensity_violated :
    (∀ (c : MeasSettings) (w : Wave n m), c.oversampling ≠ 1 ∨ c.saturation.isSome →
      finiteIntensity c w = .error .runtimeError) ∧
    ∃ (w : Wave 2 2) (out : Img ℂ), finiteIntensity {} w = .ok out ∧ (out.px 0 0).im ≠ 0 := by
  refine ⟨fun c w h => by unfold finiteIntensity; rw [if_pos h], ?_⟩
  let y : Wave 2 2 := fun i j => if j = 0 then (if i = 0 then Complex.I else 1) else 0
  refine ⟨fft2 (ifftshift2 y), _, rfl, ?_⟩
  have hy : fftshift2 (ifft2 (fft2 (ifftshift2 y))) = y := by
    rw [ifft2_fft2]
    funext i j
    simp [fftshift2, ifftshift2]
  show ((finitePixels [fft2 (ifftshift2 y)]).px 0 0 + ((1e-7 : ℝ) : ℂ)).im ≠ 0
  rw [finite_pixels_eq, Complex.add_im, Complex.ofReal_im, add_zero]
  simp only [List.map_cons, List.map_nil, List.sum_cons, List.sum_nil, add_zero]
  have hu : (univ : Finset (ZMod 2)) = {0, 1} := rfl
  have o0 : offset (0 : ZMod 2) = -1 := rfl
  have o1 : offset (1 : ZMod 2) = 0 := rfl
  have z10 : (1 : ZMod 2) ≠ 0 := by decide
  have z01 : (0 : ZMod 2) ≠ 1 := by decide
  have m1 : codeWeight 2 1 = 0 := by
    have : (2 * ((1 : ℤ) : ℝ) + 1) / (2 * ((2 : ℕ) : ℝ) - 1) = 1 := by norm_num
    rw [codeWeight, this, tsinc, mul_one, Real.sinc_of_ne_zero Real.pi_ne_zero, Real.sin_pi, zero_div]
  have m0 : codeWeight 2 0 = tsinc (1 / 3) := by
    have : (2 * ((0 : ℤ) : ℝ) + 1) / (2 * ((2 : ℕ) : ℝ) - 1) = 1 / 3 := by norm_num
    rw [codeWeight, this]
  have mm : codeWeight 2 (-1) = tsinc (1 / 3) := by
    have : (2 * ((-1 : ℤ) : ℝ) + 1) / (2 * ((2 : ℕ) : ℝ) - 1) = -(1 / 3) := by norm_num
    rw [codeWeight, this, tsinc, mul_neg, Real.sinc_neg, tsinc]
  have pos : 0 < tsinc (1 / 3) := by
    have hp := Real.pi_pos
    have : 0 < Real.pi * (1 / 3) := by positivity
    rw [tsinc, Real.sinc_of_ne_zero this.ne']
    exact div_pos (Real.sin_pos_of_pos_of_lt_pi this (by linarith)) this
  unfold weighted
  rw [hy]
  simp only [Fintype.sum_prod_type, hu, sum_pair z01, y, z10, if_true, if_false, o0, o1, Nat.cast_zero, mul_zero, zero_div,
    ph_zero, mul_one, map_zero, map_one, zero_mul, add_zero, zero_add, sub_self, Complex.conj_I, one_mul, sub_neg_eq_add,
    zero_sub, m1, m0, mm, Complex.ofReal_zero]
  simp
  rw [m0, mm]
  exact ⟨pos.ne', pos.ne'⟩

/-- **C82.** The simulated intensities depend on the incoherent modes through their mutual coherence only. -/
theorem finite_pixels_coherence {k k' : ℕ} (P : Fin k → Wave n m) (Q : Fin k' → Wave n m)
    (h : mutualCoherence (flatten2 P) = mutualCoherence (flatten2 Q)) (c : MeasSettings) :
    finiteIncoherent c (List.ofFn P) = finiteIncoherent c (List.ofFn Q) := by
  have lin : IsLinearMap ℂ (upsampledField : Wave n m → Wave (n + m) (n + m)) := by
    have l1 : IsLinearMap ℂ (ifftshiftRowsTwice : Wave (n + m) (n + m) → _) := ⟨fun _ _ => rfl, fun _ _ => rfl⟩
    have l2 : IsLinearMap ℂ (padPixels : Wave n m → _) := by
      refine ⟨fun x y => ?_, fun c x => ?_⟩ <;> funext a b <;> simp only [padPixels, Pi.add_apply, Pi.smul_apply, smul_eq_mul] <;>
        split <;> simp
    have h := isLinear_comp isLinear_fft2 (isLinear_comp l1 (isLinear_comp l2 (isLinear_comp isLinear_fftshift2 isLinear_ifft2)))
    exact h
  have key : (fun i j => ((List.ofFn P).map fun w => ‖upsampledField w i j‖ ^ 2).sum) =
      fun i j => ((List.ofFn Q).map fun w => ‖upsampledField w i j‖ ^ 2).sum := by
    funext i j
    rw [List.map_ofFn, List.sum_ofFn, List.map_ofFn, List.sum_ofFn]
    exact sum_modes_of_coherence lin h i j
  unfold finiteIncoherent finitePixels
  rw [key]

end Cdtools
