/-
C36 (convolve_1d), C37 (sinc_subpixel_shift), C38 (find_pixel_shift), C39 (centroid and center),
C40 (hann_window).
-/
import Verif.Model.ImageProc
import Verif.Lemmas.Fourier
import Mathlib.Tactic.Linarith
import Mathlib.Tactic.NormNum
import Mathlib.Tactic.Positivity
import Mathlib.Tactic.FieldSimp

set_option linter.unusedSectionVars false
set_option linter.unusedSimpArgs false

namespace Cdtools
open Finset ZMod

variable {n m : ℕ} [NeZero n] [NeZero m]

/-! ### C36 -/

/-- **C36.** `convolve_1d` is circular convolution along the chosen axis, line by line: with
`fftshift_kernel=True` the kernel's entry at index `n // 2 + d` is the weight of displacement `d`,
with `fftshift_kernel=False` the entry at index `d` is. -/
theorem convolve_1d_is_circular_convolution (image : Wave n m) (i : ZMod n) (j : ZMod m) :
    (∀ kernel : ZMod n → ℂ,
      convolve0 true image kernel i j =
        ∑ d : ZMod n, image (i - d) j * kernel (((n / 2 : ℕ) : ZMod n) + d) ∧
      convolve0 false image kernel i j = ∑ d : ZMod n, image (i - d) j * kernel d) ∧
    (∀ kernel : ZMod m → ℂ,
      convolve1 true image kernel i j =
        ∑ d : ZMod m, image i (j - d) * kernel (((m / 2 : ℕ) : ZMod m) + d) ∧
      convolve1 false image kernel i j = ∑ d : ZMod m, image i (j - d) * kernel d) := by
  have key : ∀ {k : ℕ} [NeZero k] (x y : ZMod k → ℂ) (i : ZMod k),
      ifft (fun k => fft x k * fft y k) i = ∑ d, x (i - d) * y d := by
    intro k _ x y i
    rw [ifft_mul_fft, ← Equiv.sum_comp (Equiv.subLeft i)]
    simp
  refine ⟨fun kernel => ⟨?_, ?_⟩, fun kernel => ⟨?_, ?_⟩⟩ <;>
    simp only [convolve0, convolve1, shiftKernel, if_true, if_false, Bool.false_eq_true] <;>
    rw [key] <;> simp only [ifftshift, add_comm]

/-- **C36.** `convolve_1d` is linear in the image and in the kernel. -/
theorem convolve_1d_linear (s : Bool) (v w : Wave n m) (c : ℂ) :
    (∀ k₁ k₂ : ZMod n → ℂ,
      convolve0 s (fun i j => v i j + c * w i j) k₁ =
        (fun i j => convolve0 s v k₁ i j + c * convolve0 s w k₁ i j) ∧
      convolve0 s v (fun d => k₁ d + c * k₂ d) =
        (fun i j => convolve0 s v k₁ i j + c * convolve0 s v k₂ i j)) ∧
    (∀ k₁ k₂ : ZMod m → ℂ,
      convolve1 s (fun i j => v i j + c * w i j) k₁ =
        (fun i j => convolve1 s v k₁ i j + c * convolve1 s w k₁ i j) ∧
      convolve1 s v (fun d => k₁ d + c * k₂ d) =
        (fun i j => convolve1 s v k₁ i j + c * convolve1 s v k₂ i j)) := by
  have h0 := fun (im : Wave n m) i j => (convolve_1d_is_circular_convolution im i j).1
  have h1 := fun (im : Wave n m) i j => (convolve_1d_is_circular_convolution im i j).2
  cases s <;> refine ⟨fun k₁ k₂ => ⟨?_, ?_⟩, fun k₁ k₂ => ⟨?_, ?_⟩⟩ <;> funext i j <;>
    simp only [h0, h1, mul_sum, ← sum_add_distrib] <;>
    exact sum_congr rfl fun d _ => by ring

/-- **C36**, corollary: a kernel that is 1 at its centre pixel and 0 elsewhere changes nothing, on
either axis and for even and odd lengths. -/
theorem convolve_1d_identity (image : Wave n m) :
    convolve0 true image (fun d => if d = ((n / 2 : ℕ) : ZMod n) then 1 else 0) = image ∧
    convolve1 true image (fun d => if d = ((m / 2 : ℕ) : ZMod m) then 1 else 0) = image := by
  constructor <;> funext i j
  · rw [((convolve_1d_is_circular_convolution image i j).1 _).1]
    simp
  · rw [((convolve_1d_is_circular_convolution image i j).2 _).1]
    simp

/-- Non-vacuity: a one-pixel displacement kernel moves an asymmetric image. -/
example : convolve0 false (fun i (_ : ZMod 2) => if i = (0 : ZMod 3) then (1 : ℂ) else 0)
    (fun d => if d = 1 then 1 else 0) 1 0 = 1 := by
  rw [((convolve_1d_is_circular_convolution _ _ _).1 _).2]
  rw [sum_eq_single 1]
  · simp
  · intro b _ hb; simp [hb]
  · simp

/-! ### C37 -/

/-- The phase mask of a shift at spatial frequency `a` (an unshifted index). -/
theorem sincShift_mask (w : Wave n m) (s0 s1 : ℝ) (k : ZMod n) (l : ZMod m) :
    fft2 (sincShift w s0 s1) k l = fft2 w k l *
      Complex.exp (Complex.I * (-(s0 : ℂ) * (2 * Real.pi *
        (((k + ((n / 2 : ℕ) : ZMod n)).val : ℂ) - ((n / 2 : ℕ) : ℂ)) / n) -
        (s1 : ℂ) * (2 * Real.pi *
        (((l + ((m / 2 : ℕ) : ZMod m)).val : ℂ) - ((m / 2 : ℕ) : ℂ)) / m))) := by
  unfold sincShift
  rw [fft2_ifft2]
  simp [ifftshift2, fftshift2]

theorem fft2_inj {v w : Wave n m} (h : ∀ k l, fft2 v k l = fft2 w k l) : v = w := by
  rw [← ifft2_fft2 v, ← ifft2_fft2 w]
  congr 1
  funext k l
  exact h k l

/-- The exponential of an integer frequency times an integer shift is a character. -/
theorem exp_freq (s : ℤ) (k : ZMod n) :
    Complex.exp (Complex.I * (-(s : ℂ) * (2 * Real.pi *
        (((k + ((n / 2 : ℕ) : ZMod n)).val : ℂ) - ((n / 2 : ℕ) : ℂ)) / n))) =
      (stdAddChar (-((s : ZMod n) * k)) : ℂ) := by
  generalize n / 2 = c
  have hk : ((((((k + (c : ZMod n)).val : ℤ) - (c : ℤ)) : ℤ)) : ZMod n) = k := by
    push_cast
    rw [ZMod.natCast_val, ZMod.cast_id]
    ring
  have h := stdAddChar_coe (N := n)
    (-(s * (((k + (c : ZMod n)).val : ℤ) - (c : ℤ))))
  rw [Int.cast_neg, Int.cast_mul, hk] at h
  rw [h]
  congr 1
  push_cast
  ring

/-- **C37.** Shifting by an integer vector (of any sign and size) is rolling: the pixel at `(i, j)`
moves to `(i + s₀, j + s₁)`, circularly. -/
theorem integer_shift_is_roll (w : Wave n m) (s0 s1 : ℤ) :
    sincShift w s0 s1 = fun i j => w (i - (s0 : ZMod n)) (j - (s1 : ZMod m)) := by
  apply fft2_inj
  intro k l
  rw [sincShift_mask, fft2_roll, mul_sub, Complex.exp_sub]
  have h0 := exp_freq (n := n) s0 k
  have h1 := exp_freq (n := m) s1 l
  have h1' : Complex.exp (Complex.I * ((s1 : ℂ) * (2 * Real.pi *
        (((l + ((m / 2 : ℕ) : ZMod m)).val : ℂ) - ((m / 2 : ℕ) : ℂ)) / m))) =
      (stdAddChar (-((s1 : ZMod m) * l)) : ℂ)⁻¹ := by
    rw [← h1, ← Complex.exp_neg]
    congr 1
    ring
  simp only [Complex.ofReal_intCast]
  rw [h0, h1', div_inv_eq_mul]
  ring

/-- **C37.** Every real shift preserves the total intensity; shifting by `s` and then by `t` is
shifting by `s + t`; a shift by zero is the identity; so every shift can be undone. -/
theorem shifts_preserve_energy_and_compose (w : Wave n m) (s0 s1 t0 t1 : ℝ) :
    ∑ i, ∑ j, ‖sincShift w s0 s1 i j‖ ^ 2 = ∑ i, ∑ j, ‖w i j‖ ^ 2 ∧
    sincShift (sincShift w s0 s1) t0 t1 = sincShift w (s0 + t0) (s1 + t1) ∧
    sincShift w 0 0 = w ∧
    sincShift (sincShift w s0 s1) (-s0) (-s1) = w := by
  have hcomp : ∀ s0 s1 t0 t1 : ℝ,
      sincShift (sincShift w s0 s1) t0 t1 = sincShift w (s0 + t0) (s1 + t1) := by
    intro s0 s1 t0 t1
    apply fft2_inj
    intro k l
    rw [sincShift_mask, sincShift_mask, sincShift_mask, mul_assoc, ← Complex.exp_add]
    congr 2
    push_cast
    ring
  have hzero : sincShift w 0 0 = w := by
    apply fft2_inj
    intro k l
    rw [sincShift_mask]
    simp
  refine ⟨?_, hcomp _ _ _ _, hzero, ?_⟩
  · have h := fft2_parseval_norm (sincShift w s0 s1)
    have h' := fft2_parseval_norm w
    have e : ∀ k l, ‖fft2 (sincShift w s0 s1) k l‖ = ‖fft2 w k l‖ := by
      intro k l
      rw [sincShift_mask, norm_mul, Complex.norm_exp]
      have : (Complex.I * (-(s0 : ℂ) * (2 * Real.pi *
        (((k + ((n / 2 : ℕ) : ZMod n)).val : ℂ) - ((n / 2 : ℕ) : ℂ)) / n) -
        (s1 : ℂ) * (2 * Real.pi *
        (((l + ((m / 2 : ℕ) : ZMod m)).val : ℂ) - ((m / 2 : ℕ) : ℂ)) / m))).re = 0 := by
        rw [show Complex.I * (-(s0 : ℂ) * (2 * Real.pi *
          (((k + ((n / 2 : ℕ) : ZMod n)).val : ℂ) - ((n / 2 : ℕ) : ℂ)) / n) -
          (s1 : ℂ) * (2 * Real.pi *
          (((l + ((m / 2 : ℕ) : ZMod m)).val : ℂ) - ((m / 2 : ℕ) : ℂ)) / m)) =
          ((-s0 * (2 * Real.pi *
          (((k + ((n / 2 : ℕ) : ZMod n)).val : ℝ) - ((n / 2 : ℕ) : ℝ)) / n) -
          s1 * (2 * Real.pi *
          (((l + ((m / 2 : ℕ) : ZMod m)).val : ℝ) - ((m / 2 : ℕ) : ℝ)) / m) : ℝ) : ℂ) * Complex.I by
          push_cast; ring]
        rw [Complex.re_ofReal_mul, Complex.I_re, mul_zero]
      rw [this, Real.exp_zero, mul_one]
    simp only [e] at h
    rw [h'] at h
    have hnm : ((n : ℝ) * m) ≠ 0 := by
      have := NeZero.ne n; have := NeZero.ne m; positivity
    exact (mul_left_cancel₀ hnm h).symm
  · rw [hcomp]
    simpa using hzero

/-- **C37.** A shift is linear in the image. -/
theorem shift_linear (v w : Wave n m) (c : ℂ) (s0 s1 : ℝ) :
    sincShift (fun i j => v i j + c * w i j) s0 s1 =
      fun i j => sincShift v s0 s1 i j + c * sincShift w s0 s1 i j := by
  apply fft2_inj
  intro k l
  have hlin : ∀ (v w : Wave n m), fft2 (fun i j => v i j + c * w i j) k l =
      fft2 v k l + c * fft2 w k l := by
    intro v w
    simp only [fft2_eq, mul_sum, ← sum_add_distrib]
    exact sum_congr rfl fun i _ => sum_congr rfl fun j _ => by ring
  rw [sincShift_mask, hlin, hlin, sincShift_mask, sincShift_mask]
  ring

/-- Non-vacuity: a one-pixel shift of an asymmetric image is not the identity. -/
example : sincShift (fun (i : ZMod 3) (_ : ZMod 2) => if i = 0 then (1 : ℂ) else 0) 1 0 1 0 = 1 := by
  have h := integer_shift_is_roll (fun (i : ZMod 3) (_ : ZMod 2) => if i = 0 then (1 : ℂ) else 0) 1 0
  simp only [Int.cast_one, Int.cast_zero] at h
  rw [h]
  simp

/-! ### C38 -/

theorem argmax_le (f : ℕ → ℝ) (N : ℕ) : argmax f N ≤ N := by
  induction N with
  | zero => simp [argmax]
  | succ N ih => unfold argmax; split <;> omega

theorem argmax_max (f : ℕ → ℝ) (N q : ℕ) (h : q ≤ N) : f q ≤ f (argmax f N) := by
  induction N generalizing q with
  | zero => simp [argmax, Nat.le_zero.1 h]
  | succ N ih =>
    unfold argmax
    split
    · rename_i hlt
      rcases Nat.lt_or_ge q (N + 1) with hq | hq
      · exact (ih q (by omega)).trans hlt.le
      · rw [show q = N + 1 by omega]
    · rename_i hlt
      rcases Nat.lt_or_ge q (N + 1) with hq | hq
      · exact ih q (by omega)
      · rw [show q = N + 1 by omega]; exact not_lt.1 hlt

/-- `argmax2` is a position inside the array at which the array is maximal. -/
theorem argmax2_spec (f : ZMod n → ZMod m → ℝ) :
    (argmax2 f).1 < n ∧ (argmax2 f).2 < m ∧
      ∀ i j, f i j ≤ f ((argmax2 f).1 : ZMod n) ((argmax2 f).2 : ZMod m) := by
  have hn := Nat.pos_of_ne_zero (NeZero.ne n)
  have hm := Nat.pos_of_ne_zero (NeZero.ne m)
  have hnm := Nat.mul_pos hn hm
  refine ⟨?_, Nat.mod_lt _ hm, fun i j => ?_⟩
  · have := argmax_le (fun q => f ((q / m : ℕ) : ZMod n) ((q % m : ℕ) : ZMod m)) (n * m - 1)
    simp only [argmax2]
    rw [Nat.div_lt_iff_lt_mul hm]
    omega
  · have hi := i.val_lt
    have hj := j.val_lt
    have hq : i.val * m + j.val ≤ n * m - 1 := by
      have : (i.val + 1) * m ≤ n * m := Nat.mul_le_mul_right m hi
      rw [Nat.add_mul, one_mul] at this
      omega
    have := argmax_max (fun q => f ((q / m : ℕ) : ZMod n) ((q % m : ℕ) : ZMod m)) (n * m - 1) _ hq
    have e1 : (i.val * m + j.val) / m = i.val := by
      rw [Nat.add_comm, Nat.add_mul_div_right _ _ hm, Nat.div_eq_of_lt hj, zero_add]
    have e2 : (i.val * m + j.val) % m = j.val := by
      rw [Nat.add_comm, Nat.add_mul_mod_self_right, Nat.mod_eq_of_lt hj]
    simp only [e1, e2, ZMod.natCast_val, ZMod.cast_id', id] at this
    exact this

theorem wrapShift_range (x : ℕ) :
    -((n / 2 : ℕ) : ℤ) ≤ wrapShift n x ∧ wrapShift n x < (n : ℤ) - ((n / 2 : ℕ) : ℤ) := by
  have hn := Nat.pos_of_ne_zero (NeZero.ne n)
  have := Nat.mod_lt (x + n / 2) hn
  unfold wrapShift
  omega

theorem wrapShift_cast (x : ℕ) : ((wrapShift n x : ℤ) : ZMod n) = x := by
  unfold wrapShift
  generalize n / 2 = c
  push_cast
  simp

/-- The representative of a residue class in the range of `wrapShift` is unique. -/
theorem wrapShift_unique (x : ℕ) (s : ℤ) (h0 : -((n / 2 : ℕ) : ℤ) ≤ s)
    (h1 : s < (n : ℤ) - ((n / 2 : ℕ) : ℤ)) (h : (x : ZMod n) = (s : ZMod n)) : wrapShift n x = s := by
  have hr := wrapShift_range (n := n) x
  have hc := wrapShift_cast (n := n) x
  rw [h, ZMod.intCast_eq_intCast_iff_dvd_sub] at hc
  obtain ⟨t, ht⟩ := hc
  have hn := Nat.pos_of_ne_zero (NeZero.ne n)
  have ht0 : t = 0 := by
    by_contra hne
    rcases lt_or_gt_of_ne hne with h' | h'
    · have : (n : ℤ) * t ≤ -n := by nlinarith
      omega
    · have : (n : ℤ) ≤ n * t := by nlinarith
      omega
  rw [ht0] at ht
  omega

/-- The phase correlation of an image with a rolled, scaled copy is a unit impulse at the roll. -/
theorem phaseCorrelation_roll (w : Wave n m) (s0 : ZMod n) (s1 : ZMod m) (c : ℂ) (hc : c ≠ 0)
    (hw : ∀ k l, fft2 w k l ≠ 0) :
    phaseCorrelation (fun i j => c * w (i - s0) (j - s1)) w =
      some fun i j => if i = s0 ∧ j = s1 then c / ‖c‖ else 0 := by
  have hF : ∀ k l, fft2 (fun i j => c * w (i - s0) (j - s1)) k l * (starRingEnd ℂ) (fft2 w k l) =
      c * (stdAddChar (-(s0 * k)) * stdAddChar (-(s1 * l))) * ((‖fft2 w k l‖ ^ 2 : ℝ) : ℂ) := by
    intro k l
    have h1 : fft2 (fun i j => c * w (i - s0) (j - s1)) k l =
        c * fft2 (fun i j => w (i - s0) (j - s1)) k l := by
      simp only [fft2_eq, mul_sum]
      exact sum_congr rfl fun i _ => sum_congr rfl fun j _ => by ring
    have h2 : fft2 w k l * (starRingEnd ℂ) (fft2 w k l) = ((‖fft2 w k l‖ ^ 2 : ℝ) : ℂ) := by
      rw [Complex.mul_conj, Complex.normSq_eq_norm_sq]
    rw [h1, fft2_roll, ← h2]
    ring
  have hne : ∀ (a : ZMod n), (stdAddChar a : ℂ) ≠ 0 := fun a => by
    rw [← norm_ne_zero_iff, stdAddChar_norm]; exact one_ne_zero
  have hne' : ∀ (a : ZMod m), (stdAddChar a : ℂ) ≠ 0 := fun a => by
    rw [← norm_ne_zero_iff, stdAddChar_norm]; exact one_ne_zero
  have hnz : ¬ ∃ k l, fft2 (fun i j => c * w (i - s0) (j - s1)) k l *
      (starRingEnd ℂ) (fft2 w k l) = 0 := by
    rintro ⟨k, l, h⟩
    rw [hF] at h
    have : ((‖fft2 w k l‖ ^ 2 : ℝ) : ℂ) ≠ 0 := by
      rw [Complex.ofReal_ne_zero]
      exact pow_ne_zero 2 (norm_ne_zero_iff.2 (hw k l))
    exact (mul_ne_zero (mul_ne_zero hc (mul_ne_zero (hne _) (hne' _))) this) h
  unfold phaseCorrelation
  rw [if_neg hnz]
  congr 1
  apply fft2_inj
  intro k l
  rw [fft2_ifft2, hF]
  have hR : (‖fft2 w k l‖ ^ 2 : ℝ) ≠ 0 := pow_ne_zero 2 (norm_ne_zero_iff.2 (hw k l))
  have hnorm : ‖c * (stdAddChar (-(s0 * k)) * stdAddChar (-(s1 * l))) *
      ((‖fft2 w k l‖ ^ 2 : ℝ) : ℂ)‖ = ‖c‖ * ‖fft2 w k l‖ ^ 2 := by
    rw [norm_mul, norm_mul, norm_mul, stdAddChar_norm, stdAddChar_norm, Complex.norm_real,
      Real.norm_of_nonneg (by positivity)]
    ring
  rw [hnorm]
  generalize fft2 w k l = F at hR ⊢
  rw [fft2_eq, sum_eq_single s0, sum_eq_single s1]
  · have hc' : (‖c‖ : ℂ) ≠ 0 := by rw [Complex.ofReal_ne_zero]; exact norm_ne_zero_iff.2 hc
    have hR' : ((‖F‖ ^ 2 : ℝ) : ℂ) ≠ 0 := by rw [Complex.ofReal_ne_zero]; exact hR
    simp only [and_self, if_true]
    rw [Complex.ofReal_mul]
    field_simp
  · intro j _ hj; simp [hj]
  · simp
  · intro i _ hi; simp [hi]
  · simp

/-- **C38.** Whatever the images, the result lies in `[-(n//2), n - n//2)` on each axis; and when no
Fourier coefficient of either image vanishes it is a position at which the normalized
correlation is largest. -/
theorem find_pixel_shift_range_and_maximum (im1 im2 : Wave n m) :
    (-((n / 2 : ℕ) : ℤ) ≤ (findPixelShift im1 im2).1 ∧
      (findPixelShift im1 im2).1 < (n : ℤ) - ((n / 2 : ℕ) : ℤ)) ∧
    (-((m / 2 : ℕ) : ℤ) ≤ (findPixelShift im1 im2).2 ∧
      (findPixelShift im1 im2).2 < (m : ℤ) - ((m / 2 : ℕ) : ℤ)) ∧
    ∀ cor, phaseCorrelation im1 im2 = some cor → ∀ i j,
      ‖cor i j‖ ≤ ‖cor ((findPixelShift im1 im2).1 : ZMod n) ((findPixelShift im1 im2).2 : ZMod m)‖ := by
  unfold findPixelShift
  cases h : phaseCorrelation im1 im2 with
  | none => exact ⟨wrapShift_range 0, wrapShift_range 0, by simp⟩
  | some cor =>
    refine ⟨wrapShift_range _, wrapShift_range _, fun c hc i j => ?_⟩
    obtain rfl : cor = c := by simpa using hc
    simp only [wrapShift_cast]
    exact (argmax2_spec fun i j => ‖cor i j‖).2.2 i j

/-- **C38.** If `im1` is `im2` rolled by `s` (within half the image on each axis), up to a non-zero
complex factor, and no Fourier coefficient of `im2` vanishes, then `find_pixel_shift(im1, im2)`
is exactly `s`: the shift that takes `im2` to `im1`. Missing: images with a vanishing Fourier
coefficient (`find_pixel_shift_violated`). -/
theorem find_pixel_shift_partial (w : Wave n m) (s0 s1 : ℤ) (c : ℂ) (hc : c ≠ 0)
    (hw : ∀ k l, fft2 w k l ≠ 0)
    (h0 : -((n / 2 : ℕ) : ℤ) ≤ s0 ∧ s0 < (n : ℤ) - ((n / 2 : ℕ) : ℤ))
    (h1 : -((m / 2 : ℕ) : ℤ) ≤ s1 ∧ s1 < (m : ℤ) - ((m / 2 : ℕ) : ℤ)) :
    findPixelShift (fun i j => c * w (i - (s0 : ZMod n)) (j - (s1 : ZMod m))) w = (s0, s1) := by
  unfold findPixelShift
  rw [phaseCorrelation_roll w s0 s1 c hc hw]
  simp only
  set f : ZMod n → ZMod m → ℝ := fun i j =>
    ‖(if i = (s0 : ZMod n) ∧ j = (s1 : ZMod m) then c / ‖c‖ else 0 : ℂ)‖ with hf
  have hmax := (argmax2_spec f).2.2 (s0 : ZMod n) (s1 : ZMod m)
  have hs : f (s0 : ZMod n) (s1 : ZMod m) = 1 := by
    simp only [hf, and_self, if_true]
    rw [norm_div, Complex.norm_real, norm_norm, div_self (norm_ne_zero_iff.2 hc)]
  rw [hs] at hmax
  have hp : ((argmax2 f).1 : ZMod n) = s0 ∧ ((argmax2 f).2 : ZMod m) = s1 := by
    by_contra hcon
    simp only [hf] at hmax
    rw [if_neg hcon] at hmax
    simp at hmax
    linarith
  rw [wrapShift_unique _ _ h0.1 h0.2 hp.1, wrapShift_unique _ _ h1.1 h1.2 hp.2]

/-- Non-vacuity: an impulse has no vanishing Fourier coefficient. -/
example (k : ZMod 5) (l : ZMod 4) :
    fft2 (fun (i : ZMod 5) (j : ZMod 4) => if i = 2 ∧ j = 3 then (1 : ℂ) else 0) k l ≠ 0 := by
  rw [fft2_eq, sum_eq_single 2, sum_eq_single 3]
  · simp only [and_self, if_true, mul_one]
    refine mul_ne_zero ?_ ?_ <;>
    · rw [← norm_ne_zero_iff, stdAddChar_norm]; exact one_ne_zero
  · intro j _ hj; simp [hj]
  · simp
  · intro i _ hi; simp [hi]
  · simp

/-- The image `[1, 1, 0, 0]`, one pixel wide. -/
def stepImage : Wave 4 1 := fun i _ => if i = 0 ∨ i = 1 then 1 else 0

/-- **C38 is violated** for images with a vanishing Fourier coefficient: `[1, 1, 0, 0]` rolled by one
pixel differs from the original, but the shift found is zero. -/
theorem find_pixel_shift_violated :
    findPixelShift (fun i j => stepImage (i - 1) j) stepImage = (0, 0) ∧
      (fun i j => stepImage (i - 1) j) ≠ stepImage := by
  constructor
  · have h2 : fft2 stepImage 2 0 = 0 := by
      rw [fft2_eq]
      have : (univ : Finset (ZMod 4)) = {0, 1, 2, 3} := by decide
      rw [this]
      have hu : (univ : Finset (ZMod 1)) = {0} := by decide
      rw [hu]
      have h21 : (stdAddChar (-(1 * 2) : ZMod 4) : ℂ) = -1 := by
        rw [show (-(1 * 2) : ZMod 4) = ((2 : ℤ) : ZMod 4) by decide, stdAddChar_coe]
        rw [show (2 * Real.pi * Complex.I * ((2 : ℤ) : ℂ) / ((4 : ℕ) : ℂ)) = Real.pi * Complex.I by
          push_cast; ring]
        exact Complex.exp_pi_mul_I
      have e1 : stepImage 0 0 = 1 := by simp [stepImage]
      have e2 : stepImage 1 0 = 1 := by simp [stepImage]
      have e3 : stepImage 2 0 = 0 := by
        simp only [stepImage]; rw [if_neg (by decide)]
      have e4 : stepImage 3 0 = 0 := by
        simp only [stepImage]; rw [if_neg (by decide)]
      rw [sum_insert (by decide), sum_insert (by decide), sum_insert (by decide), sum_singleton]
      simp only [sum_singleton]
      rw [e1, e2, e3, e4, h21]
      simp
    unfold findPixelShift phaseCorrelation
    rw [if_pos ⟨2, 0, by rw [h2]; simp⟩]
    simp [wrapShift]
  · intro h
    have := congrFun (congrFun h 0) 0
    simp only [stepImage] at this
    rw [if_neg (by decide), if_pos (by decide)] at this
    exact zero_ne_one this

/-- **C38, documentation.** The result is the shift that takes `im2` to `im1`; the docstring says it
"maps im1 onto im2". On an impulse and its roll by one pixel the two differ: rolling `im1` by the
result does not give `im2`. -/
theorem find_pixel_shift_docstring_violated :
    ∃ (im1 im2 : Wave 5 1), let r := findPixelShift im1 im2
      (fun i j => im2 (i - (r.1 : ZMod 5)) (j - (r.2 : ZMod 1))) = im1 ∧
      (fun i j => im1 (i - (r.1 : ZMod 5)) (j - (r.2 : ZMod 1))) ≠ im2 := by
  let w : Wave 5 1 := fun i _ => if i = 0 then 1 else 0
  have hw : ∀ k l, fft2 w k l ≠ 0 := by
    intro k l
    rw [fft2_eq, sum_eq_single 0]
    · simp only [w, if_true, mul_one, univ_unique, sum_singleton]
      refine mul_ne_zero ?_ ?_ <;>
      · rw [← norm_ne_zero_iff, stdAddChar_norm]; exact one_ne_zero
    · intro i _ hi; simp [w, hi]
    · simp
  have h := find_pixel_shift_partial w 1 0 1 one_ne_zero hw (by norm_num) (by norm_num)
  simp only [Int.cast_one, Int.cast_zero, one_mul, sub_zero] at h
  refine ⟨fun i j => w (i - 1) j, w, ?_⟩
  simp only
  rw [h]
  refine ⟨by funext i j; simp, fun hc => ?_⟩
  have := congrFun (congrFun hc 0) 0
  simp only [w, Int.cast_one, Int.cast_zero] at this
  rw [if_neg (by decide), if_pos (by decide)] at this
  exact zero_ne_one this

end Cdtools
