/-
C57: find_shift (the subpixel search) recovers integer rolls exactly and needs images of at least 30
pixels.
-/
import Verif.Props.Upsample
import Verif.Props.FinitePixels

set_option linter.unusedSectionVars false
set_option linter.unusedSimpArgs false

namespace Cdtools
open Finset ZMod

variable {n m : ℕ} [NeZero n] [NeZero m]

/-- The window around the peak of an impulse is an impulse at its centre. -/
theorem corWindow_impulse (hn : 30 ≤ n) (hm : 30 ≤ m) (s0 s1 : ℤ) (q : ℂ) :
    corWindow (n := n) (m := m)
      (fun i j => if i = (s0 : ZMod n) ∧ j = (s1 : ZMod m) then q else 0) s0 s1 =
      fun a b => if a = 15 ∧ b = 15 then q else 0 := by
  have key : ∀ {k : ℕ} [NeZero k], 30 ≤ k → ∀ (a : ZMod 30) (s : ℤ),
      ((((a.val : ℤ) + s - 15 : ℤ) : ZMod k) = (s : ZMod k) ↔ a = 15) := by
    intro k _ hk a s
    have hlt := a.val_lt
    rw [ZMod.intCast_eq_intCast_iff_dvd_sub]
    constructor
    · rintro ⟨t, ht⟩
      have hz : t = 0 := by
        by_contra hne
        rcases lt_or_gt_of_ne hne with h' | h'
        · have : (k : ℤ) * t ≤ -k := by nlinarith
          omega
        · have : (k : ℤ) ≤ k * t := by nlinarith
          omega
      rw [hz] at ht
      have hv : a.val = 15 := by omega
      have := ZMod.natCast_zmod_val a
      rw [hv] at this
      rw [← this]; rfl
    · rintro rfl
      rw [show (15 : ZMod 30).val = 15 by decide]
      exact ⟨0, by ring⟩
  funext a b
  simp only [corWindow]
  by_cases h : a = 15 ∧ b = 15
  · rw [if_pos h, if_pos ⟨(key hn a s0).2 h.1, (key hm b s1).2 h.2⟩]
  · rw [if_neg h, if_neg fun hc => h ⟨(key hn a s0).1 hc.1, (key hm b s1).1 hc.2⟩]

/-- The interpolation kernel along one axis. -/
noncomputable def kern (R : ℕ) [NeZero (R * 30)] (i : ZMod (R * 30)) : ℂ :=
  ∑ b : ZMod 30, stdAddChar (i * (((b.val : ℤ) - 15 : ℤ) : ZMod (R * 30)))

theorem kern_zero (R : ℕ) [NeZero (R * 30)] : ‖kern R 0‖ = 30 := by
  simp [kern]

theorem kern_lt (R : ℕ) [NeZero (R * 30)] (i : ZMod (R * 30)) (hi : i ≠ 0) : ‖kern R i‖ < 30 := by
  have hz : (stdAddChar i : ℂ) ≠ 1 := by
    intro h
    exact hi (injective_stdAddChar (by rw [h, AddChar.map_zero_eq_one]))
  set z : ℂ := stdAddChar i with hzdef
  have hz1 : ‖z‖ = 1 := stdAddChar_norm i
  have hk : kern R i = stdAddChar (-(15 * i)) * ∑ b ∈ range 30, z ^ b := by
    unfold kern
    rw [zmod_sum_range, mul_sum]
    refine sum_congr rfl fun b hb => ?_
    rw [ZMod.val_natCast, Nat.mod_eq_of_lt (mem_range.1 hb), hzdef, ← AddChar.map_nsmul_eq_pow,
      ← AddChar.map_add_eq_mul]
    congr 1
    push_cast
    rw [nsmul_eq_mul]
    ring
  rw [hk, norm_mul, stdAddChar_norm, one_mul]
  have h2 : ‖1 + z‖ < 2 := by
    have hsq : ‖1 + z‖ ^ 2 = 2 + 2 * z.re := by
      have h1 : z.re ^ 2 + z.im ^ 2 = 1 := by
        have := Complex.normSq_eq_norm_sq z
        rw [hz1, Complex.normSq_apply] at this
        nlinarith
      rw [← Complex.normSq_eq_norm_sq, Complex.normSq_apply]
      simp
      nlinarith
    have hre : z.re < 1 := by
      by_contra hc
      push Not at hc
      have h1 : z.re ^ 2 + z.im ^ 2 = 1 := by
        have := Complex.normSq_eq_norm_sq z
        rw [hz1, Complex.normSq_apply] at this
        nlinarith
      have him : z.im = 0 := by nlinarith [sq_nonneg z.im]
      have hre : z.re = 1 := by nlinarith
      exact hz (Complex.ext (by simpa using hre) (by simpa using him))
    nlinarith [norm_nonneg (1 + z)]
  rw [sum_range_succ' , sum_range_succ']
  rw [add_assoc]
  calc ‖∑ k ∈ range 28, z ^ (k + 1 + 1) + (z ^ (0 + 1) + z ^ 0)‖
      ≤ ‖∑ k ∈ range 28, z ^ (k + 1 + 1)‖ + ‖z ^ (0 + 1) + z ^ 0‖ := norm_add_le _ _
    _ ≤ ∑ k ∈ range 28, ‖z ^ (k + 1 + 1)‖ + ‖z ^ (0 + 1) + z ^ 0‖ := by
        gcongr; exact norm_sum_le _ _
    _ = 28 + ‖1 + z‖ := by
        simp only [norm_pow, hz1, one_pow, sum_const, card_range]
        norm_num [add_comm]
    _ < 30 := by linarith

/-- The upsampled correlation of an impulse. -/
theorem upsampled_impulse (R : ℕ) [NeZero R] [NeZero (R * 30)] (q : ℂ) (i j : ZMod (R * 30)) :
    ifft2 (padWindow R (fftshift2 (fft2 fun (a b : ZMod 30) => if a = 15 ∧ b = 15 then q else 0)))
        (i + ((15 * R : ℕ) : ZMod (R * 30))) (j + ((15 * R : ℕ) : ZMod (R * 30))) =
      q * kern R i * kern R j / (((R * 30 : ℕ) : ℂ) * ((R * 30 : ℕ) : ℂ)) := by
  have hF : ∀ k l : ZMod 30, fft2 (fun (a b : ZMod 30) => if a = 15 ∧ b = 15 then q else 0) k l =
      stdAddChar (-(15 * k)) * stdAddChar (-(15 * l)) * q := by
    intro k l
    rw [fft2_eq, sum_eq_single 15, sum_eq_single 15]
    · simp
    · intro j _ hj; simp [hj]
    · simp
    · intro i _ hi; simp [hi]
    · simp
  rw [ifft2_eq]
  congr 1
  set I := i + ((15 * R : ℕ) : ZMod (R * 30))
  set J := j + ((15 * R : ℕ) : ZMod (R * 30))
  rw [← sum_roll _ (-15 : ZMod (R * 30)) (-15 : ZMod (R * 30))]
  have hR : 0 + 30 ≤ R * 30 := by have := Nat.pos_of_ne_zero (NeZero.ne R); omega
  have hw := zmod_sum_window2 (n := 30) (m := 30) (N := R * 30) (M := R * 30) 0 0 hR hR
    fun k l a b => stdAddChar (I * (k + -15)) * stdAddChar (J * (l + -15)) *
      (stdAddChar (-(15 * (a - 15))) * stdAddChar (-(15 * (b - 15))) * q)
  have hside : ∀ (x : ZMod (R * 30)) (a : ZMod 30),
      (stdAddChar ((x + ((15 * R : ℕ) : ZMod (R * 30))) *
        (((0 + a.val : ℕ) : ZMod (R * 30)) + -15)) : ℂ) *
        stdAddChar (-(15 * (a - 15))) =
      stdAddChar (x * (((a.val : ℤ) - 15 : ℤ) : ZMod (R * 30))) := by
    intro x a
    have h1 : (((0 + a.val : ℕ) : ZMod (R * 30)) + -15) =
        (((a.val : ℤ) - 15 : ℤ) : ZMod (R * 30)) := by push_cast; ring
    rw [h1, add_mul, AddChar.map_add_eq_mul]
    have h2 := char_mul (n := 30) R 15 ((a.val : ℤ) - 15)
    rw [show (((15 * R : ℕ) : ZMod (R * 30))) = (((R : ℤ) * 15 : ℤ) : ZMod (R * 30)) by
      push_cast; ring, h2]
    have h3 : (((((a.val : ℤ) - 15 : ℤ)) : ZMod 30)) = a - 15 := by push_cast; simp
    rw [h3, show ((15 : ℤ) : ZMod 30) = 15 by rfl, mul_assoc, ← AddChar.map_add_eq_mul,
      add_neg_cancel, AddChar.map_zero_eq_one, mul_one]
  calc _ = ∑ k : ZMod (R * 30), ∑ l : ZMod (R * 30),
        (if 0 ≤ k.val ∧ k.val < 0 + 30 ∧ 0 ≤ l.val ∧ l.val < 0 + 30 then
        stdAddChar (I * (k + -15)) * stdAddChar (J * (l + -15)) *
        (stdAddChar (-(15 * (((k.val - 0 : ℕ) : ZMod 30) - 15))) *
          stdAddChar (-(15 * (((l.val - 0 : ℕ) : ZMod 30) - 15))) * q) else 0) := by
        refine sum_congr rfl fun k _ => sum_congr rfl fun l _ => ?_
        simp only [padWindow, neg_add_cancel_right, fftshift2, hF, Nat.zero_le, true_and, zero_add,
          Nat.sub_zero]
        have hh : ((30 / 2 : ℕ) : ZMod 30) = 15 := by decide
        by_cases hk : k.val < 30
        · by_cases hl : l.val < 30
          · simp only [hk, hl, and_self, if_true, hh]
          · simp [hl]
        · simp [hk]
    _ = _ := by
        rw [hw]
        unfold kern
        rw [mul_assoc, sum_mul_sum, mul_sum]
        refine sum_congr rfl fun a _ => ?_
        rw [mul_sum]
        refine sum_congr rfl fun b _ => ?_
        rw [← hside i a, ← hside j b]
        ring

/-- **C57** (what holds): for images of at least 30 × 30 pixels without vanishing Fourier
coefficients, and any resolution, `find_shift(im1, im2)` is exactly the integer vector by which
`im2` was rolled (and multiplied by a non-zero constant) to give `im1`. Missing: smaller images
(`find_shift_small_violated`). -/
theorem find_shift_partial (hn : 30 ≤ n) (hm : 30 ≤ m) (R : ℕ) [NeZero R] (w : Wave n m)
    (s0 s1 : ℤ) (c : ℂ) (hc : c ≠ 0) (hw : ∀ k l, fft2 w k l ≠ 0)
    (h0 : -((n / 2 : ℕ) : ℤ) ≤ s0 ∧ s0 < (n : ℤ) - ((n / 2 : ℕ) : ℤ))
    (h1 : -((m / 2 : ℕ) : ℤ) ≤ s1 ∧ s1 < (m : ℤ) - ((m / 2 : ℕ) : ℤ)) :
    findShift R (fun i j => c * w (i - (s0 : ZMod n)) (j - (s1 : ZMod m))) w =
      .ok ((s0 : ℝ), (s1 : ℝ)) := by
  have hR := Nat.pos_of_ne_zero (NeZero.ne R)
  have i0 : NeZero (R * 30) := ⟨by omega⟩
  unfold findShift
  rw [if_pos (by rw [min_eq_right hn, min_eq_right hm]; omega),
    phaseCorrelation_roll w s0 s1 c hc hw]
  simp only
  rw [if_pos (⟨hn, hm⟩ : 30 ≤ n ∧ 30 ≤ m), find_pixel_shift_partial w s0 s1 c hc hw h0 h1]
  simp only [subpixelShift]
  rw [corWindow_impulse hn hm]
  simp only [upsampled_impulse]
  set q : ℂ := c / ‖c‖ with hq
  have hq1 : ‖q‖ = 1 := by
    rw [hq, norm_div, Complex.norm_real, norm_norm, div_self (norm_ne_zero_iff.2 hc)]
  set f : ZMod (R * 30) → ZMod (R * 30) → ℝ := fun i j =>
    ‖q * kern R i * kern R j / (((R * 30 : ℕ) : ℂ) * ((R * 30 : ℕ) : ℂ))‖ ^ 2 with hf
  obtain ⟨b0, b1, hmax⟩ := argmax2_spec f
  have hmax := hmax 0 0
  have hfe : ∀ i j, f i j = (‖kern R i‖ * ‖kern R j‖) ^ 2 / (((R * 30 : ℕ) : ℝ) ^ 2) ^ 2 := by
    intro i j
    simp only [hf]
    rw [norm_div, norm_mul, norm_mul, hq1, norm_mul, Complex.norm_natCast, one_mul, div_pow]
    congr 1
    ring
  have hD : (0 : ℝ) < (((R * 30 : ℕ) : ℝ) ^ 2) ^ 2 := by positivity
  rw [hfe, hfe, kern_zero, div_le_div_iff_of_pos_right hD] at hmax
  have hle : ∀ i, ‖kern R i‖ ≤ 30 := by
    intro i
    by_cases hi : i = 0
    · rw [hi, kern_zero]
    · exact (kern_lt R i hi).le
  have hprod : (30 : ℝ) * 30 ≤ ‖kern R ((argmax2 f).1 : ZMod (R * 30))‖ *
      ‖kern R ((argmax2 f).2 : ZMod (R * 30))‖ := by
    by_contra hcon
    push Not at hcon
    have hnn : 0 ≤ ‖kern R ((argmax2 f).1 : ZMod (R * 30))‖ *
      ‖kern R ((argmax2 f).2 : ZMod (R * 30))‖ := by positivity
    nlinarith
  have hz0 : ((argmax2 f).1 : ZMod (R * 30)) = 0 := by
    by_contra hne
    have h1 := kern_lt R _ hne
    have h2 := hle ((argmax2 f).2 : ZMod (R * 30))
    nlinarith [norm_nonneg (kern R ((argmax2 f).1 : ZMod (R * 30))),
      norm_nonneg (kern R ((argmax2 f).2 : ZMod (R * 30)))]
  have hz1 : ((argmax2 f).2 : ZMod (R * 30)) = 0 := by
    by_contra hne
    have h1 := kern_lt R _ hne
    have h2 := hle ((argmax2 f).1 : ZMod (R * 30))
    nlinarith [norm_nonneg (kern R ((argmax2 f).1 : ZMod (R * 30))),
      norm_nonneg (kern R ((argmax2 f).2 : ZMod (R * 30)))]
  have w0 : wrapShift (R * 30) (argmax2 f).1 = 0 :=
    wrapShift_unique _ _ (by omega) (by omega) (by rw [hz0]; simp)
  have w1 : wrapShift (R * 30) (argmax2 f).2 = 0 :=
    wrapShift_unique _ _ (by omega) (by omega) (by rw [hz1]; simp)
  rw [w0, w1]
  simp

/-! ### What `find_shift` searches, for arbitrary images -/

/-- The trigonometric (band-limited) interpolation of a 30 × 30 array at a real position: the only combination of the
frequencies -15, …, 14 that has the values of the array at the integer positions (see `trigInterp_int`). -/
noncomputable def trigInterp (w : Wave 30 30) (x y : ℝ) : ℂ :=
  (∑ a : ZMod 30, ∑ b : ZMod 30, Complex.exp (2 * Real.pi * Complex.I * (x * ((a.val : ℂ) - 15)) / 30) *
    Complex.exp (2 * Real.pi * Complex.I * (y * ((b.val : ℂ) - 15)) / 30) * fft2 w (a - 15) (b - 15)) / (30 * 30)

theorem exp_char (R : ℕ) [NeZero R] [NeZero (R * 30)] (i : ℤ) (a : ZMod 30) :
    Complex.exp (2 * Real.pi * Complex.I * ((((i : ℝ) / R : ℝ) : ℂ) * ((a.val : ℂ) - 15)) / 30) =
      stdAddChar ((i : ZMod (R * 30)) * (((a.val : ℤ) - 15 : ℤ) : ZMod (R * 30))) := by
  rw [← Int.cast_mul, stdAddChar_coe]
  congr 1
  have hR : (R : ℂ) ≠ 0 := by exact_mod_cast NeZero.ne R
  push_cast
  field_simp

theorem trigInterp_int (w : Wave 30 30) (i j : ℤ) : trigInterp w i j = w (i : ZMod 30) (j : ZMod 30) := by
  haveI : NeZero (1 * 30) := ⟨by norm_num⟩
  have hx : ∀ (i : ℤ) (a : ZMod 30), Complex.exp (2 * Real.pi * Complex.I * (((i : ℝ) : ℂ) * ((a.val : ℂ) - 15)) / 30) =
      stdAddChar ((i : ZMod 30) * (a - 15)) := by
    intro i a
    have h1 : (i : ZMod 30) * (a - 15) = ((i * ((a.val : ℤ) - 15) : ℤ) : ZMod 30) := by
      push_cast; simp
    rw [h1, stdAddChar_coe]
    congr 1
    push_cast
    ring
  have h := congrFun (congrFun (ifft2_fft2 w) (i : ZMod 30)) (j : ZMod 30)
  rw [← h, ifft2_eq]
  unfold trigInterp
  congr 1
  simp only [hx]
  rw [← sum_roll (fun k l => stdAddChar ((i : ZMod 30) * k) * stdAddChar ((j : ZMod 30) * l) * fft2 w k l) (-15) (-15)]
  simp only [sub_eq_add_neg]

theorem upsampled_window (R : ℕ) [NeZero R] [NeZero (R * 30)] (w : Wave 30 30) (i j : ℤ) :
    ifft2 (padWindow R (fftshift2 (fft2 w))) (i : ZMod (R * 30)) (j : ZMod (R * 30)) =
      trigInterp w ((i : ℝ) / R) ((j : ℝ) / R) / (R : ℂ) ^ 2 := by
  have hR : 0 + 30 ≤ R * 30 := by have := Nat.pos_of_ne_zero (NeZero.ne R); omega
  have hRc : (R : ℂ) ≠ 0 := by exact_mod_cast NeZero.ne R
  rw [ifft2_eq]
  unfold trigInterp
  simp only [exp_char]
  rw [div_div]
  have hden : ((R * 30 : ℕ) : ℂ) * ((R * 30 : ℕ) : ℂ) = 30 * 30 * (R : ℂ) ^ 2 := by push_cast; ring
  rw [hden]
  congr 1
  rw [← sum_roll _ (-15 : ZMod (R * 30)) (-15 : ZMod (R * 30))]
  have hw := zmod_sum_window2 (n := 30) (m := 30) (N := R * 30) (M := R * 30) 0 0 hR hR
    fun k l a b => stdAddChar ((i : ZMod (R * 30)) * (k + -15)) * stdAddChar ((j : ZMod (R * 30)) * (l + -15)) *
      fft2 w (a - 15) (b - 15)
  have h1 : ∀ a : ZMod 30, ((0 + a.val : ℕ) : ZMod (R * 30)) + -15 = (((a.val : ℤ) - 15 : ℤ) : ZMod (R * 30)) := by
    intro a; push_cast; ring
  simp only [h1] at hw
  rw [← hw]
  refine sum_congr rfl fun k _ => sum_congr rfl fun l _ => ?_
  simp only [padWindow, neg_add_cancel_right, fftshift2, Nat.zero_le, true_and, zero_add, Nat.sub_zero, sub_neg_eq_add]
  have hh : ((30 / 2 : ℕ) : ZMod 30) = 15 := by decide
  by_cases hk : k.val < 30
  · by_cases hl : l.val < 30
    · simp only [hk, hl, and_self, if_true, hh, sub_eq_add_neg]
    · simp [hl]
  · simp [hk]

/-- **C57** (any pair of images): the result is within 15 pixels of the maximum `p` of the correlation of whole pixels, is a
multiple of `1 / resolution` away from it, and among all such positions it is one at which the band-limited interpolation
of the correlation around `p` is largest. -/
theorem find_shift_maximum (hn : 30 ≤ n) (hm : 30 ≤ m) (R : ℕ) [NeZero R] (im1 im2 cor : Wave n m)
    (hc : phaseCorrelation im1 im2 = some cor) :
    let p := findPixelShift im1 im2
    let C : Wave 30 30 := fun a b => cor ((p.1 + a.val - 15 : ℤ) : ZMod n) ((p.2 + b.val - 15 : ℤ) : ZMod m)
    ∃ d e : ℤ, findShift R im1 im2 = .ok (p.1 + (d : ℝ) / R, p.2 + (e : ℝ) / R) ∧
      (-(15 * R : ℤ) ≤ d ∧ d < 15 * R) ∧ (-(15 * R : ℤ) ≤ e ∧ e < 15 * R) ∧
      (∀ d' e' : ℤ, ‖trigInterp C (15 + (d' : ℝ) / R) (15 + (e' : ℝ) / R)‖ ≤
        ‖trigInterp C (15 + (d : ℝ) / R) (15 + (e : ℝ) / R)‖) ∧
      ∀ d' e' : ℤ, -15 ≤ d' → d' < 15 → -15 ≤ e' → e' < 15 →
        trigInterp C (15 + (d' : ℝ)) (15 + (e' : ℝ)) = cor ((p.1 + d' : ℤ) : ZMod n) ((p.2 + e' : ℤ) : ZMod m) := by
  intro p C
  have hR := Nat.pos_of_ne_zero (NeZero.ne R)
  have hRr : (R : ℝ) ≠ 0 := by exact_mod_cast NeZero.ne R
  have i0 : NeZero (R * 30) := ⟨by omega⟩
  have hC : corWindow cor p.1 p.2 = C := by
    funext a b
    simp only [corWindow, C]
    rw [add_comm (a.val : ℤ) p.1, add_comm (b.val : ℤ) p.2]
  set f : ZMod (R * 30) → ZMod (R * 30) → ℝ := fun i j =>
    ‖ifft2 (padWindow R (fftshift2 (fft2 C))) (i + ((15 * R : ℕ) : ZMod (R * 30)))
      (j + ((15 * R : ℕ) : ZMod (R * 30)))‖ ^ 2 with hf
  have hfe : ∀ d e : ℤ, f (d : ZMod (R * 30)) (e : ZMod (R * 30)) =
      (‖trigInterp C (15 + (d : ℝ) / R) (15 + (e : ℝ) / R)‖ / (R : ℝ) ^ 2) ^ 2 := by
    intro d e
    have hx : ∀ d : ℤ, (d : ZMod (R * 30)) + ((15 * R : ℕ) : ZMod (R * 30)) =
        ((15 * R + d : ℤ) : ZMod (R * 30)) := by
      intro d; push_cast; ring
    have hy : ∀ d : ℤ, ((15 * R + d : ℤ) : ℝ) / R = 15 + (d : ℝ) / R := by
      intro d; push_cast; field_simp
    simp only [hf]
    rw [hx, hx, upsampled_window, hy, hy, norm_div, norm_pow, Complex.norm_natCast]
  refine ⟨wrapShift (R * 30) (argmax2 f).1, wrapShift (R * 30) (argmax2 f).2, ?_, ?_, ?_, ?_, ?_⟩
  · unfold findShift
    rw [if_pos (by rw [min_eq_right hn, min_eq_right hm]; omega), hc]
    simp only
    rw [if_pos (⟨hn, hm⟩ : 30 ≤ n ∧ 30 ≤ m)]
    simp only [subpixelShift]
    rw [show corWindow cor (findPixelShift im1 im2).1 (findPixelShift im1 im2).2 = C from hC]
  · have := wrapShift_range (n := R * 30) (argmax2 f).1
    omega
  · have := wrapShift_range (n := R * 30) (argmax2 f).2
    omega
  · intro d' e'
    obtain ⟨-, -, hmax⟩ := argmax2_spec f
    have h := hmax d' e'
    rw [hfe, ← wrapShift_cast (n := R * 30) (argmax2 f).1, ← wrapShift_cast (n := R * 30) (argmax2 f).2, hfe] at h
    have h2 := abs_le_of_sq_le_sq h (by positivity)
    have h3 := (abs_le.1 h2).2
    exact (div_le_div_iff_of_pos_right (by positivity)).1 h3
  · intro d' e' a1 a2 b1 b2
    have h := trigInterp_int C (15 + d') (15 + e')
    push_cast at h
    rw [h]
    have hv : ∀ d : ℤ, -15 ≤ d → d < 15 → (((15 : ZMod 30) + (d : ZMod 30)).val : ℤ) = 15 + d := by
      intro d h1 h2
      have : (15 : ZMod 30) + (d : ZMod 30) = ((15 + d : ℤ) : ZMod 30) := by push_cast; rfl
      rw [this, ZMod.val_intCast]
      omega
    simp only [C]
    rw [hv d' a1 a2, hv e' b1 b2]
    congr 2 <;> ring

/-- **C57 is violated** for small images: with 2 to 29 rows or columns and any resolution from 2 up,
`find_shift` raises for every pair of images. -/
theorem find_shift_small_violated (_ : 2 ≤ n ∧ 2 ≤ m) (h : n < 30 ∨ m < 30) (R : ℕ) [NeZero R] (hR : 2 ≤ R)
    (im1 im2 : Wave n m) : findShift R im1 im2 = .error "RuntimeError" := by
  have hn := Nat.pos_of_ne_zero (NeZero.ne n)
  have hm := Nat.pos_of_ne_zero (NeZero.ne m)
  unfold findShift
  rw [if_neg]
  rintro ⟨ha, hb⟩
  rcases h with h | h
  · rw [min_eq_left h.le] at ha
    have : n * 2 ≤ n * R := Nat.mul_le_mul_left n hR
    omega
  · rw [min_eq_left h.le] at hb
    have : m * 2 ≤ m * R := Nat.mul_le_mul_left m hR
    omega

theorem argmax2_zero (f : ZMod n → ZMod m → ℝ) (h : ∀ i j, f i j ≤ f 0 0) : argmax2 f = (0, 0) := by
  have key : ∀ (g : ℕ → ℝ), (∀ q, g q ≤ g 0) → ∀ L, argmax g L = 0 := by
    intro g hg L
    induction L with
    | zero => rfl
    | succ L ih =>
      unfold argmax
      rw [ih, if_neg (not_lt.2 (hg _))]
  unfold argmax2
  simp only
  rw [key _ fun q => by simpa using h _ _]
  simp

/-- **C57** (resolution 1): for images smaller than 30 pixels along an axis the search with `resolution=1` succeeds and returns the maximum of the correlation of
whole pixels. -/
theorem find_shift_resolution_one (h : ¬ (30 ≤ n ∧ 30 ≤ m)) (im1 im2 cor : Wave n m) (hc : phaseCorrelation im1 im2 = some cor) :
    findShift 1 im1 im2 = .ok (((findPixelShift im1 im2).1 : ℝ), ((findPixelShift im1 im2).2 : ℝ)) := by
  have hn := Nat.pos_of_ne_zero (NeZero.ne n)
  have hm := Nat.pos_of_ne_zero (NeZero.ne m)
  have hmax : ∀ i j, ‖cor i j‖ ≤ ‖cor ((findPixelShift im1 im2).1 : ZMod n) ((findPixelShift im1 im2).2 : ZMod m)‖ := by
    intro i j
    unfold findPixelShift
    rw [hc]
    simp only
    obtain ⟨-, -, hx⟩ := argmax2_spec fun i j => ‖cor i j‖
    rw [wrapShift_cast, wrapShift_cast]
    exact hx i j
  unfold findShift
  rw [if_pos (by constructor <;> omega), hc]
  simp only
  rw [if_neg h]
  generalize findPixelShift im1 im2 = s at hmax
  have i1 : NeZero (min n 30) := ⟨by omega⟩
  have i2 : NeZero (min m 30) := ⟨by omega⟩
  have hmin : ∀ {L : ℕ} [NeZero L] [NeZero (min L 30)] (s : ℤ), ((((15 : ZMod (min L 30)).val : ℤ) + s - 15 : ℤ) : ZMod L) = (s : ZMod L) := by
    intro L _ _ s
    have e : ((15 : ZMod (min L 30)).val) = 15 % min L 30 := by
      rw [← Nat.cast_ofNat (R := ZMod (min L 30)), ZMod.val_natCast]
    rw [e]
    rcases le_or_gt 30 L with h30 | h30
    · rw [min_eq_right h30]
      norm_num
    · rw [min_eq_left h30.le]
      push_cast
      ring
  have hup : ∀ (win : Wave (min n 30) (min m 30)) i j, ‖ifft2 (fun k l => fftshift2 (fft2 win) (k + 15) (l + 15)) i j‖ = ‖win i j‖ := by
    intro win i j
    have e : (fun k l => fftshift2 (fft2 win) (k + 15) (l + 15)) = fun k l => fft2 win (k - (((min n 30 / 2 : ℕ) : ZMod (min n 30)) - 15))
        (l - (((min m 30 / 2 : ℕ) : ZMod (min m 30)) - 15)) := by
      funext k l
      unfold fftshift2
      congr 1 <;> ring
    rw [e, ifft2_roll, norm_mul, norm_mul, ifft2_fft2]
    simp [AddChar.norm_apply]
  have hz : ∀ q : ℕ, 0 < q → wrapShift q 0 = 0 := by
    intro q hq
    have : (0 + q / 2) % q = q / 2 := by rw [Nat.zero_add]; exact Nat.mod_eq_of_lt (by omega)
    simp only [wrapShift, this, sub_self]
  unfold subpixelShiftOne
  simp only [hup]
  rw [argmax2_zero]
  · simp only
    rw [hz _ (by omega), hz _ (by omega)]
    simp
  · intro i j
    rw [zero_add, zero_add, hmin, hmin]
    gcongr
    exact hmax _ _

/-- **C57** (resolution 1, small images): the shift of a rolled copy, multiplied by any constant, is found exactly at every size. -/
theorem find_shift_small_one (h : ¬ (30 ≤ n ∧ 30 ≤ m)) (w : Wave n m) (s0 s1 : ℤ) (c : ℂ) (hc : c ≠ 0) (hw : ∀ k l, fft2 w k l ≠ 0)
    (h0 : -((n / 2 : ℕ) : ℤ) ≤ s0 ∧ s0 < (n : ℤ) - ((n / 2 : ℕ) : ℤ))
    (h1 : -((m / 2 : ℕ) : ℤ) ≤ s1 ∧ s1 < (m : ℤ) - ((m / 2 : ℕ) : ℤ)) :
    findShift 1 (fun i j => c * w (i - (s0 : ZMod n)) (j - (s1 : ZMod m))) w = .ok ((s0 : ℝ), (s1 : ℝ)) := by
  rw [find_shift_resolution_one h _ _ _ (phaseCorrelation_roll w s0 s1 c hc hw), find_pixel_shift_partial w s0 s1 c hc hw h0 h1]

/-- **C57 is violated** for images with a vanishing Fourier coefficient: the quotient is NaN there, so are the
correlation and its interpolation, and `find_shift` returns the zero vector, whatever the images. -/
theorem find_shift_vanishing_violated (hn : 30 ≤ n) (hm : 30 ≤ m) (R : ℕ) [NeZero R] (im1 im2 : Wave n m)
    (h : ∃ k l, fft2 im1 k l = 0 ∨ fft2 im2 k l = 0) : findShift R im1 im2 = .ok (0, 0) := by
  have hR := Nat.pos_of_ne_zero (NeZero.ne R)
  have hc : phaseCorrelation im1 im2 = none := by
    unfold phaseCorrelation
    rw [if_pos]
    obtain ⟨k, l, h⟩ := h
    refine ⟨k, l, ?_⟩
    rcases h with h | h <;> rw [h] <;> simp
  have hw : ∀ q : ℕ, 0 < q → wrapShift q 0 = 0 := by
    intro q hq
    have : (0 + q / 2) % q = q / 2 := by rw [Nat.zero_add]; exact Nat.mod_eq_of_lt (by omega)
    simp only [wrapShift, this, sub_self]
  unfold findShift
  rw [if_pos (by rw [min_eq_right hn, min_eq_right hm]; omega)]
  unfold findPixelShift
  rw [hc]
  simp only [min_eq_right hn, min_eq_right hm]
  rw [hw n (by omega), hw m (by omega), hw _ (by omega)]
  simp

/-- A reachable case: a single bright column, 40 × 30 pixels, compared with its copy rolled by 7 columns: the found shift
is zero. -/
example : findShift 10 (fun (_ : ZMod 40) (j : ZMod 30) => if j - ((7 : ℤ) : ZMod 30) = 0 then (1 : ℂ) else 0)
    (fun _ j => if j = 0 then 1 else 0) = .ok (0, 0) := by
  refine find_shift_vanishing_violated (by norm_num) (by norm_num) 10 _ _ ⟨1, 0, Or.inr ?_⟩
  rw [fft2_eq]
  have : ∀ i : ZMod 40, ∑ j : ZMod 30, ((stdAddChar (-(i * 1)) : ℂ) * stdAddChar (-(j * 0)) * if j = 0 then (1 : ℂ) else 0) =
      stdAddChar (-(i * 1)) := by
    intro i; simp
  simp only [this]
  have h := AddChar.sum_mulShift (-1 : ZMod 40) (ZMod.isPrimitive_stdAddChar 40)
  rw [if_neg (by decide), Nat.cast_zero] at h
  refine Eq.trans (sum_congr rfl fun i _ => ?_) h
  rw [mul_neg]

/-- **C57** (copies): whatever the spectrum, an image of at least 30 × 30 pixels is found unshifted relative to a multiple
of itself. -/
theorem find_shift_copy (hn : 30 ≤ n) (hm : 30 ≤ m) (R : ℕ) [NeZero R] (w : Wave n m) (c : ℂ) (hc : c ≠ 0) :
    findShift R (fun i j => c * w i j) w = .ok (0, 0) := by
  by_cases h : ∀ k l, fft2 w k l ≠ 0
  · have := find_shift_partial hn hm R w 0 0 c hc h (by omega) (by omega)
    simpa using this
  · push Not at h
    obtain ⟨k, l, h⟩ := h
    exact find_shift_vanishing_violated hn hm R _ _ ⟨k, l, Or.inr h⟩

/-- Non-vacuity: an impulse of 40 × 30 pixels rolled by `(-3, 7)`. -/
example : findShift 10 (fun (i : ZMod 40) (j : ZMod 30) =>
      2 * if i - ((-3 : ℤ) : ZMod 40) = 0 ∧ j - ((7 : ℤ) : ZMod 30) = 0 then (1 : ℂ) else 0)
    (fun i j => if i = 0 ∧ j = 0 then 1 else 0) = .ok ((-3 : ℤ), (7 : ℤ)) := by
  refine find_shift_partial (by norm_num) (by norm_num) 10
    (fun i j => if i = 0 ∧ j = 0 then 1 else 0) (-3) 7 2 two_ne_zero ?_ (by norm_num) (by norm_num)
  intro k l
  rw [fft2_eq, sum_eq_single 0, sum_eq_single 0]
  · simp
  · intro j _ hj; simp [hj]
  · simp
  · intro i _ hi; simp [hi]
  · simp

end Cdtools
