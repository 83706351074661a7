/-
C40 (fourier_upsample).
-/
import Verif.Props.ImageProc
import Verif.Props.Propagators
import Mathlib.Tactic.Linarith
import Mathlib.Tactic.Ring
import Mathlib.Algebra.BigOperators.Intervals

set_option linter.unusedSectionVars false
set_option linter.unusedSimpArgs false

namespace Cdtools
open Finset ZMod

variable {n m : ℕ} [NeZero n] [NeZero m]

/-- A sum over all indices as a sum over `0, …, n-1`. -/
theorem zmod_sum_range {α : Type} [AddCommMonoid α] (f : ZMod n → α) :
    ∑ a : ZMod n, f a = ∑ i ∈ range n, f (i : ZMod n) := by
  refine sum_nbij' (fun a => a.val) (fun i => (i : ZMod n)) ?_ ?_ ?_ ?_ ?_
  · intro a _; exact mem_range.2 a.val_lt
  · intro i _; exact mem_univ _
  · intro a _; simp
  · intro i hi; simp [ZMod.val_natCast, Nat.mod_eq_of_lt (mem_range.1 hi)]
  · intro a _; simp

/-- A sum over a window of a larger array is a sum over the smaller array. -/
theorem zmod_sum_window {α : Type} [AddCommMonoid α] {N : ℕ} [NeZero N] (left : ℕ)
    (h : left + n ≤ N) (f : ZMod N → ZMod n → α) :
    ∑ a : ZMod N, (if left ≤ a.val ∧ a.val < left + n then f a ((a.val - left : ℕ) : ZMod n) else 0) =
      ∑ b : ZMod n, f ((left + b.val : ℕ) : ZMod N) b := by
  rw [zmod_sum_range, zmod_sum_range]
  have h1 : ∀ i ∈ range N, (if left ≤ ((i : ℕ) : ZMod N).val ∧ ((i : ℕ) : ZMod N).val < left + n then
      f (i : ZMod N) ((((i : ℕ) : ZMod N).val - left : ℕ) : ZMod n) else 0) =
      if i ∈ Ico left (left + n) then f (i : ZMod N) ((i - left : ℕ) : ZMod n) else 0 := by
    intro i hi
    rw [ZMod.val_natCast, Nat.mod_eq_of_lt (mem_range.1 hi)]
    simp only [mem_Ico]
  rw [sum_congr rfl h1, sum_ite_mem, inter_eq_right.2 (fun i hi => by
    rw [mem_Ico] at hi; rw [mem_range]; omega), sum_Ico_eq_sum_range, Nat.add_sub_cancel_left]
  refine sum_congr rfl fun i hi => ?_
  rw [Nat.add_sub_cancel_left, ZMod.val_natCast, Nat.mod_eq_of_lt (mem_range.1 hi)]

theorem zmod_sum_window2 {α : Type} [AddCommMonoid α] {N M : ℕ} [NeZero N] [NeZero M] (l0 l1 : ℕ)
    (h0 : l0 + n ≤ N) (h1 : l1 + m ≤ M) (f : ZMod N → ZMod M → ZMod n → ZMod m → α) :
    ∑ a : ZMod N, ∑ b : ZMod M,
      (if l0 ≤ a.val ∧ a.val < l0 + n ∧ l1 ≤ b.val ∧ b.val < l1 + m then
        f a b ((a.val - l0 : ℕ) : ZMod n) ((b.val - l1 : ℕ) : ZMod m) else 0) =
      ∑ i : ZMod n, ∑ j : ZMod m, f ((l0 + i.val : ℕ) : ZMod N) ((l1 + j.val : ℕ) : ZMod M) i j := by
  rw [← zmod_sum_window l0 h0 fun a i =>
    ∑ j : ZMod m, f a ((l1 + j.val : ℕ) : ZMod M) i j]
  refine sum_congr rfl fun a _ => ?_
  by_cases ha : l0 ≤ a.val ∧ a.val < l0 + n
  · rw [if_pos ha, ← zmod_sum_window l1 h1 fun b j => f a b ((a.val - l0 : ℕ) : ZMod n) j]
    refine sum_congr rfl fun b _ => ?_
    simp [ha.1, ha.2]
  · rw [if_neg ha]
    refine sum_eq_zero fun b _ => if_neg fun hc => ha ⟨hc.1, hc.2.1⟩

theorem inverseFarField_eq (w : Wave n m) (x : ZMod n) (y : ZMod m) :
    inverseFarField w x y = (∑ k, ∑ l,
      stdAddChar ((x - ((n / 2 : ℕ) : ZMod n)) * (k - ((n / 2 : ℕ) : ZMod n))) *
      stdAddChar ((y - ((m / 2 : ℕ) : ZMod m)) * (l - ((m / 2 : ℕ) : ZMod m))) * w k l) /
      (n * m) * Real.sqrt (n * m) := by
  simp only [inverseFarField, fftshift2, ifft2_eq, ifftshift2]
  congr 2
  rw [← sum_roll (fun k l => stdAddChar ((x - ((n / 2 : ℕ) : ZMod n)) * (k - ((n / 2 : ℕ) : ZMod n))) *
      stdAddChar ((y - ((m / 2 : ℕ) : ZMod m)) * (l - ((m / 2 : ℕ) : ZMod m))) * w k l)
      ((n / 2 : ℕ) : ZMod n) ((m / 2 : ℕ) : ZMod m)]
  simp

/-- The sum of all pixels is the zero-frequency entry, up to normalization. -/
theorem farField_sum (w : Wave n m) :
    farField w ((n / 2 : ℕ) : ZMod n) ((m / 2 : ℕ) : ZMod m) * Real.sqrt (n * m) =
      ∑ i, ∑ j, w i j := by
  have hpos : (0 : ℝ) < n * m := by
    have := Nat.pos_of_ne_zero (NeZero.ne n); have := Nat.pos_of_ne_zero (NeZero.ne m); positivity
  have hne : ((Real.sqrt (n * m) : ℝ) : ℂ) ≠ 0 := by
    rw [Complex.ofReal_ne_zero]; exact (Real.sqrt_pos.2 hpos).ne'
  simp only [farField, fftshift2, sub_self, fft2_eq, ifftshift2]
  rw [div_mul_cancel₀ _ hne]
  rw [← sum_roll w ((n / 2 : ℕ) : ZMod n) ((m / 2 : ℕ) : ZMod m)]
  simp

/-- Alignment of the zero frequency: the sizes for which the window placed by `fourier_upsample`
is centred. -/
def Aligned (u n : ℕ) : Prop := Even n ∨ Odd u

theorem aligned_left {u n : ℕ} (hu : 0 < u) (h : Aligned u n) :
    ((u - 1) * n) / 2 + n / 2 = (u * n) / 2 := by
  obtain ⟨v, rfl⟩ : ∃ v, u = v + 1 := ⟨u - 1, by omega⟩
  rw [Nat.add_sub_cancel, Nat.add_mul, one_mul]
  rcases h with ⟨k, rfl⟩ | ⟨k, hk⟩
  · rw [show v * (k + k) = (v * k) * 2 by ring]
    omega
  · rw [show v = 2 * k by omega, show 2 * k * n = (k * n) * 2 by ring]
    omega

theorem left_le {u n : ℕ} (hu : 0 < u) : ((u - 1) * n) / 2 + n ≤ u * n := by
  obtain ⟨v, rfl⟩ : ∃ v, u = v + 1 := ⟨u - 1, by omega⟩
  rw [Nat.add_sub_cancel, Nat.add_mul, one_mul]
  omega

/-- A character of the large array at a multiple of `u` is one of the small array. -/
theorem char_mul (u : ℕ) [NeZero u] [NeZero (u * n)] (d k : ℤ) :
    (stdAddChar (((u * d : ℤ) : ZMod (u * n)) * ((k : ℤ) : ZMod (u * n))) : ℂ) =
      stdAddChar ((d : ZMod n) * (k : ZMod n)) := by
  rw [← Int.cast_mul, ← Int.cast_mul, stdAddChar_coe, stdAddChar_coe]
  congr 1
  have hu : (u : ℂ) ≠ 0 := by exact_mod_cast NeZero.ne u
  have hn : (n : ℂ) ≠ 0 := by exact_mod_cast NeZero.ne n
  push_cast
  field_simp

/-- The far field of an image at index `left + b` in terms of the offset from the centre. -/
theorem sqrt_ratio (u : ℕ) : Real.sqrt (((u * n : ℕ) : ℝ) * ((u * m : ℕ) : ℝ)) =
    u * Real.sqrt ((n : ℝ) * m) := by
  push_cast
  rw [show (u : ℝ) * n * (u * m) = (u : ℝ) ^ 2 * (n * m) by ring,
    Real.sqrt_mul (by positivity), Real.sqrt_sq (by positivity)]

/-- **C40** (what holds): for even sizes, or odd upsampling factors, `fourier_upsample` interpolates:
the pixel `u * d` away from the centre of the upsampled image is the pixel `d` away from the
centre of the original (divided by `u` unless `preserve_mean`). Missing: odd sizes with even
factors (`fourier_upsample_violated`). -/
theorem fourier_upsample_interpolates_partial (u : ℕ) [NeZero u] (pm : Bool) (im : Wave n m)
    (hn : Aligned u n) (hm : Aligned u m) (d e : ℤ) :
    fourierUpsample u pm im (((u * n / 2 : ℕ) : ZMod (u * n)) + ((u * d : ℤ) : ZMod (u * n)))
        (((u * m / 2 : ℕ) : ZMod (u * m)) + ((u * e : ℤ) : ZMod (u * m))) =
      (if pm then 1 else (u : ℂ)⁻¹) *
        im (((n / 2 : ℕ) : ZMod n) + (d : ZMod n)) (((m / 2 : ℕ) : ZMod m) + (e : ZMod m)) := by
  haveI : NeZero (u * n) := ⟨Nat.mul_ne_zero (NeZero.ne u) (NeZero.ne n)⟩
  haveI : NeZero (u * m) := ⟨Nat.mul_ne_zero (NeZero.ne u) (NeZero.ne m)⟩
  have hu := Nat.pos_of_ne_zero (NeZero.ne u)
  have a0 := aligned_left hu hn
  have a1 := aligned_left hu hm
  have l0 := left_le (n := n) hu
  have l1 := left_le (n := m) hu
  set p : ℂ := if pm then (u : ℂ) else 1 with hp
  conv_rhs => rw [← far_field_unitary.1 im]
  unfold fourierUpsample
  rw [inverseFarField_eq, inverseFarField_eq]
  simp only [add_sub_cancel_left]
  set L0 := (u - 1) * n / 2
  set L1 := (u - 1) * m / 2
  have hw := zmod_sum_window2 (n := n) (m := m) (N := u * n) (M := u * m) L0 L1 l0 l1
    fun a b i j => stdAddChar (((u * d : ℤ) : ZMod (u * n)) * (a - ((u * n / 2 : ℕ) : ZMod (u * n)))) *
      stdAddChar (((u * e : ℤ) : ZMod (u * m)) * (b - ((u * m / 2 : ℕ) : ZMod (u * m)))) *
      (farField im i j * p)
  have hs : (∑ k : ZMod (u * n), ∑ l : ZMod (u * m),
      stdAddChar (((u * d : ℤ) : ZMod (u * n)) * (k - ((u * n / 2 : ℕ) : ZMod (u * n)))) *
      stdAddChar (((u * e : ℤ) : ZMod (u * m)) * (l - ((u * m / 2 : ℕ) : ZMod (u * m)))) *
      ((if L0 ≤ k.val ∧ k.val < L0 + n ∧ L1 ≤ l.val ∧ l.val < L1 + m then
        farField im ((k.val - L0 : ℕ) : ZMod n) ((l.val - L1 : ℕ) : ZMod m) else 0) * p)) =
      p * ∑ i : ZMod n, ∑ j : ZMod m,
        stdAddChar ((d : ZMod n) * (i - ((n / 2 : ℕ) : ZMod n))) *
        stdAddChar ((e : ZMod m) * (j - ((m / 2 : ℕ) : ZMod m))) * farField im i j := by
    calc _ = ∑ k : ZMod (u * n), ∑ l : ZMod (u * m),
          (if L0 ≤ k.val ∧ k.val < L0 + n ∧ L1 ≤ l.val ∧ l.val < L1 + m then
          stdAddChar (((u * d : ℤ) : ZMod (u * n)) * (k - ((u * n / 2 : ℕ) : ZMod (u * n)))) *
          stdAddChar (((u * e : ℤ) : ZMod (u * m)) * (l - ((u * m / 2 : ℕ) : ZMod (u * m)))) *
          (farField im ((k.val - L0 : ℕ) : ZMod n) ((l.val - L1 : ℕ) : ZMod m) * p) else 0) := by
          refine sum_congr rfl fun k _ => sum_congr rfl fun l _ => ?_
          split <;> simp
      _ = _ := by
          rw [hw, mul_sum]
          refine sum_congr rfl fun i _ => ?_
          rw [mul_sum]
          refine sum_congr rfl fun j _ => ?_
          have c0 : (((L0 + i.val : ℕ) : ZMod (u * n)) - ((u * n / 2 : ℕ) : ZMod (u * n))) =
              (((i.val : ℤ) - (n / 2 : ℕ) : ℤ) : ZMod (u * n)) := by
            rw [← a0]
            generalize n / 2 = c
            push_cast; ring
          have c1 : (((L1 + j.val : ℕ) : ZMod (u * m)) - ((u * m / 2 : ℕ) : ZMod (u * m))) =
              (((j.val : ℤ) - (m / 2 : ℕ) : ℤ) : ZMod (u * m)) := by
            rw [← a1]
            generalize m / 2 = c
            push_cast; ring
          rw [c0, c1, char_mul, char_mul]
          have r0 : ((((i.val : ℤ) - (n / 2 : ℕ) : ℤ)) : ZMod n) = i - ((n / 2 : ℕ) : ZMod n) := by
            generalize n / 2 = c
            push_cast; simp
          have r1 : ((((j.val : ℤ) - (m / 2 : ℕ) : ℤ)) : ZMod m) = j - ((m / 2 : ℕ) : ZMod m) := by
            generalize m / 2 = c
            push_cast; simp
          rw [r0, r1]
          ring
  rw [hs, sqrt_ratio]
  have hu' : (u : ℂ) ≠ 0 := by exact_mod_cast NeZero.ne u
  have hn' : (n : ℂ) ≠ 0 := by exact_mod_cast NeZero.ne n
  have hm' : (m : ℂ) ≠ 0 := by exact_mod_cast NeZero.ne m
  generalize (∑ i : ZMod n, ∑ j : ZMod m, _ : ℂ) = S
  rw [hp]
  push_cast
  cases pm <;> simp <;> field_simp

/-- **C40.** For all sizes and factors `fourier_upsample` preserves the total intensity, and with
`preserve_mean` the mean intensity per pixel (there are `u * u` times as many pixels). -/
theorem fourier_upsample_energy (u : ℕ) [NeZero u] (pm : Bool) (im : Wave n m) :
    (haveI : NeZero (u * n) := ⟨Nat.mul_ne_zero (NeZero.ne u) (NeZero.ne n)⟩
     haveI : NeZero (u * m) := ⟨Nat.mul_ne_zero (NeZero.ne u) (NeZero.ne m)⟩
     power (fourierUpsample u pm im)) = (if pm then (u : ℝ) * u else 1) * power im := by
  have i0 : NeZero (u * n) := ⟨Nat.mul_ne_zero (NeZero.ne u) (NeZero.ne n)⟩
  have i1 : NeZero (u * m) := ⟨Nat.mul_ne_zero (NeZero.ne u) (NeZero.ne m)⟩
  have hu := Nat.pos_of_ne_zero (NeZero.ne u)
  have l0 := left_le (n := n) hu
  have l1 := left_le (n := m) hu
  unfold fourierUpsample
  rw [far_field_unitary.2.2.2.1, ← far_field_unitary.2.2.1 im]
  unfold power
  rw [mul_sum]
  set L0 := (u - 1) * n / 2
  set L1 := (u - 1) * m / 2
  set p : ℂ := if pm then (u : ℂ) else 1 with hp
  have hp2 : ‖p‖ ^ 2 = if pm then (u : ℝ) * u else 1 := by
    rw [hp]; cases pm <;> simp [pow_two]
  rw [← hp2]
  have hw := zmod_sum_window2 (n := n) (m := m) (N := u * n) (M := u * m) L0 L1 l0 l1
    fun _ _ i j => ‖p‖ ^ 2 * ‖farField im i j‖ ^ 2
  simp only [mul_sum]
  rw [← hw]
  refine sum_congr rfl fun a _ => sum_congr rfl fun b _ => ?_
  split
  · rw [norm_mul, mul_pow, mul_comm]
  · simp

/-- The sum of all pixels of an inverse far field is its zero-frequency entry. -/
theorem inverseFarField_sum (w : Wave n m) :
    ∑ i, ∑ j, inverseFarField w i j =
      w ((n / 2 : ℕ) : ZMod n) ((m / 2 : ℕ) : ZMod m) * Real.sqrt (n * m) := by
  rw [← farField_sum, far_field_unitary.2.1]

/-- **C40** (what holds): for even sizes or odd factors, `preserve_mean` preserves the mean pixel
value: the sum over the `u * u` times as many pixels is `u * u` times the sum. -/
theorem fourier_upsample_mean_partial (u : ℕ) [NeZero u] (im : Wave n m)
    (hn : Aligned u n) (hm : Aligned u m) :
    (haveI : NeZero (u * n) := ⟨Nat.mul_ne_zero (NeZero.ne u) (NeZero.ne n)⟩
     haveI : NeZero (u * m) := ⟨Nat.mul_ne_zero (NeZero.ne u) (NeZero.ne m)⟩
     ∑ i, ∑ j, fourierUpsample u true im i j) = (u : ℂ) * u * ∑ i, ∑ j, im i j := by
  have i0 : NeZero (u * n) := ⟨Nat.mul_ne_zero (NeZero.ne u) (NeZero.ne n)⟩
  have i1 : NeZero (u * m) := ⟨Nat.mul_ne_zero (NeZero.ne u) (NeZero.ne m)⟩
  have hu := Nat.pos_of_ne_zero (NeZero.ne u)
  have a0 := aligned_left hu hn
  have a1 := aligned_left hu hm
  have l0 := left_le (n := n) hu
  have l1 := left_le (n := m) hu
  have hn0 := Nat.pos_of_ne_zero (NeZero.ne n)
  have hm0 := Nat.pos_of_ne_zero (NeZero.ne m)
  unfold fourierUpsample
  rw [inverseFarField_sum, ← farField_sum im]
  have v0 : (((u * n / 2 : ℕ) : ZMod (u * n))).val = u * n / 2 := by
    rw [ZMod.val_natCast, Nat.mod_eq_of_lt (by omega)]
  have v1 : (((u * m / 2 : ℕ) : ZMod (u * m))).val = u * m / 2 := by
    rw [ZMod.val_natCast, Nat.mod_eq_of_lt (by omega)]
  rw [v0, v1]
  set L0 := (u - 1) * n / 2
  set L1 := (u - 1) * m / 2
  rw [if_pos (by omega), show u * n / 2 - L0 = n / 2 by omega,
    show u * m / 2 - L1 = m / 2 by omega, sqrt_ratio]
  push_cast
  simp only [if_true]
  ring

/-- **C40 is violated** for odd sizes and even factors: upsampling the one-pixel image `1` by 2 with
`preserve_mean=True` gives an image of mean 0. -/
theorem fourier_upsample_violated :
    ∑ i, ∑ j, fourierUpsample 2 true (fun (_ : ZMod 1) (_ : ZMod 1) => (1 : ℂ)) i j = 0 := by
  have : NeZero (2 * 1) := ⟨by norm_num⟩
  unfold fourierUpsample
  refine (inverseFarField_sum (n := 2 * 1) (m := 2 * 1) _).trans ?_
  rw [if_neg (by decide)]
  simp

/-- Non-vacuity: 4 × 3 images can be upsampled by 3, 4 × 6 images by 2. -/
example : Aligned 3 4 ∧ Aligned 3 3 ∧ Aligned 2 6 ∧ ¬ Aligned 2 3 := by
  unfold Aligned; decide

end Cdtools
