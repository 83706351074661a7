/-
C39 (centroid and center) and C40 (hann_window, fourier_upsample).
-/
import Verif.Props.ImageProc
import Mathlib.Tactic.Linarith
import Mathlib.Tactic.Ring
import Mathlib.Analysis.SpecialFunctions.Trigonometric.Bounds

set_option linter.unusedSectionVars false
set_option linter.unusedSimpArgs false

namespace Cdtools
open Finset ZMod

variable {n m : ℕ} [NeZero n] [NeZero m]

/-! ### C39: centroid -/

theorem centroid_eq {im : ZMod n → ZMod m → ℝ} (h : ∑ i, ∑ j, im i j ≠ 0) :
    centroid im = some ((∑ i, ∑ j, (i.val : ℝ) * im i j) / ∑ i, ∑ j, im i j,
      (∑ i, ∑ j, (j.val : ℝ) * im i j) / ∑ i, ∑ j, im i j) := by
  simp only [centroid]
  rw [if_neg h]

/-- **C39.** The centroid of a non-negative image with some signal lies inside the image. -/
theorem centroid_inside (im : ZMod n → ZMod m → ℝ) (hpos : ∀ i j, 0 ≤ im i j)
    (hsome : ∃ i j, im i j ≠ 0) :
    ∃ c, centroid im = some c ∧ 0 ≤ c.1 ∧ c.1 ≤ n - 1 ∧ 0 ≤ c.2 ∧ c.2 ≤ m - 1 := by
  have hsum : 0 < ∑ i, ∑ j, im i j := by
    obtain ⟨i, j, hij⟩ := hsome
    refine sum_pos' (fun i _ => sum_nonneg fun j _ => hpos i j) ⟨i, mem_univ _, ?_⟩
    exact sum_pos' (fun j _ => hpos i j) ⟨j, mem_univ _, lt_of_le_of_ne (hpos i j) (Ne.symm hij)⟩
  refine ⟨_, centroid_eq hsum.ne', ?_, ?_, ?_, ?_⟩
  · exact div_nonneg (sum_nonneg fun i _ => sum_nonneg fun j _ =>
      mul_nonneg (Nat.cast_nonneg _) (hpos i j)) hsum.le
  · rw [div_le_iff₀ hsum, mul_sum]
    refine sum_le_sum fun i _ => ?_
    rw [mul_sum]
    refine sum_le_sum fun j _ => mul_le_mul_of_nonneg_right ?_ (hpos i j)
    have : ((i.val + 1 : ℕ) : ℝ) ≤ n := Nat.cast_le.2 i.val_lt
    push_cast at this
    linarith
  · exact div_nonneg (sum_nonneg fun i _ => sum_nonneg fun j _ =>
      mul_nonneg (Nat.cast_nonneg _) (hpos i j)) hsum.le
  · rw [div_le_iff₀ hsum, mul_sum]
    refine sum_le_sum fun i _ => ?_
    rw [mul_sum]
    refine sum_le_sum fun j _ => mul_le_mul_of_nonneg_right ?_ (hpos i j)
    have : ((j.val + 1 : ℕ) : ℝ) ≤ m := Nat.cast_le.2 j.val_lt
    push_cast at this
    linarith

/-- **C39.** Scaling an image by a non-zero factor does not move its centroid. -/
theorem centroid_scale (im : ZMod n → ZMod m → ℝ) (a : ℝ) (ha : a ≠ 0) :
    centroid (fun i j => a * im i j) = centroid im := by
  have h1 : ∑ i, ∑ j, a * im i j = a * ∑ i, ∑ j, im i j := by simp only [mul_sum]
  have h2 : ∑ i : ZMod n, ∑ j, (i.val : ℝ) * (a * im i j) =
      a * ∑ i : ZMod n, ∑ j, (i.val : ℝ) * im i j := by
    simp only [mul_sum]
    exact sum_congr rfl fun i _ => sum_congr rfl fun j _ => by ring
  have h3 : ∑ i : ZMod n, ∑ j, (j.val : ℝ) * (a * im i j) =
      a * ∑ i : ZMod n, ∑ j, (j.val : ℝ) * im i j := by
    simp only [mul_sum]
    exact sum_congr rfl fun i _ => sum_congr rfl fun j _ => by ring
  by_cases h : ∑ i, ∑ j, im i j = 0
  · simp only [centroid, h1, h, mul_zero, if_true]
  · rw [centroid_eq h, centroid_eq (by rw [h1]; exact mul_ne_zero ha h), h1, h2, h3,
      mul_div_mul_left _ _ ha, mul_div_mul_left _ _ ha]

/-- The index of a pixel moved by `s` without wrapping around. -/
theorem val_add_int (i : ZMod n) (s : ℤ) (h0 : 0 ≤ (i.val : ℤ) + s) (h1 : (i.val : ℤ) + s < n) :
    ((i + (s : ZMod n)).val : ℤ) = i.val + s := by
  obtain ⟨k, hk⟩ := Int.eq_ofNat_of_zero_le h0
  have : i + (s : ZMod n) = (k : ZMod n) := by
    have h2 : (((i.val : ℤ) + s : ℤ) : ZMod n) = ((k : ℤ) : ZMod n) := by rw [hk]
    push_cast at h2
    simpa using h2
  rw [this, ZMod.val_natCast, Nat.mod_eq_of_lt (by omega), hk]

/-- **C39.** Translating the content of an image by an integer vector, when nothing wraps around,
moves the centroid by exactly that vector. -/
theorem centroid_translate (im : ZMod n → ZMod m → ℝ) (s0 s1 : ℤ)
    (hin : ∀ i j, im i j ≠ 0 → 0 ≤ (i.val : ℤ) + s0 ∧ (i.val : ℤ) + s0 < n ∧
      0 ≤ (j.val : ℤ) + s1 ∧ (j.val : ℤ) + s1 < m) :
    centroid (fun i j => im (i - (s0 : ZMod n)) (j - (s1 : ZMod m))) =
      (centroid im).map fun c => (c.1 + (s0 : ℝ), c.2 + (s1 : ℝ)) := by
  have h1 : ∑ i, ∑ j, im (i - (s0 : ZMod n)) (j - (s1 : ZMod m)) = ∑ i, ∑ j, im i j := by
    simpa [sub_eq_add_neg] using sum_roll im (-(s0 : ZMod n)) (-(s1 : ZMod m))
  have h2 : ∑ i : ZMod n, ∑ j : ZMod m, (i.val : ℝ) * im (i - (s0 : ZMod n)) (j - (s1 : ZMod m)) =
      (∑ i : ZMod n, ∑ j, (i.val : ℝ) * im i j) + s0 * ∑ i, ∑ j, im i j := by
    rw [← sum_roll (fun (i : ZMod n) (j : ZMod m) =>
      (i.val : ℝ) * im (i - (s0 : ZMod n)) (j - (s1 : ZMod m))) s0 s1]
    simp only [add_sub_cancel_right, mul_sum, ← sum_add_distrib]
    refine sum_congr rfl fun i _ => sum_congr rfl fun j _ => ?_
    by_cases hz : im i j = 0
    · simp [hz]
    · obtain ⟨a, b, -, -⟩ := hin i j hz
      have := val_add_int i s0 a b
      have hc : ((i + (s0 : ZMod n)).val : ℝ) = (i.val : ℝ) + s0 := by exact_mod_cast this
      rw [hc]
      ring
  have h3 : ∑ i : ZMod n, ∑ j : ZMod m, (j.val : ℝ) * im (i - (s0 : ZMod n)) (j - (s1 : ZMod m)) =
      (∑ i : ZMod n, ∑ j, (j.val : ℝ) * im i j) + s1 * ∑ i, ∑ j, im i j := by
    rw [← sum_roll (fun (i : ZMod n) (j : ZMod m) =>
      (j.val : ℝ) * im (i - (s0 : ZMod n)) (j - (s1 : ZMod m))) s0 s1]
    simp only [add_sub_cancel_right, mul_sum, ← sum_add_distrib]
    refine sum_congr rfl fun i _ => sum_congr rfl fun j _ => ?_
    by_cases hz : im i j = 0
    · simp [hz]
    · obtain ⟨-, -, a, b⟩ := hin i j hz
      have := val_add_int j s1 a b
      have hc : ((j + (s1 : ZMod m)).val : ℝ) = (j.val : ℝ) + s1 := by exact_mod_cast this
      rw [hc]
      ring
  by_cases h : ∑ i, ∑ j, im i j = 0
  · have h' : ∑ i, ∑ j, im (i - (s0 : ZMod n)) (j - (s1 : ZMod m)) = 0 := by rw [h1, h]
    simp only [centroid]
    rw [if_pos h, if_pos h']
    rfl
  · rw [centroid_eq h, centroid_eq (by rw [h1]; exact h), h1, h2, h3]
    simp only [Option.map_some]
    congr 2 <;> field_simp

/-- Non-vacuity: a single lit pixel has its centroid on itself. -/
example : centroid (fun (i : ZMod 4) (j : ZMod 5) => if i = 2 ∧ j = 3 then (7 : ℝ) else 0) =
    some (2, 3) := by
  have h : ∀ f : ZMod 4 → ZMod 5 → ℝ, ∑ i, ∑ j, f i j * (if i = 2 ∧ j = 3 then (7 : ℝ) else 0) =
      f 2 3 * 7 := by
    intro f
    rw [sum_eq_single 2, sum_eq_single 3]
    · simp
    · intro j _ hj; simp [hj]
    · simp
    · intro i _ hi; simp [hi]
    · simp
  have h1 := h fun _ _ => 1
  simp only [one_mul] at h1
  rw [centroid_eq (by rw [h1]; norm_num), h1, h fun i _ => (i.val : ℝ), h fun _ j => (j.val : ℝ)]
  have e2 : (2 : ZMod 4).val = 2 := by decide
  have e3 : (3 : ZMod 5).val = 3 := by decide
  rw [e2, e3]
  norm_num

/-! ### C39: center -/

/-- **C39** (`centroid_sq`): the mean position weighted by the squared modulus; it does not depend on the phases nor on
the scale of the image, and it is NaN exactly for the zero image. -/
theorem centroid_sq_value (im : Wave n m) :
    (centroidSq im = none ↔ ∀ i j, im i j = 0) ∧
    (∀ c, centroidSq im = some c → c.1 * (∑ i, ∑ j, Complex.normSq (im i j)) = (∑ i, ∑ j, i.val * Complex.normSq (im i j)) ∧
      c.2 * (∑ i, ∑ j, Complex.normSq (im i j)) = (∑ i, ∑ j, j.val * Complex.normSq (im i j))) ∧
    (∀ u : Wave n m, (∀ i j, ‖u i j‖ = 1) → centroidSq (fun i j => u i j * im i j) = centroidSq im) ∧
    ∀ a : ℂ, a ≠ 0 → centroidSq (fun i j => a * im i j) = centroidSq im := by
  have hz : ∑ i, ∑ j, ‖im i j‖ ^ 2 = 0 ↔ ∀ i j, im i j = 0 := by
    constructor
    · intro h0 i j
      have h1 := (sum_eq_zero_iff_of_nonneg fun i _ => sum_nonneg fun j _ => sq_nonneg ‖im i j‖).1 h0 i (mem_univ i)
      have h2 := (sum_eq_zero_iff_of_nonneg fun j _ => sq_nonneg _).1 h1 j (mem_univ j)
      simpa using h2
    · intro h; simp [h]
  refine ⟨?_, ?_, ?_, ?_⟩
  · rw [← hz]
    unfold centroidSq centroid
    simp
  · intro c hc
    simp only [Complex.normSq_eq_norm_sq]
    unfold centroidSq centroid at hc
    simp only at hc
    split_ifs at hc with h
    obtain rfl := Option.some.inj hc
    exact ⟨div_mul_cancel₀ _ h, div_mul_cancel₀ _ h⟩
  · intro u hu
    unfold centroidSq
    simp only [norm_mul, hu, one_mul]
  · intro a ha
    unfold centroidSq
    simp only [norm_mul, mul_pow]
    exact centroid_scale _ (‖a‖ ^ 2) (by positivity)

theorem toCenter_nonneg (p : Bool) (ims : List (Wave n m)) (i : ZMod n) (j : ZMod m) :
    0 ≤ toCenter p ims i j := by
  unfold toCenter
  apply List.sum_nonneg
  intro x hx
  obtain ⟨w, -, rfl⟩ := List.mem_map.1 hx
  split <;> positivity

theorem toCenter_pos (p : Bool) (ims : List (Wave n m)) (i : ZMod n) (j : ZMod m)
    (h : ∃ w ∈ ims, w i j ≠ 0) : toCenter p ims i j ≠ 0 := by
  obtain ⟨w, hw, hne⟩ := h
  unfold toCenter
  intro h0
  have hle := List.single_le_sum (l := ims.map fun w =>
    if p = true then ‖w i j‖ ^ 2 else ‖w i j‖) (by
      intro x hx
      obtain ⟨w, -, rfl⟩ := List.mem_map.1 hx
      split <;> positivity) _ (List.mem_map.2 ⟨w, hw, rfl⟩)
  rw [h0] at hle
  have := norm_pos_iff.2 hne
  split at hle
  · have := pow_pos this 2
    linarith
  · linarith

theorem sincShift_ne_zero (w : Wave n m) (s0 s1 : ℝ) (h : ∃ i j, w i j ≠ 0) :
    ∃ i j, sincShift w s0 s1 i j ≠ 0 := by
  by_contra hc
  push Not at hc
  obtain ⟨i, j, hij⟩ := h
  have h0 : sincShift w s0 s1 = fun _ _ => 0 := by funext i j; exact hc i j
  have h1 := (shifts_preserve_energy_and_compose w s0 s1 0 0).2.2.2
  rw [h0, sincShift_zero_aux] at h1
  exact hij (by rw [← h1])
where
  sincShift_zero_aux : sincShift (fun (_ : ZMod n) (_ : ZMod m) => (0 : ℂ)) (-s0) (-s1) =
      fun _ _ => 0 := by
    apply fft2_inj
    intro k l
    rw [sincShift_mask]
    simp [fft2_eq]

/-- **C39.** As long as some pixel of some image is lit, `center` succeeds; it shifts all images of
the stack by one and the same vector, so it changes neither the total intensity of any image nor
the number of images. -/
theorem center_common_shift (p : Bool) (k : ℕ) (ims : List (Wave n m))
    (h : ∃ w ∈ ims, ∃ i j, w i j ≠ 0) :
    ∃ t0 t1 : ℝ, center p k ims = some (ims.map fun w => sincShift w t0 t1) ∧
      ∀ w ∈ ims, ∑ i, ∑ j, ‖sincShift w t0 t1 i j‖ ^ 2 = ∑ i, ∑ j, ‖w i j‖ ^ 2 := by
  suffices ∃ t0 t1 : ℝ, center p k ims = some (ims.map fun w => sincShift w t0 t1) by
    obtain ⟨t0, t1, ht⟩ := this
    exact ⟨t0, t1, ht, fun w _ => (shifts_preserve_energy_and_compose w t0 t1 0 0).1⟩
  induction k generalizing ims with
  | zero =>
    refine ⟨0, 0, ?_⟩
    simp only [center]
    congr 1
    symm
    conv_rhs => rw [← List.map_id ims]
    refine List.map_congr_left fun w _ => ?_
    exact (shifts_preserve_energy_and_compose w 0 0 0 0).2.2.1
  | succ k ih =>
    obtain ⟨w, hw, i, j, hij⟩ := h
    obtain ⟨c, hc, -⟩ := centroid_inside (toCenter p ims) (toCenter_nonneg p ims)
      ⟨i, j, toCenter_pos p ims i j ⟨w, hw, hij⟩⟩
    have hs : centerStep p ims =
        some (ims.map fun w => sincShift w (-c.1 + n / 2) (-c.2 + m / 2)) := by
      unfold centerStep; rw [hc]; rfl
    obtain ⟨t0, t1, ht⟩ := ih (ims.map fun w => sincShift w (-c.1 + n / 2) (-c.2 + m / 2))
      ⟨_, List.mem_map.2 ⟨w, hw, rfl⟩, sincShift_ne_zero w _ _ ⟨i, j, hij⟩⟩
    refine ⟨-c.1 + n / 2 + t0, -c.2 + m / 2 + t1, ?_⟩
    simp only [center, hs, Option.bind_some]
    rw [ht, List.map_map]
    congr 1
    refine List.map_congr_left fun w _ => ?_
    exact (shifts_preserve_energy_and_compose w _ _ t0 t1).2.1

/-- **C39.** A stack whose centroid already is at `(n/2, m/2)` is returned unchanged, for any number of
iterations. -/
theorem center_fixed_point (p : Bool) (k : ℕ) (ims : List (Wave n m))
    (h : centroid (toCenter p ims) = some ((n : ℝ) / 2, (m : ℝ) / 2)) :
    center p k ims = some ims := by
  induction k with
  | zero => rfl
  | succ k ih =>
    have hs : centerStep p ims = some ims := by
      unfold centerStep
      rw [h]
      simp only [Option.map_some, neg_add_cancel]
      congr 1
      conv_rhs => rw [← List.map_id ims]
      refine List.map_congr_left fun w _ => ?_
      exact (shifts_preserve_energy_and_compose w 0 0 0 0).2.2.1
    simp only [center, hs, Option.bind_some, ih]

/-- **C39.** If the centroid of the stack is a whole number of pixels away from `(n/2, m/2)` and
moving it there wraps no lit pixel around the edge, then (for any positive number of iterations)
`center` rolls every image by exactly that vector, and the centroid of the result is exactly
`(n/2, m/2)`. -/
theorem center_moves_centroid (p : Bool) (k : ℕ) (ims : List (Wave n m)) (s0 s1 : ℤ)
    (h : centroid (toCenter p ims) = some ((n : ℝ) / 2 - s0, (m : ℝ) / 2 - s1))
    (hin : ∀ w ∈ ims, ∀ i j, w i j ≠ 0 → 0 ≤ (i.val : ℤ) + s0 ∧ (i.val : ℤ) + s0 < n ∧
      0 ≤ (j.val : ℤ) + s1 ∧ (j.val : ℤ) + s1 < m) :
    let out := ims.map fun w => (fun i j => w (i - (s0 : ZMod n)) (j - (s1 : ZMod m)) : Wave n m)
    center p (k + 1) ims = some out ∧
      centroid (toCenter p out) = some ((n : ℝ) / 2, (m : ℝ) / 2) := by
  intro out
  have ht : toCenter p out =
      fun i j => toCenter p ims (i - (s0 : ZMod n)) (j - (s1 : ZMod m)) := by
    funext i j
    simp only [toCenter, out, List.map_map]
    rfl
  have hcen : centroid (toCenter p out) = some ((n : ℝ) / 2, (m : ℝ) / 2) := by
    rw [ht, centroid_translate _ s0 s1, h]
    · simp
    · intro i j hne
      by_contra hc
      apply hne
      unfold toCenter
      refine List.sum_eq_zero fun x hx => ?_
      obtain ⟨w, hw, rfl⟩ := List.mem_map.1 hx
      have : w i j = 0 := by
        by_contra hw0
        exact hc (hin w hw i j hw0)
      simp [this]
  have hs : centerStep p ims = some out := by
    unfold centerStep
    rw [h]
    simp only [Option.map_some]
    congr 1
    refine List.map_congr_left fun w _ => ?_
    have := integer_shift_is_roll w s0 s1
    rw [← this]
    congr 1 <;> ring
  refine ⟨?_, hcen⟩
  simp only [center, hs, Option.bind_some]
  exact center_fixed_point p k out hcen

/-- **C39, documentation.** "Place the centroid on the central pixel" does not hold for odd sizes: an
image whose only lit pixel is the central pixel of a 3 × 1 array is moved. -/
theorem center_central_pixel_violated :
    center true 1 [fun (i : ZMod 3) (_ : ZMod 1) => if i = 1 then (1 : ℂ) else 0] ≠
      some [fun (i : ZMod 3) (_ : ZMod 1) => if i = 1 then (1 : ℂ) else 0] := by
  set w : Wave 3 1 := fun i _ => if i = 1 then 1 else 0 with hw
  have hu3 : (univ : Finset (ZMod 3)) = {0, 1, 2} := by decide
  have hu1 : (univ : Finset (ZMod 1)) = {0} := by decide
  have v0 : toCenter true [w] 0 0 = 0 := by simp [toCenter, hw]
  have v1 : toCenter true [w] 1 0 = 1 := by simp [toCenter, hw]
  have v2 : toCenter true [w] 2 0 = 0 := by
    simp only [toCenter, hw, List.map_cons, List.map_nil, if_true]
    rw [if_neg (by decide)]; simp
  have hsum : ∀ f : ZMod 3 → ZMod 1 → ℝ, ∑ i, ∑ j, f i j * toCenter true [w] i j = f 1 0 := by
    intro f
    rw [hu3, hu1, sum_insert (by decide), sum_insert (by decide), sum_singleton]
    simp only [sum_singleton]
    rw [v0, v1, v2]; ring
  have hone := hsum fun _ _ => 1
  simp only [one_mul] at hone
  have hc : centroid (toCenter true [w]) = some (1, 0) := by
    rw [centroid_eq (by rw [hone]; norm_num), hone, hsum fun i _ => (i.val : ℝ),
      hsum fun _ j => (j.val : ℝ)]
    rw [show (1 : ZMod 3).val = 1 by decide, show (0 : ZMod 1).val = 0 by decide]
    norm_num
  have hs : center true 1 [w] = some [sincShift w (-1 + (3 : ℕ) / 2) (-0 + (1 : ℕ) / 2)] := by
    simp only [center, centerStep, hc, Option.map_some, Option.bind_some, List.map_cons, List.map_nil]
  rw [hs]
  intro heq
  have heq' : sincShift w (-1 + (3 : ℕ) / 2) (-0 + (1 : ℕ) / 2) = w := by simpa using heq
  have hF : fft2 w 1 0 ≠ 0 := by
    rw [fft2_eq, sum_eq_single 1]
    · rw [hu1, sum_singleton]
      simp only [hw, if_true, mul_one]
      refine mul_ne_zero ?_ ?_ <;>
      · rw [← norm_ne_zero_iff, stdAddChar_norm]; exact one_ne_zero
    · intro i _ hi; simp [hw, hi]
    · simp
  have h2 := sincShift_mask w (-1 + (3 : ℕ) / 2) (-0 + (1 : ℕ) / 2) 1 0
  rw [heq'] at h2
  have h3 := mul_left_cancel₀ hF ((mul_one (fft2 w 1 0)).trans h2)
  have e1 : ((1 : ZMod 3) + ((3 / 2 : ℕ) : ZMod 3)).val = 2 := by decide
  have e2 : ((0 : ZMod 1) + ((1 / 2 : ℕ) : ZMod 1)).val = 0 := by decide
  rw [e1, e2] at h3
  have h4 : (1 : ℂ) = Complex.exp (((-(Real.pi / 3) : ℝ) : ℂ) * Complex.I) := by
    rw [h3]
    congr 1
    norm_num
    ring
  have h5 := congrArg Complex.im h4
  rw [Complex.exp_ofReal_mul_I_im, Real.sin_neg] at h5
  have : 0 < Real.sin (Real.pi / 3) := Real.sin_pos_of_pos_of_lt_pi (by positivity)
    (by linarith [Real.pi_pos])
  simp at h5

/-- Non-vacuity for `center_moves_centroid`: a lit pixel at `(0, 1)` of a 4 × 2 array is two
rows away from the centre and is moved there. -/
example : center true 4 [fun (i : ZMod 4) (j : ZMod 2) => if i = 0 ∧ j = 1 then (1 : ℂ) else 0] =
    some [fun (i : ZMod 4) (j : ZMod 2) => if i - 2 = 0 ∧ j = 1 then (1 : ℂ) else 0] := by
  set w : Wave 4 2 := fun i j => if i = 0 ∧ j = 1 then 1 else 0 with hw
  have hsum : ∀ f : ZMod 4 → ZMod 2 → ℝ, ∑ i, ∑ j, f i j * toCenter true [w] i j = f 0 1 := by
    intro f
    rw [sum_eq_single 0, sum_eq_single 1]
    · simp [toCenter, hw]
    · intro j _ hj; simp [toCenter, hw, hj]
    · simp
    · intro i _ hi; simp [toCenter, hw, hi]
    · simp
  have hone := hsum fun _ _ => 1
  simp only [one_mul] at hone
  have hc : centroid (toCenter true [w]) = some (((4 : ℕ) : ℝ) / 2 - ((2 : ℤ) : ℝ), ((2 : ℕ) : ℝ) / 2 - ((0 : ℤ) : ℝ)) := by
    rw [centroid_eq (by rw [hone]; norm_num), hone, hsum fun i _ => (i.val : ℝ),
      hsum fun _ j => (j.val : ℝ)]
    rw [show (0 : ZMod 4).val = 0 by decide, show (1 : ZMod 2).val = 1 by decide]
    norm_num
  have := (center_moves_centroid true 3 [w] 2 0 hc (by
    intro v hv i j hne
    obtain rfl : v = w := by simpa using hv
    simp only [hw] at hne
    have hij : i = 0 ∧ j = 1 := by by_contra h; exact hne (if_neg h)
    rw [hij.1, hij.2]
    decide)).1
  rw [this]
  simp [hw]

/-! ### C40: hann_window -/

/-- **C40** (what holds): on a square image the window leaves the centre pixel (odd sizes) unchanged,
vanishes on all four edges, is symmetric about the centre on both axes, and only ever reduces
moduli. Missing: images that are not square (`hann_window_violated`). -/
theorem hann_window_partial (a : ℕ) (ha : 2 ≤ a) (im : ℕ → ℕ → ℝ) :
    (∀ x, hannWindow a a im 0 x = 0 ∧ hannWindow a a im (a - 1) x = 0 ∧
      hannWindow a a im x 0 = 0 ∧ hannWindow a a im x (a - 1) = 0) ∧
    (∀ h, a = 2 * h + 1 → hannWindow a a im h h = im h h) ∧
    (∀ x y, |hannWindow a a im x y| ≤ |im x y|) ∧
    (∀ x y, x < a → y < a → im (a - 1 - x) y = im x y → im x (a - 1 - y) = im x y →
      hannWindow a a im (a - 1 - x) y = hannWindow a a im x y ∧
      hannWindow a a im x (a - 1 - y) = hannWindow a a im x y) := by
  have hc : ((a - 1 : ℕ) : ℝ) = (a : ℝ) - 1 := by rw [Nat.cast_sub (by omega)]; simp
  have hne : (a : ℝ) - 1 ≠ 0 := by
    have : (2 : ℝ) ≤ a := by exact_mod_cast ha
    linarith
  have hpi : Real.pi * ((a : ℝ) - 1) / (a - 1) = Real.pi := by field_simp
  have hsym : ∀ x, x < a → Real.sin (Real.pi * ((a - 1 - x : ℕ) : ℝ) / (a - 1)) ^ 2 =
      Real.sin (Real.pi * x / (a - 1)) ^ 2 := by
    intro x hx
    rw [Nat.cast_sub (by omega), hc]
    rw [show Real.pi * ((a : ℝ) - 1 - x) / (a - 1) = Real.pi - Real.pi * x / (a - 1) by
      field_simp]
    rw [Real.sin_pi_sub]
  refine ⟨fun x => ⟨?_, ?_, ?_, ?_⟩, fun h hh => ?_, fun x y => ?_, fun x y hx hy h1 h2 => ⟨?_, ?_⟩⟩
  · simp [hannWindow]
  · simp only [hannWindow, hc, hpi, Real.sin_pi]; ring
  · simp [hannWindow]
  · simp only [hannWindow, hc, hpi, Real.sin_pi]; ring
  · have hh' : (a : ℝ) - 1 = 2 * h := by rw [hh]; push_cast; ring
    have hne' : (h : ℝ) ≠ 0 := by
      have : h ≠ 0 := by omega
      exact_mod_cast this
    simp only [hannWindow, hh']
    rw [show Real.pi * (h : ℝ) / (2 * h) = Real.pi / 2 by field_simp, Real.sin_pi_div_two]
    ring
  · simp only [hannWindow, abs_mul]
    have h1 : |Real.sin (Real.pi * x / (a - 1)) ^ 2| ≤ 1 := by
      rw [abs_of_nonneg (by positivity)]; exact Real.sin_sq_le_one _
    have h2 : |Real.sin (Real.pi * y / (a - 1)) ^ 2| ≤ 1 := by
      rw [abs_of_nonneg (by positivity)]; exact Real.sin_sq_le_one _
    have := mul_le_one₀ h1 (abs_nonneg _) h2
    nlinarith [abs_nonneg (im x y)]
  · simp only [hannWindow]; rw [hsym x hx, h1]
  · simp only [hannWindow]; rw [hsym y hy, h2]

/-- **C40 is violated** for images that are not square: a 3 × 5 window has weight 1 at the edge pixel
`(2, 1)` and weight 0 at the centre pixel `(1, 2)`. -/
theorem hann_window_violated :
    hannWindow 3 5 (fun _ _ => 1) 2 1 = 1 ∧ hannWindow 3 5 (fun _ _ => 1) 1 2 = 0 := by
  constructor
  · simp only [hannWindow]
    rw [show Real.pi * ((2 : ℕ) : ℝ) / (((5 : ℕ) : ℝ) - 1) = Real.pi / 2 by push_cast; ring,
      show Real.pi * ((1 : ℕ) : ℝ) / (((3 : ℕ) : ℝ) - 1) = Real.pi / 2 by push_cast; ring,
      Real.sin_pi_div_two]
    norm_num
  · simp only [hannWindow]
    rw [show Real.pi * ((2 : ℕ) : ℝ) / (((3 : ℕ) : ℝ) - 1) = Real.pi by push_cast; ring,
      Real.sin_pi]
    norm_num

/-- Non-vacuity. -/
example : hannWindow 5 5 (fun _ _ => 3) 2 2 = 3 :=
  (hann_window_partial 5 (by norm_num) fun _ _ => 3).2.1 2 rfl

end Cdtools
