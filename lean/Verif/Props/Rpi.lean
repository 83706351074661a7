/-
C44: the RPI interaction.
-/
import Verif.Model.Interactions
import Verif.Props.Upsample

set_option linter.unusedSectionVars false
set_option linter.unusedSimpArgs false

namespace Cdtools
open Finset ZMod

variable {n m : ℕ} [NeZero n] [NeZero m] {a b : ℕ} [NeZero a] [NeZero b]

/-- The padding keeps the zero-frequency pixel at the centre, for all parities. -/
theorem rpi_left (h : a ≤ n) : n / 2 - a / 2 + a / 2 = n / 2 ∧ n / 2 - a / 2 + a ≤ n := by omega

/-- The inverse far field of a centred window, at an offset `(x, y)` from the centre. -/
theorem inverseFarField_window (l0 l1 : ℕ) (h0 : l0 + a / 2 = n / 2) (h1 : l1 + b / 2 = m / 2)
    (g0 : l0 + a ≤ n) (g1 : l1 + b ≤ m) (X : Wave a b) (x : ZMod n) (y : ZMod m) :
    inverseFarField (n := n) (m := m) (fun k l =>
        if l0 ≤ k.val ∧ k.val < l0 + a ∧ l1 ≤ l.val ∧ l.val < l1 + b then
          X ((k.val - l0 : ℕ) : ZMod a) ((l.val - l1 : ℕ) : ZMod b) else 0)
        (((n / 2 : ℕ) : ZMod n) + x) (((m / 2 : ℕ) : ZMod m) + y) =
      (∑ i : ZMod a, ∑ j : ZMod b,
        stdAddChar (x * (((i.val : ℤ) - (a / 2 : ℕ) : ℤ) : ZMod n)) *
        stdAddChar (y * (((j.val : ℤ) - (b / 2 : ℕ) : ℤ) : ZMod m)) * X i j) /
        (n * m) * Real.sqrt (n * m) := by
  rw [inverseFarField_eq]
  simp only [add_sub_cancel_left]
  congr 2
  have hw := zmod_sum_window2 (n := a) (m := b) (N := n) (M := m) l0 l1 g0 g1
    fun k l i j => stdAddChar (x * (k - ((n / 2 : ℕ) : ZMod n))) *
      stdAddChar (y * (l - ((m / 2 : ℕ) : ZMod m))) * X i j
  calc _ = ∑ k : ZMod n, ∑ l : ZMod m,
        (if l0 ≤ k.val ∧ k.val < l0 + a ∧ l1 ≤ l.val ∧ l.val < l1 + b then
          stdAddChar (x * (k - ((n / 2 : ℕ) : ZMod n))) *
          stdAddChar (y * (l - ((m / 2 : ℕ) : ZMod m))) *
          X ((k.val - l0 : ℕ) : ZMod a) ((l.val - l1 : ℕ) : ZMod b) else 0) := by
        refine sum_congr rfl fun k _ => sum_congr rfl fun l _ => ?_
        split <;> simp
    _ = _ := by
        rw [hw]
        refine sum_congr rfl fun i _ => sum_congr rfl fun j _ => ?_
        have c0 : (((l0 + i.val : ℕ) : ZMod n) - ((n / 2 : ℕ) : ZMod n)) =
            (((i.val : ℤ) - (a / 2 : ℕ) : ℤ) : ZMod n) := by
          rw [← h0]; generalize a / 2 = c; push_cast; ring
        have c1 : (((l1 + j.val : ℕ) : ZMod m) - ((m / 2 : ℕ) : ZMod m)) =
            (((j.val : ℤ) - (b / 2 : ℕ) : ℤ) : ZMod m) := by
          rw [← h1]; generalize b / 2 = c; push_cast; ring
        rw [c0, c1]

theorem rpi_scale : Real.sqrt ((n * m : ℝ) / (a * b)) * Real.sqrt (n * m) * Real.sqrt (a * b) =
    n * m := by
  have h1 := size_pos (n := n) (m := m)
  have h2 := size_pos (n := a) (m := b)
  rw [Real.sqrt_div h1.le]
  have hs := (Real.sqrt_pos.2 h2).ne'
  field_simp
  exact Real.sq_sqrt h1.le

/-- **C44.** For every object no larger than the probe, of any parity: the upsampled object has the
same mean value and the same mean intensity per pixel as the object, and a constant object is
upsampled to the same constant. -/
theorem rpi_interaction_preserves (ha : a ≤ n) (hb : b ≤ m) (obj : Wave a b) :
    (∑ i, ∑ j, rpiUpsample n m obj i j) / ((n : ℂ) * m) = (∑ i, ∑ j, obj i j) / ((a : ℂ) * b) ∧
    power (rpiUpsample n m obj) / ((n : ℝ) * m) = power obj / ((a : ℝ) * b) ∧
    (∀ c : ℂ, rpiUpsample n m (fun (_ : ZMod a) (_ : ZMod b) => c) = fun _ _ => c) := by
  obtain ⟨h0, g0⟩ := rpi_left ha
  obtain ⟨h1, g1⟩ := rpi_left hb
  have hn := Nat.pos_of_ne_zero (NeZero.ne n)
  have hm := Nat.pos_of_ne_zero (NeZero.ne m)
  have ha0 := Nat.pos_of_ne_zero (NeZero.ne a)
  have hb0 := Nat.pos_of_ne_zero (NeZero.ne b)
  have s1 := size_pos (n := n) (m := m)
  have s2 := size_pos (n := a) (m := b)
  have hsc : ((Real.sqrt ((n * m : ℝ) / (a * b)) : ℝ) : ℂ) * ((Real.sqrt (n * m) : ℝ) : ℂ) *
      ((Real.sqrt (a * b) : ℝ) : ℂ) = (n : ℂ) * m := by
    exact_mod_cast congrArg (fun x : ℝ => (x : ℂ)) (rpi_scale (n := n) (m := m) (a := a) (b := b))
  have hab : ((Real.sqrt (a * b) : ℝ) : ℂ) * ((Real.sqrt (a * b) : ℝ) : ℂ) = (a : ℂ) * b := by
    rw [← Complex.ofReal_mul, Real.mul_self_sqrt s2.le]; push_cast; ring
  have hn' : ((n : ℂ) * m) ≠ 0 := by
    have : (n : ℂ) ≠ 0 := by exact_mod_cast hn.ne'
    have : (m : ℂ) ≠ 0 := by exact_mod_cast hm.ne'
    positivity
  have ha' : ((a : ℂ) * b) ≠ 0 := by
    have : (a : ℂ) ≠ 0 := by exact_mod_cast ha0.ne'
    have : (b : ℂ) ≠ 0 := by exact_mod_cast hb0.ne'
    positivity
  refine ⟨?_, ?_, fun c => ?_⟩
  · simp only [rpiUpsample]
    simp only [← mul_sum]
    rw [inverseFarField_sum]
    have v0 : (((n / 2 : ℕ) : ZMod n)).val = n / 2 := by
      rw [ZMod.val_natCast, Nat.mod_eq_of_lt (by omega)]
    have v1 : (((m / 2 : ℕ) : ZMod m)).val = m / 2 := by
      rw [ZMod.val_natCast, Nat.mod_eq_of_lt (by omega)]
    rw [v0, v1, if_pos (by omega), show n / 2 - (n / 2 - a / 2) = a / 2 by omega,
      show m / 2 - (m / 2 - b / 2) = b / 2 by omega]
    rw [div_eq_div_iff hn' ha', ← farField_sum obj, ← hsc, ← hab]
    ring
  · have hp : power (rpiUpsample n m obj) = (n * m : ℝ) / (a * b) * power obj := by
      have e : power (rpiUpsample n m obj) = (n * m : ℝ) / (a * b) *
          power (inverseFarField (n := n) (m := m) fun k l =>
            if n / 2 - a / 2 ≤ k.val ∧ k.val < n / 2 - a / 2 + a ∧ m / 2 - b / 2 ≤ l.val ∧
              l.val < m / 2 - b / 2 + b then
            farField obj ((k.val - (n / 2 - a / 2) : ℕ) : ZMod a)
              ((l.val - (m / 2 - b / 2) : ℕ) : ZMod b) else 0) := by
        unfold power
        rw [mul_sum]
        refine sum_congr rfl fun i _ => ?_
        rw [mul_sum]
        refine sum_congr rfl fun j _ => ?_
        simp only [rpiUpsample]
        rw [norm_mul, mul_pow, Complex.norm_real, Real.norm_of_nonneg (Real.sqrt_nonneg _),
          Real.sq_sqrt (by positivity)]
      rw [e, far_field_unitary.2.2.2.1, ← far_field_unitary.2.2.1 obj]
      congr 1
      unfold power
      have hw := zmod_sum_window2 (n := a) (m := b) (N := n) (M := m) (n / 2 - a / 2) (m / 2 - b / 2)
        g0 g1 fun _ _ i j => ‖farField obj i j‖ ^ 2
      rw [← hw]
      refine sum_congr rfl fun k _ => sum_congr rfl fun l _ => ?_
      beta_reduce
      by_cases hc : n / 2 - a / 2 ≤ k.val ∧ k.val < n / 2 - a / 2 + a ∧ m / 2 - b / 2 ≤ l.val ∧
              l.val < m / 2 - b / 2 + b
      · rw [if_pos hc, if_pos hc]
      · rw [if_neg hc, if_neg hc]; simp
    rw [hp]
    field_simp
  · funext i j
    simp only [rpiUpsample]
    have hi : i = ((n / 2 : ℕ) : ZMod n) + (i - ((n / 2 : ℕ) : ZMod n)) := by ring
    have hj : j = ((m / 2 : ℕ) : ZMod m) + (j - ((m / 2 : ℕ) : ZMod m)) := by ring
    rw [hi, hj, inverseFarField_window _ _ h0 h1 g0 g1]
    have hff := (far_field_unitary (n := a) (m := b)).2.2.2.2.2 c
    rw [sum_eq_single ((a / 2 : ℕ) : ZMod a), sum_eq_single ((b / 2 : ℕ) : ZMod b)]
    · rw [hff, if_pos ⟨rfl, rfl⟩]
      have v0 : (((a / 2 : ℕ) : ZMod a)).val = a / 2 := by
        rw [ZMod.val_natCast, Nat.mod_eq_of_lt (by omega)]
      have v1 : (((b / 2 : ℕ) : ZMod b)).val = b / 2 := by
        rw [ZMod.val_natCast, Nat.mod_eq_of_lt (by omega)]
      rw [v0, v1]
      simp only [sub_self, Int.cast_zero, mul_zero, AddChar.map_zero_eq_one, one_mul]
      have : ((Real.sqrt ((n * m : ℝ) / (a * b)) : ℝ) : ℂ) *
          (c * ((Real.sqrt (a * b) : ℝ) : ℂ) / (n * m) * ((Real.sqrt (n * m) : ℝ) : ℂ)) =
          c * (((Real.sqrt ((n * m : ℝ) / (a * b)) : ℝ) : ℂ) * ((Real.sqrt (n * m) : ℝ) : ℂ) *
      ((Real.sqrt (a * b) : ℝ) : ℂ)) / (n * m) := by ring
      rw [this, hsc, mul_div_assoc, div_self hn', mul_one]
    · intro j _ hj; rw [hff, if_neg (by simp [hj])]; simp
    · simp
    · intro i _ hi
      refine sum_eq_zero fun j _ => ?_
      rw [hff, if_neg (by simp [hi])]; simp
    · simp

/-- **C44**, interpolation: when the probe is `u` (rows) and `v` (columns) times as finely sampled as
the object, the upsampled object takes the object's values at the corresponding pixels, counted
from the centres of the arrays (for all parities). -/
theorem rpi_interpolates (u v : ℕ) [NeZero u] [NeZero v] (obj : Wave a b) (d e : ℤ) :
    (haveI : NeZero (u * a) := ⟨Nat.mul_ne_zero (NeZero.ne u) (NeZero.ne a)⟩
     haveI : NeZero (v * b) := ⟨Nat.mul_ne_zero (NeZero.ne v) (NeZero.ne b)⟩
     rpiUpsample (u * a) (v * b) obj
      (((u * a / 2 : ℕ) : ZMod (u * a)) + ((u * d : ℤ) : ZMod (u * a)))
      (((v * b / 2 : ℕ) : ZMod (v * b)) + ((v * e : ℤ) : ZMod (v * b)))) =
      obj (((a / 2 : ℕ) : ZMod a) + (d : ZMod a)) (((b / 2 : ℕ) : ZMod b) + (e : ZMod b)) := by
  have i0 : NeZero (u * a) := ⟨Nat.mul_ne_zero (NeZero.ne u) (NeZero.ne a)⟩
  have i1 : NeZero (v * b) := ⟨Nat.mul_ne_zero (NeZero.ne v) (NeZero.ne b)⟩
  have hu := Nat.pos_of_ne_zero (NeZero.ne u)
  have hv := Nat.pos_of_ne_zero (NeZero.ne v)
  obtain ⟨h0, g0⟩ := rpi_left (n := u * a) (a := a) (Nat.le_mul_of_pos_left a hu)
  obtain ⟨h1, g1⟩ := rpi_left (n := v * b) (a := b) (Nat.le_mul_of_pos_left b hv)
  conv_rhs => rw [← far_field_unitary.1 obj]
  simp only [rpiUpsample]
  rw [inverseFarField_window _ _ h0 h1 g0 g1, inverseFarField_eq]
  simp only [char_mul, add_sub_cancel_left]
  have hS : (∑ i : ZMod a, ∑ j : ZMod b,
      (stdAddChar ((d : ZMod a) * (((i.val : ℤ) - (a / 2 : ℕ) : ℤ) : ZMod a)) : ℂ) *
      stdAddChar ((e : ZMod b) * (((j.val : ℤ) - (b / 2 : ℕ) : ℤ) : ZMod b)) * farField obj i j) =
      ∑ i : ZMod a, ∑ j : ZMod b, stdAddChar ((d : ZMod a) * (i - ((a / 2 : ℕ) : ZMod a))) *
        stdAddChar ((e : ZMod b) * (j - ((b / 2 : ℕ) : ZMod b))) * farField obj i j := by
    refine sum_congr rfl fun i _ => sum_congr rfl fun j _ => ?_
    have r0 : ((((i.val : ℤ) - (a / 2 : ℕ) : ℤ)) : ZMod a) = i - ((a / 2 : ℕ) : ZMod a) := by
      generalize a / 2 = c; push_cast; simp
    have r1 : ((((j.val : ℤ) - (b / 2 : ℕ) : ℤ)) : ZMod b) = j - ((b / 2 : ℕ) : ZMod b) := by
      generalize b / 2 = c; push_cast; simp
    rw [r0, r1]
  rw [hS]
  generalize (∑ i : ZMod a, ∑ j : ZMod b, _ : ℂ) = S
  have hsc : ((Real.sqrt (((u * a : ℕ) * (v * b : ℕ) : ℝ) / (a * b)) : ℝ) : ℂ) *
      ((Real.sqrt ((u * a : ℕ) * (v * b : ℕ)) : ℝ) : ℂ) *
      ((Real.sqrt (a * b) : ℝ) : ℂ) = ((u * a : ℕ) : ℂ) * ((v * b : ℕ) : ℂ) := by
    exact_mod_cast congrArg (fun x : ℝ => (x : ℂ))
      (rpi_scale (n := u * a) (m := v * b) (a := a) (b := b))
  have s2 := size_pos (n := a) (m := b)
  have hab : ((Real.sqrt (a * b) : ℝ) : ℂ) * ((Real.sqrt (a * b) : ℝ) : ℂ) = (a : ℂ) * b := by
    rw [← Complex.ofReal_mul, Real.mul_self_sqrt s2.le]; push_cast; ring
  have hne := sqrt_size_ne (n := a) (m := b)
  have hn' : (((u * a : ℕ) : ℂ) * ((v * b : ℕ) : ℂ)) ≠ 0 := by
    have h1 : ((u * a : ℕ) : ℂ) ≠ 0 := by exact_mod_cast NeZero.ne (u * a)
    have h2 : ((v * b : ℕ) : ℂ) ≠ 0 := by exact_mod_cast NeZero.ne (v * b)
    exact mul_ne_zero h1 h2
  rw [← hab]
  have e1 : S / (((Real.sqrt (a * b) : ℝ) : ℂ) * ((Real.sqrt (a * b) : ℝ) : ℂ)) *
      ((Real.sqrt (a * b) : ℝ) : ℂ) = S / ((Real.sqrt (a * b) : ℝ) : ℂ) := by
    field_simp
  rw [e1, eq_div_iff hne]
  have e2 : ∀ p q r : ℂ, p * (S / (((u * a : ℕ) : ℂ) * ((v * b : ℕ) : ℂ)) * q) * r =
      S * (p * q * r) / (((u * a : ℕ) : ℂ) * ((v * b : ℕ) : ℂ)) := by
    intro p q r; ring
  rw [e2, hsc, mul_div_assoc, div_self hn', mul_one]

/-- **C44.** The exit wave is the probe times the upsampled object, pixel by pixel; with a constant
object it is that constant times the probe. -/
theorem rpi_exit_wave_constant (ha : a ≤ n) (hb : b ≤ m) (probe : Wave n m) (c : ℂ) :
    rpiInteraction probe (fun (_ : ZMod a) (_ : ZMod b) => c) = fun i j => probe i j * c := by
  funext i j
  simp only [rpiInteraction]
  rw [(rpi_interaction_preserves ha hb fun _ _ => c).2.2 c]

/-- Non-vacuity: a 3 × 5 object under an 8 × 7 probe. -/
example (probe : Wave 8 7) :
    rpiInteraction probe (fun (_ : ZMod 3) (_ : ZMod 5) => (2 : ℂ)) = fun i j => probe i j * 2 :=
  rpi_exit_wave_constant (by norm_num) (by norm_num) probe 2

end Cdtools
