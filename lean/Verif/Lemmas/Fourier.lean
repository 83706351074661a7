/- Lemmas about the discrete Fourier transforms. -/
import Verif.Model.Fourier
import Mathlib.Analysis.Fourier.ZMod
import Mathlib.Tactic.Ring
import Mathlib.Tactic.Linarith
import Mathlib.Tactic.FieldSimp

namespace Cdtools
open Finset ZMod
set_option linter.unusedSectionVars false
variable {n m : ℕ} [NeZero n] [NeZero m]

theorem char_pos (i k : ZMod n) :
    Complex.exp (2 * Real.pi * Complex.I * (i.val * k.val) / n) = stdAddChar (i * k) := by
  have h := ZMod.toCircle_intCast (N := n) (i.val * k.val)
  rw [stdAddChar_apply, show i * k = (((i.val : ℤ) * (k.val : ℤ) : ℤ) : ZMod n) by
    push_cast; simp, h]
  push_cast
  rfl

theorem char_neg (i k : ZMod n) :
    Complex.exp (-(2 * Real.pi * Complex.I * (i.val * k.val) / n)) = stdAddChar (-(i * k)) := by
  rw [AddChar.map_neg_eq_inv, Complex.exp_neg, char_pos]

theorem fft_eq (x : ZMod n → ℂ) (k : ZMod n) :
    fft x k = ∑ j, stdAddChar (-(j * k)) * x j := by
  simp only [fft, char_neg]

theorem ifft_eq (x : ZMod n → ℂ) (j : ZMod n) :
    ifft x j = (∑ k, stdAddChar (j * k) * x k) / n := by
  simp only [ifft, char_pos]

theorem fft2_eq (w : Wave n m) (k : ZMod n) (l : ZMod m) :
    fft2 w k l = ∑ i, ∑ j, stdAddChar (-(i * k)) * stdAddChar (-(j * l)) * w i j := by
  simp only [fft2, char_neg]

theorem ifft2_eq (w : Wave n m) (i : ZMod n) (j : ZMod m) :
    ifft2 w i j = (∑ k, ∑ l, stdAddChar (i * k) * stdAddChar (j * l) * w k l) / (n * m) := by
  simp only [ifft2, char_pos]

/-- Orthogonality of the characters. -/
theorem char_sum (a : ZMod n) :
    ∑ k : ZMod n, stdAddChar (k * a) = if a = 0 then (n : ℂ) else 0 := by
  rw [AddChar.sum_mulShift a (isPrimitive_stdAddChar n)]
  simp [ZMod.card]

theorem fft_fun (x : ZMod n → ℂ) : fft x = dft x := by
  funext k
  rw [fft_eq, dft_apply]
  rfl

theorem ifft_fun (x : ZMod n → ℂ) : ifft x = dft.symm x := by
  funext k
  rw [ifft_eq, invDFT_apply, smul_eq_mul, div_eq_inv_mul]
  simp only [smul_eq_mul, mul_comm k]

theorem ifft_fft (x : ZMod n → ℂ) : ifft (fft x) = x := by
  rw [fft_fun, ifft_fun, LinearEquiv.symm_apply_apply]

theorem fft_ifft (x : ZMod n → ℂ) : fft (ifft x) = x := by
  rw [fft_fun, ifft_fun, LinearEquiv.apply_symm_apply]

/-- 2D transforms as 1D transforms of 1D transforms. -/
theorem fft2_rows (w : Wave n m) (k : ZMod n) (l : ZMod m) :
    fft2 w k l = fft (fun i => fft (w i) l) k := by
  rw [fft2_eq, fft_eq]
  refine sum_congr rfl fun i _ => ?_
  rw [fft_eq, mul_sum]
  exact sum_congr rfl fun j _ => by ring

theorem ifft2_rows (w : Wave n m) (i : ZMod n) (j : ZMod m) :
    ifft2 w i j = ifft (fun k => ifft (w k) j) i := by
  rw [ifft2_eq, ifft_eq]
  simp only [ifft_eq]
  rw [sum_div, sum_div]
  refine sum_congr rfl fun k _ => ?_
  rw [sum_div, sum_div, mul_sum, sum_div]
  refine sum_congr rfl fun l _ => ?_
  have : (n : ℂ) ≠ 0 := NeZero.ne _
  have : (m : ℂ) ≠ 0 := NeZero.ne _
  field_simp

theorem fft2_cols (w : Wave n m) (k : ZMod n) (l : ZMod m) :
    fft2 w k l = fft (fun j => fft (fun i => w i j) k) l := by
  rw [fft2_eq, fft_eq, sum_comm]
  refine sum_congr rfl fun i _ => ?_
  rw [fft_eq, mul_sum]
  exact sum_congr rfl fun j _ => by ring

theorem ifft2_fft2 (w : Wave n m) : ifft2 (fft2 w) = w := by
  funext i j
  rw [ifft2_rows]
  have h : ∀ k, ifft (fft2 w k) j = fft (fun i => w i j) k := by
    intro k
    have : fft2 w k = fft (fun j => fft (fun i => w i j) k) := by
      funext l; exact fft2_cols w k l
    rw [this, ifft_fft]
  simp only [h]
  rw [show (fun k => fft (fun i => w i j) k) = fft (fun i => w i j) from rfl, ifft_fft]

theorem fft2_ifft2 (w : Wave n m) : fft2 (ifft2 w) = w := by
  have inj : Function.Injective (fun v : Wave n m => ifft2 v) := by
    -- ifft2 is surjective onto a finite-dimensional space; argue directly instead
    intro v v' h
    have e : ∀ u : Wave n m, ∀ k l, u k l = fft (fun i => fft (ifft2 u i) l) k := by
      intro u k l
      have h1 : ∀ i, fft (ifft2 u i) l = ifft (fun k => u k l) i := by
        intro i
        have h2 : ifft2 u i = ifft (fun l => ifft (fun k => u k l) i) := by
          funext j
          rw [ifft2_eq, ifft_eq, sum_comm]
          simp only [ifft_eq]
          rw [sum_div, sum_div]
          refine sum_congr rfl fun l _ => ?_
          rw [sum_div, sum_div, mul_sum, sum_div]
          refine sum_congr rfl fun k _ => ?_
          have : (n : ℂ) ≠ 0 := NeZero.ne _
          have : (m : ℂ) ≠ 0 := NeZero.ne _
          field_simp
        rw [h2, fft_ifft]
      simp only [h1]
      rw [show (fun i => ifft (fun k => u k l) i) = ifft (fun k => u k l) from rfl, fft_ifft]
    funext k l
    rw [e v k l, e v' k l]
    simp only at h
    rw [h]
  exact inj (ifft2_fft2 (ifft2 w))

/-- Parseval on one axis, with two functions. -/
theorem fft_parseval (x y : ZMod n → ℂ) :
    ∑ k, fft x k * (starRingEnd ℂ) (fft y k) = n * ∑ j, x j * (starRingEnd ℂ) (y j) := by
  have conj_char : ∀ a : ZMod n, (starRingEnd ℂ) (stdAddChar a) = stdAddChar (-a) := by
    intro a
    rw [AddChar.map_neg_eq_inv, stdAddChar_apply, ← Circle.coe_inv, Circle.coe_inv_eq_conj]
  calc ∑ k, fft x k * (starRingEnd ℂ) (fft y k)
      = ∑ k, ∑ i, ∑ j, stdAddChar (k * (j - i)) * (x i * (starRingEnd ℂ) (y j)) := by
        refine sum_congr rfl fun k _ => ?_
        rw [fft_eq, fft_eq, map_sum, sum_mul_sum]
        refine sum_congr rfl fun i _ => sum_congr rfl fun j _ => ?_
        rw [map_mul, conj_char, neg_neg, show k * (j - i) = -(i * k) + j * k by ring,
          AddChar.map_add_eq_mul]
        ring
    _ = ∑ i, ∑ j, (∑ k, stdAddChar (k * (j - i))) * (x i * (starRingEnd ℂ) (y j)) := by
        rw [sum_comm]
        refine sum_congr rfl fun i _ => ?_
        rw [sum_comm]
        exact sum_congr rfl fun j _ => by rw [sum_mul]
    _ = n * ∑ j, x j * (starRingEnd ℂ) (y j) := by
        rw [mul_sum]
        refine sum_congr rfl fun i _ => ?_
        simp [char_sum, sub_eq_zero]

theorem fft_parseval_norm (x : ZMod n → ℂ) : ∑ k, ‖fft x k‖ ^ 2 = n * ∑ j, ‖x j‖ ^ 2 := by
  have h := fft_parseval x x
  simp only [Complex.mul_conj, Complex.normSq_eq_norm_sq] at h
  exact_mod_cast h

theorem fft2_parseval_norm (w : Wave n m) :
    ∑ k, ∑ l, ‖fft2 w k l‖ ^ 2 = (n * m) * ∑ i, ∑ j, ‖w i j‖ ^ 2 := by
  rw [sum_comm]
  simp only [fft2_rows]
  have h1 : ∀ l : ZMod m, ∑ k, ‖fft (fun i => fft (w i) l) k‖ ^ 2 =
      n * ∑ i, ‖fft (w i) l‖ ^ 2 := fun l => fft_parseval_norm _
  simp only [h1]
  rw [← mul_sum, sum_comm]
  simp only [fft_parseval_norm]
  rw [← mul_sum]
  ring

theorem fft2_inner (v w : Wave n m) :
    ∑ k, ∑ l, fft2 v k l * (starRingEnd ℂ) (fft2 w k l) =
      (n * m) * ∑ i, ∑ j, v i j * (starRingEnd ℂ) (w i j) := by
  rw [sum_comm]
  simp only [fft2_rows]
  have h1 : ∀ l : ZMod m, ∑ k, fft (fun i => fft (v i) l) k *
      (starRingEnd ℂ) (fft (fun i => fft (w i) l) k) =
      n * ∑ i, fft (v i) l * (starRingEnd ℂ) (fft (w i) l) := fun l => fft_parseval _ _
  simp only [h1]
  rw [← mul_sum, sum_comm]
  simp only [fft_parseval]
  rw [← mul_sum]
  ring

theorem ifft2_parseval_norm (w : Wave n m) :
    (n * m) * ∑ i, ∑ j, ‖ifft2 w i j‖ ^ 2 = ∑ k, ∑ l, ‖w k l‖ ^ 2 := by
  rw [← fft2_parseval_norm, fft2_ifft2]

/-- Sums over a wave are invariant under rolling. -/
theorem sum_roll {α : Type} [AddCommMonoid α] (f : ZMod n → ZMod m → α) (a : ZMod n) (b : ZMod m) :
    ∑ i, ∑ j, f (i + a) (j + b) = ∑ i, ∑ j, f i j := by
  have h : ∀ i : ZMod n, ∑ j, f (i + a) (j + b) = ∑ j, f (i + a) j :=
    fun i => Equiv.sum_comp (Equiv.addRight b) fun j => f (i + a) j
  simp only [h]
  exact Equiv.sum_comp (Equiv.addRight a) fun i => ∑ j, f i j

/-- The transform of a rolled image. -/
theorem fft2_roll (w : Wave n m) (a : ZMod n) (b : ZMod m) (k : ZMod n) (l : ZMod m) :
    fft2 (fun i j => w (i - a) (j - b)) k l =
      stdAddChar (-(a * k)) * stdAddChar (-(b * l)) * fft2 w k l := by
  rw [fft2_eq, fft2_eq, mul_sum]
  rw [← Equiv.sum_comp (Equiv.addRight a)]
  refine sum_congr rfl fun i _ => ?_
  rw [mul_sum, ← Equiv.sum_comp (Equiv.addRight b)]
  refine sum_congr rfl fun j _ => ?_
  simp only [Equiv.coe_addRight, add_sub_cancel_right]
  rw [show -((i + a) * k) = -(a * k) + -(i * k) by ring,
    show -((j + b) * l) = -(b * l) + -(j * l) by ring, AddChar.map_add_eq_mul,
    AddChar.map_add_eq_mul]
  ring

/-- Convolution theorem on one axis. -/
theorem ifft_mul_fft (x y : ZMod n → ℂ) (i : ZMod n) :
    ifft (fun k => fft x k * fft y k) i = ∑ j, x j * y (i - j) := by
  have h : (fun k => fft x k * fft y k) = fft (fun i => ∑ j, x j * y (i - j)) := by
    funext k
    rw [fft_eq, fft_eq, fft_eq, sum_mul_sum]
    simp only [mul_sum]
    rw [sum_comm]
    calc ∑ b, ∑ a, stdAddChar (-(a * k)) * x a * (stdAddChar (-(b * k)) * y b)
        = ∑ a, ∑ b, stdAddChar (-(a * k)) * x a * (stdAddChar (-(b * k)) * y b) := sum_comm
      _ = ∑ a, ∑ i, stdAddChar (-(i * k)) * (x a * y (i - a)) := by
          refine sum_congr rfl fun a _ => ?_
          rw [← Equiv.sum_comp (Equiv.subRight a)]
          refine sum_congr rfl fun i _ => ?_
          simp only [Equiv.subRight_apply]
          rw [show -((i - a) * k) = -(i * k) + a * k by ring, AddChar.map_add_eq_mul,
            AddChar.map_neg_eq_inv stdAddChar (a * k)]
          have : (stdAddChar (a * k) : ℂ) ≠ 0 := by
            rw [stdAddChar_apply]; exact Circle.coe_ne_zero _
          field_simp
      _ = ∑ i, ∑ a, stdAddChar (-(i * k)) * (x a * y (i - a)) := sum_comm
  rw [h, ifft_fft]

theorem stdAddChar_norm (a : ZMod n) : ‖(stdAddChar a : ℂ)‖ = 1 := by
  rw [stdAddChar_apply]; exact Circle.norm_coe _

end Cdtools
