/-
C61: the operators of `RPI_spectral_init`.
-/
import Verif.Model.Initializers
import Verif.Props.ModeOrders
import Verif.Props.Rpi

set_option linter.unusedSectionVars false
set_option linter.unusedSimpArgs false

namespace Cdtools
open Finset ZMod

variable {n m : ℕ} [NeZero n] [NeZero m] {a b : ℕ} [NeZero a] [NeZero b]

/-- The inner product `Σ v · conj w`. -/
noncomputable def inner2 (v w : Wave n m) : ℂ := ∑ i, ∑ j, v i j * (starRingEnd ℂ) (w i j)

theorem inner2_farField (v w : Wave n m) : inner2 (farField v) (farField w) = inner2 v w := by
  have hs : (((Real.sqrt (n * m) : ℝ) : ℂ) * ((Real.sqrt (n * m) : ℝ) : ℂ)) = (n : ℂ) * m := by
    rw [← Complex.ofReal_mul, Real.mul_self_sqrt size_pos.le]; push_cast; ring
  have hne := sqrt_size_ne (n := n) (m := m)
  unfold inner2 farField
  have e : ∀ f : ZMod n → ZMod m → ℂ, ∑ i, ∑ j, f (i - ((n / 2 : ℕ) : ZMod n))
      (j - ((m / 2 : ℕ) : ZMod m)) = ∑ i, ∑ j, f i j := by
    intro f
    have := sum_roll f (-((n / 2 : ℕ) : ZMod n)) (-((m / 2 : ℕ) : ZMod m))
    simpa only [sub_eq_add_neg] using this
  have h1 := e fun k l => fft2 (ifftshift2 v) k l / ((Real.sqrt (n * m) : ℝ) : ℂ) *
    (starRingEnd ℂ) (fft2 (ifftshift2 w) k l / ((Real.sqrt (n * m) : ℝ) : ℂ))
  refine Eq.trans ?_ (h1.trans ?_)
  · rfl
  · have h2 := fft2_inner (ifftshift2 v) (ifftshift2 w)
    have h3 : ∑ i, ∑ j, ifftshift2 v i j * (starRingEnd ℂ) (ifftshift2 w i j) =
        ∑ i, ∑ j, v i j * (starRingEnd ℂ) (w i j) :=
      sum_roll (fun i j => v i j * (starRingEnd ℂ) (w i j)) _ _
    rw [h3] at h2
    have h4 : ∀ k l, fft2 (ifftshift2 v) k l / ((Real.sqrt (n * m) : ℝ) : ℂ) *
        (starRingEnd ℂ) (fft2 (ifftshift2 w) k l / ((Real.sqrt (n * m) : ℝ) : ℂ)) =
        fft2 (ifftshift2 v) k l * (starRingEnd ℂ) (fft2 (ifftshift2 w) k l) / ((n : ℂ) * m) := by
      intro k l
      rw [map_div₀, Complex.conj_ofReal, div_mul_div_comm, hs]
    simp only [h4, ← sum_div]
    rw [h2, mul_div_cancel_left₀]
    rw [← hs]; exact mul_ne_zero hne hne

theorem inner2_move (v w : Wave n m) : inner2 (farField v) w = inner2 v (inverseFarField w) := by
  conv_lhs => rw [← far_field_unitary.2.1 w]
  rw [inner2_farField]

theorem inner2_move' (v w : Wave n m) : inner2 (inverseFarField v) w = inner2 v (farField w) := by
  rw [← inner2_farField, far_field_unitary.2.1]

/-- **C61**: for all probes, object shapes no larger than the probe, objects and measured wavefields,
the backward operator used by `RPI_spectral_init` is the adjoint of its forward operator. -/
theorem spectral_operators_adjoint (ha : a ≤ n) (hb : b ≤ m) (probe : Wave n m) (x : Wave a b)
    (y : Wave n m) :
    inner2 (spectralForward probe x) y = inner2 x (spectralBackward probe y) := by
  unfold spectralForward spectralBackward
  rw [inner2_move]
  set B := farField fun i j => (starRingEnd ℂ) (probe i j) * inverseFarField y i j with hB
  set P : Wave n m := fun k l =>
    if (n - a) / 2 ≤ k.val ∧ k.val < (n - a) / 2 + a ∧ (m - b) / 2 ≤ l.val ∧
      l.val < (m - b) / 2 + b then
    farField x ((k.val - (n - a) / 2 : ℕ) : ZMod a) ((l.val - (m - b) / 2 : ℕ) : ZMod b) else 0 with hP
  have h1 : inner2 (fun i j => probe i j * inverseFarField P i j) (inverseFarField y) =
      inner2 (inverseFarField P) (fun i j => (starRingEnd ℂ) (probe i j) * inverseFarField y i j) := by
    unfold inner2
    refine sum_congr rfl fun i _ => sum_congr rfl fun j _ => ?_
    rw [map_mul, Complex.conj_conj]
    ring
  refine h1.trans ?_
  rw [inner2_move', ← hB]
  refine Eq.trans ?_ (inner2_move x _)
  have hw := zmod_sum_window2 (n := a) (m := b) (N := n) (M := m) ((n - a) / 2) ((m - b) / 2)
    (by omega) (by omega) fun k l i j => farField x i j * (starRingEnd ℂ) (B k l)
  unfold inner2
  refine Eq.trans ?_ hw
  refine sum_congr rfl fun k _ => sum_congr rfl fun l _ => ?_
  simp only [hP]
  split <;> simp

/-- **C61** (what holds): unless the probe size is even and the object size odd along some axis, the
forward operator is, up to the constant amplitude scaling, the far field of the RPI interaction.
Missing: the other parities, see `spectral_forward_violated`. -/
theorem spectral_forward_is_rpi_partial (ha : a ≤ n) (hb : b ≤ m) (h0 : ¬ (n % 2 = 0 ∧ a % 2 = 1))
    (h1 : ¬ (m % 2 = 0 ∧ b % 2 = 1)) (probe : Wave n m) (x : Wave a b) :
    farField (rpiInteraction probe x) = fun i j =>
      (Real.sqrt ((n * m : ℝ) / (a * b)) : ℂ) * spectralForward probe x i j := by
  unfold spectralForward
  rw [← farField_scale]
  congr 1
  funext i j
  unfold rpiInteraction rpiUpsample
  rw [show (n - a) / 2 = n / 2 - a / 2 by omega, show (m - b) / 2 = m / 2 - b / 2 by omega]
  ring

/-- **C61** (negation): for a 2 × 2 probe and a 1 × 1 object the forward operator is not the far
field of the RPI interaction, up to any constant: the RPI exit wave of a uniform object under a
uniform probe has a nonzero sum, that of the forward operator sums to zero. -/
theorem spectral_forward_violated :
    ¬ ∃ c : ℂ, farField (rpiInteraction (n := 2) (m := 2) (fun _ _ => 1)
        (fun (_ : ZMod 1) (_ : ZMod 1) => (1 : ℂ))) = fun i j =>
      c * spectralForward (n := 2) (m := 2) (fun _ _ => 1)
        (fun (_ : ZMod 1) (_ : ZMod 1) => (1 : ℂ)) i j := by
  rintro ⟨c, hc⟩
  have h := congrFun (congrFun hc ((2 / 2 : ℕ) : ZMod 2)) ((2 / 2 : ℕ) : ZMod 2)
  have hr : rpiInteraction (n := 2) (m := 2) (fun _ _ => 1)
      (fun (_ : ZMod 1) (_ : ZMod 1) => (1 : ℂ)) = fun _ _ => 1 := by
    funext i j
    unfold rpiInteraction
    rw [(rpi_interaction_preserves (n := 2) (m := 2) (a := 1) (b := 1) (by omega) (by omega)
      fun _ _ => 1).2.2 1, mul_one]
  rw [hr, (far_field_unitary (n := 2) (m := 2)).2.2.2.2.2, if_pos ⟨rfl, rfl⟩] at h
  unfold spectralForward at h
  simp only [one_mul] at h
  have e : ∀ w : Wave 2 2, farField (fun i j => inverseFarField w i j) = w :=
    fun w => far_field_unitary.2.1 w
  rw [e, if_neg (by decide)] at h
  simp at h

/-- Non-vacuity: a 5 × 8 probe and a 3 × 4 object. -/
example : (3 : ℕ) ≤ 5 ∧ 4 ≤ 8 ∧ ¬ (5 % 2 = 0 ∧ 3 % 2 = 1) ∧ ¬ (8 % 2 = 0 ∧ 4 % 2 = 1) := by decide

end Cdtools
