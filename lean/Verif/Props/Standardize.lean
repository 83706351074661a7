/-
C47: `standardize` removes only physically meaningless freedoms.
-/
import Verif.Model.Analysis
import Verif.Props.Centering
import Verif.Props.ModeOrders

set_option linter.unusedSectionVars false
set_option linter.unusedSimpArgs false

namespace Cdtools
open Finset ZMod

variable {n m : ℕ} [NeZero n] [NeZero m] {r a b : ℕ} [NeZero a] [NeZero b]

/-- The exit wave of mode `k` at the integer translation `(t0, t1)`: probe times the window of the
object. -/
def exitWave (R : Recon r n m a b) (k : Fin (r + 1)) (t0 t1 : ℕ) : Wave n m := fun i j =>
  R.probe k i j * R.obj ((t0 + i.val : ℕ) : ZMod a) ((t1 + j.val : ℕ) : ZMod b)

/-! ### Phases -/

theorem unphase_norm (z x : ℂ) : ‖unphase z x‖ = ‖x‖ := by
  unfold unphase
  rw [norm_mul, Complex.norm_exp]
  simp

theorem phase_mul (z : ℂ) : z * Complex.exp (-(Complex.I * (Complex.arg z : ℝ))) = (‖z‖ : ℂ) := by
  have h := Complex.norm_mul_exp_arg_mul_I z
  conv_lhs => enter [1]; rw [← h]
  rw [mul_assoc, ← Complex.exp_add]
  rw [show (Complex.arg z : ℂ) * Complex.I + -(Complex.I * (Complex.arg z : ℝ)) = 0 by ring]
  simp

theorem sum_unphase (w : Wave n m) :
    ∑ i, ∑ j, unphase (∑ i, ∑ j, w i j) (w i j) = (‖∑ i, ∑ j, w i j‖ : ℂ) := by
  unfold unphase
  simp only [← sum_mul]
  exact phase_mul _

theorem unphase_real {x : ℝ} (hx : 0 ≤ x) (y : ℂ) : unphase (x : ℂ) y = y := by
  unfold unphase
  rw [Complex.arg_ofReal_of_nonneg hx]
  simp

/-- Multiplying by a phase and a positive number does not matter. -/
theorem unphase_mul {c : ℝ} (hc : 0 < c) (φ : ℝ) {z : ℂ} (hz : z ≠ 0) (y : ℂ) :
    unphase ((c : ℂ) * Complex.exp (Complex.I * φ) * z) (Complex.exp (Complex.I * φ) * y) =
      unphase z y := by
  have key : ∀ z : ℂ, z ≠ 0 → Complex.exp (-(Complex.I * (Complex.arg z : ℝ))) = (‖z‖ : ℂ) / z := by
    intro z hz
    rw [eq_div_iff hz, mul_comm]
    exact phase_mul z
  have hc' : (c : ℂ) ≠ 0 := by exact_mod_cast hc.ne'
  have he := Complex.exp_ne_zero (Complex.I * φ)
  unfold unphase
  rw [key _ (mul_ne_zero (mul_ne_zero hc' he) hz), key z hz]
  have hn : ‖(c : ℂ) * Complex.exp (Complex.I * φ) * z‖ = c * ‖z‖ := by
    rw [norm_mul, norm_mul, Complex.norm_real, Real.norm_of_nonneg hc.le, Complex.norm_exp]
    simp
  rw [hn]
  push_cast
  field_simp

theorem phaseRamp_norm (f0 f1 : ℝ) (i j : ℕ) : ‖phaseRamp f0 f1 i j‖ = 1 := by
  unfold phaseRamp
  rw [Complex.norm_exp]
  have : (2 * Real.pi * Complex.I * (f0 * i + f1 * j) : ℂ).re = 0 := by simp
  rw [this, Real.exp_zero]

theorem phaseRamp_conj (f0 f1 : ℝ) (i j : ℕ) :
    (starRingEnd ℂ) (phaseRamp f0 f1 i j) * phaseRamp f0 f1 i j = 1 := by
  rw [mul_comm, Complex.mul_conj, Complex.normSq_eq_norm_sq, phaseRamp_norm]
  simp

theorem phaseRamp_add (f0 f1 : ℝ) (t0 t1 i j : ℕ) :
    phaseRamp f0 f1 (t0 + i) (t1 + j) = phaseRamp f0 f1 t0 t1 * phaseRamp f0 f1 i j := by
  unfold phaseRamp
  rw [← Complex.exp_add]
  congr 1
  push_cast; ring

theorem normalization_eq (w : Wave n m) : stdNormalization w = Real.sqrt (power w / (n * m)) := rfl

theorem normalization_pos {w : Wave n m} (h : stdNormalization w ≠ 0) : 0 < stdNormalization w :=
  lt_of_le_of_ne (Real.sqrt_nonneg _) (Ne.symm h)

theorem normalization_zero_iff (w : Wave n m) : stdNormalization w = 0 ↔ w = 0 := by
  rw [normalization_eq, Real.sqrt_eq_zero']
  have hs := size_pos (n := n) (m := m)
  constructor
  · intro h
    by_contra hc
    have h0 : 0 ≤ power w := sum_nonneg fun i _ => sum_nonneg fun j _ => sq_nonneg _
    have := lt_of_le_of_ne h0 (Ne.symm (power_pos_of_ne hc))
    have := div_pos this hs
    linarith
  · rintro rfl
    simp [power]

/-- The centre frequency exists for a nonzero wave. -/
theorem centerFreq_isSome {w : Wave n m} (h : w ≠ 0) : (centerFreq w).isSome := by
  unfold centerFreq centroid
  have hs : ∑ i, ∑ j, ‖fftshift2 (fft2 w) i j‖ ^ 2 = (n * m) * power w := by
    have := power_fftshift2 (fft2 w)
    unfold power at this
    rw [this, fft2_parseval_norm]
    rfl
  have hne : ∑ i, ∑ j, ‖fftshift2 (fft2 w) i j‖ ^ 2 ≠ 0 := by
    rw [hs]; exact mul_ne_zero size_pos.ne' (power_pos_of_ne h)
  simp only [if_neg hne, Option.map_some, Option.isSome_some]

/-! ### The property -/

/-- What an output of `standardize` looks like: scaled, possibly ramp-corrected, phased. -/
theorem standardize_some {S : Finset (ZMod a × ZMod b)} {c : Bool} {R R' : Recon r n m a b}
    (h : standardize S c R = some R') :
    stdNormalization (R.probe 0) ≠ 0 ∧ ∃ f : ℝ × ℝ, (c = false → f = (0, 0)) ∧
      R' = stdPhase S (stdRamp f (stdScale R)) := by
  unfold standardize at h
  split at h
  · exact absurd h (by simp)
  · rename_i hn
    refine ⟨hn, ?_⟩
    cases c with
    | true =>
      simp only [if_true] at h
      obtain ⟨f, -, hf⟩ := Option.map_eq_some_iff.1 h
      exact ⟨f, by simp, hf.symm⟩
    | false =>
      simp only [Bool.false_eq_true, if_false, Option.some.injEq] at h
      refine ⟨(0, 0), fun _ => rfl, ?_⟩
      rw [← h]
      have : stdRamp (0, 0) (stdScale R) = stdScale R := by
        unfold stdRamp phaseRamp
        simp
      rw [this]

/-- **C47** (defined): `standardize` gives a result unless the first probe mode vanishes identically
(then every value is NaN). -/
theorem standardize_defined (S : Finset (ZMod a × ZMod b)) (c : Bool) (R : Recon r n m a b) :
    standardize S c R = none ↔ R.probe 0 = 0 := by
  unfold standardize
  by_cases h : stdNormalization (R.probe 0) = 0
  · rw [if_pos h]
    simp [(normalization_zero_iff _).1 h]
  · rw [if_neg h]
    have hne : R.probe 0 ≠ 0 := fun h0 => h ((normalization_zero_iff _).2 h0)
    have hne' : (stdScale R).probe 0 ≠ 0 := by
      intro h0
      apply hne
      funext i j
      have := congrFun (congrFun h0 i) j
      simp only [stdScale, Pi.zero_apply, div_eq_zero_iff] at this
      rcases this with h1 | h1
      · exact h1
      · exact absurd (by exact_mod_cast h1) h
    have hs := centerFreq_isSome hne'
    cases c with
    | true =>
      simp only [if_true, Option.map_eq_none_iff, hne, iff_false]
      intro h0; rw [h0] at hs; simp at hs
    | false => simp [hne]

/-- **C47** (nothing physical changes): for every reconstruction, slice and option, every exit wave of
every mode at every integer translation at which the probe fits on the object changes only by a
constant phase factor; so every simulated pattern is unchanged. -/
theorem standardize_preserves_exit_waves {S : Finset (ZMod a × ZMod b)} {c : Bool}
    {R R' : Recon r n m a b} (h : standardize S c R = some R') (k : Fin (r + 1)) (t0 t1 : ℕ)
    (h0 : t0 + n ≤ a) (h1 : t1 + m ≤ b) :
    ∃ u : ℂ, ‖u‖ = 1 ∧ ∀ i j, exitWave R' k t0 t1 i j = u * exitWave R k t0 t1 i j := by
  obtain ⟨hn, f, -, rfl⟩ := standardize_some h
  have hc : ((stdNormalization (R.probe 0) : ℝ) : ℂ) ≠ 0 := by exact_mod_cast hn
  refine ⟨Complex.exp (-(Complex.I * (Complex.arg (∑ i, ∑ j, (stdRamp f (stdScale R)).probe k i j) : ℝ))) *
    Complex.exp (-(Complex.I * (Complex.arg (∑ p ∈ S, (stdRamp f (stdScale R)).obj p.1 p.2) : ℝ))) *
    phaseRamp f.1 f.2 t0 t1, ?_, fun i j => ?_⟩
  · rw [norm_mul, norm_mul, phaseRamp_norm, Complex.norm_exp, Complex.norm_exp]
    simp
  · have hi := i.val_lt
    have hj := j.val_lt
    unfold exitWave stdPhase unphase
    simp only
    generalize Complex.exp (-(Complex.I * (Complex.arg (∑ i, ∑ j,
      (stdRamp f (stdScale R)).probe k i j) : ℝ))) = u1
    generalize Complex.exp (-(Complex.I * (Complex.arg (∑ p ∈ S,
      (stdRamp f (stdScale R)).obj p.1 p.2) : ℝ))) = u2
    simp only [stdRamp, stdScale]
    rw [ZMod.val_natCast, ZMod.val_natCast, Nat.mod_eq_of_lt (by omega), Nat.mod_eq_of_lt (by omega),
      phaseRamp_add]
    have hr := phaseRamp_conj f.1 f.2 i.val j.val
    generalize phaseRamp f.1 f.2 i.val j.val = q at *
    generalize phaseRamp f.1 f.2 t0 t1 = s
    generalize (starRingEnd ℂ) q = q' at *
    field_simp
    linear_combination (R.probe k i j * R.obj ((t0 + i.val : ℕ) : ZMod a) ((t1 + j.val : ℕ) : ZMod b) *
      u1 * u2 * s) * hr

/-- **C47** (normal form): the mean intensity per pixel of the first probe mode is one, the sum of
every probe mode and the sum of the object over the slice are real and not negative. -/
theorem standardize_normal_form {S : Finset (ZMod a × ZMod b)} {c : Bool} {R R' : Recon r n m a b}
    (h : standardize S c R = some R') :
    power (R'.probe 0) / (n * m) = 1 ∧
    (∀ k, ∃ x : ℝ, 0 ≤ x ∧ ∑ i, ∑ j, R'.probe k i j = x) ∧
    (∃ x : ℝ, 0 ≤ x ∧ ∑ p ∈ S, R'.obj p.1 p.2 = x) := by
  obtain ⟨hn, f, -, rfl⟩ := standardize_some h
  have hpos := normalization_pos hn
  refine ⟨?_, fun k => ⟨_, norm_nonneg _, sum_unphase _⟩, ?_⟩
  · have e : power ((stdPhase S (stdRamp f (stdScale R))).probe 0) =
        power (R.probe 0) / stdNormalization (R.probe 0) ^ 2 := by
      unfold power
      rw [sum_div]
      refine sum_congr rfl fun i _ => ?_
      rw [sum_div]
      refine sum_congr rfl fun j _ => ?_
      simp only [stdPhase, unphase_norm, stdRamp, stdScale]
      rw [norm_mul, Complex.norm_conj, phaseRamp_norm, mul_one, norm_div, Complex.norm_real,
        Real.norm_of_nonneg hpos.le, div_pow]
    have hsq : stdNormalization (R.probe 0) ^ 2 = power (R.probe 0) / (n * m) := by
      rw [normalization_eq, Real.sq_sqrt]
      exact div_nonneg (sum_nonneg fun i _ => sum_nonneg fun j _ => sq_nonneg _) size_pos.le
    have hp : power (R.probe 0) ≠ 0 :=
      power_pos_of_ne fun h0 => hn ((normalization_zero_iff _).2 h0)
    rw [e, hsq]
    have := (size_pos (n := n) (m := m)).ne'
    rw [div_div_eq_mul_div, mul_comm, mul_div_assoc, div_self hp, mul_one, div_self this]
  · refine ⟨_, norm_nonneg (∑ p ∈ S, (stdRamp f (stdScale R)).obj p.1 p.2), ?_⟩
    simp only [stdPhase, unphase, ← sum_mul]
    exact phase_mul _

/-- A standardized reconstruction is not changed by standardizing again. -/
theorem scale_of_normalized {R : Recon r n m a b} (h : power (R.probe 0) / (n * m) = 1) :
    stdScale R = R := by
  have : stdNormalization (R.probe 0) = 1 := by rw [normalization_eq, h, Real.sqrt_one]
  unfold stdScale
  rw [this]
  simp

/-- **C47** (idempotence): without ramp correction, standardizing twice is standardizing once. -/
theorem standardize_idempotent {S : Finset (ZMod a × ZMod b)} {R R' : Recon r n m a b}
    (h : standardize S false R = some R') : standardize S false R' = some R' := by
  obtain ⟨h1, h2, h3⟩ := standardize_normal_form h
  have hn : stdNormalization (R'.probe 0) ≠ 0 := by
    rw [normalization_eq, h1, Real.sqrt_one]; exact one_ne_zero
  unfold standardize
  rw [if_neg hn, scale_of_normalized h1]
  simp only [Bool.false_eq_true, if_false, Option.some.injEq]
  obtain ⟨x, hx, hx'⟩ := h3
  unfold stdPhase
  rw [hx']
  obtain ⟨P, O⟩ := R'
  simp only [Recon.mk.injEq]
  refine ⟨?_, ?_⟩
  · funext k i j
    obtain ⟨y, hy, hy'⟩ := h2 k
    simp only at hy'
    rw [hy', unphase_real hy]
  · funext i j
    rw [unphase_real hx]

/-- **C47** (canonical): without ramp correction, two reconstructions that differ only by scaling
probe and object inversely by `s > 0` and by constant phases of the object and of every probe mode
have the same standardization, provided the sums whose phase is normalized do not vanish. -/
theorem standardize_canonical {S : Finset (ZMod a × ZMod b)} {R R₂ : Recon r n m a b} {s : ℝ}
    (hs : 0 < s) {α : ℝ} {β : Fin (r + 1) → ℝ}
    (hp : ∀ k i j, R₂.probe k i j = (s : ℂ) * Complex.exp (Complex.I * β k) * R.probe k i j)
    (ho : ∀ i j, R₂.obj i j = (s : ℂ)⁻¹ * Complex.exp (Complex.I * α) * R.obj i j)
    (h1 : ∀ k, ∑ i, ∑ j, R.probe k i j ≠ 0) (h2 : ∑ p ∈ S, R.obj p.1 p.2 ≠ 0) :
    standardize S false R₂ = standardize S false R := by
  have hs' : (s : ℂ) ≠ 0 := by exact_mod_cast hs.ne'
  have hnorm : stdNormalization (R₂.probe 0) = s * stdNormalization (R.probe 0) := by
    rw [normalization_eq, normalization_eq]
    have : power (R₂.probe 0) = s ^ 2 * power (R.probe 0) := by
      unfold power
      rw [mul_sum]
      refine sum_congr rfl fun i _ => ?_
      rw [mul_sum]
      refine sum_congr rfl fun j _ => ?_
      rw [hp, norm_mul, norm_mul, Complex.norm_real, Real.norm_of_nonneg hs.le, Complex.norm_exp]
      simp [mul_pow]
    rw [this, mul_div_assoc, Real.sqrt_mul (by positivity), Real.sqrt_sq hs.le]
  have hne : R.probe 0 ≠ 0 := by
    intro h0
    apply h1 0
    rw [h0]
    simp
  have hN : stdNormalization (R.probe 0) ≠ 0 := fun h => hne ((normalization_zero_iff _).1 h)
  have hpos := normalization_pos hN
  have hN₂ : stdNormalization (R₂.probe 0) ≠ 0 := by rw [hnorm]; exact mul_ne_zero hs.ne' hN
  unfold standardize
  rw [if_neg hN, if_neg hN₂]
  simp only [Bool.false_eq_true, if_false, Option.some.injEq]
  have hc : ((stdNormalization (R.probe 0) : ℝ) : ℂ) ≠ 0 := by exact_mod_cast hN
  have eP : ∀ k i j, (stdScale R₂).probe k i j =
      Complex.exp (Complex.I * β k) * (stdScale R).probe k i j := by
    intro k i j
    simp only [stdScale, hp, hnorm]
    push_cast
    field_simp
  have eO : ∀ i j, (stdScale R₂).obj i j = Complex.exp (Complex.I * α) * (stdScale R).obj i j := by
    intro i j
    simp only [stdScale, ho, hnorm]
    push_cast
    field_simp
  unfold stdPhase
  simp only [eP, eO, ← mul_sum, Recon.mk.injEq]
  have one_mul' : ∀ z : ℂ, z = ((1 : ℝ) : ℂ) * z := by intro z; simp
  refine ⟨?_, ?_⟩
  · funext k i j
    have hz : ∑ i, ∑ j, (stdScale R).probe k i j ≠ 0 := by
      simp only [stdScale, ← sum_div]
      exact div_ne_zero (h1 k) hc
    have := unphase_mul one_pos (β k) hz ((stdScale R).probe k i j)
    rw [Complex.ofReal_one, one_mul] at this
    exact this
  · funext i j
    have hz : ∑ p ∈ S, (stdScale R).obj p.1 p.2 ≠ 0 := by
      simp only [stdScale, ← sum_mul]
      exact mul_ne_zero h2 hc
    have := unphase_mul one_pos α hz ((stdScale R).obj i j)
    rw [Complex.ofReal_one, one_mul] at this
    exact this

/-! ### Ramp correction -/

/-- A ramp by an integer number of cycles across the array rolls the spectrum. -/
theorem fft2_ramp (s0 s1 : ℤ) (w : Wave n m) (k : ZMod n) (l : ZMod m) :
    fft2 (fun i j => phaseRamp ((s0 : ℝ) / n) ((s1 : ℝ) / m) i.val j.val * w i j) k l =
      fft2 w (k - (s0 : ZMod n)) (l - (s1 : ZMod m)) := by
  have hn : (n : ℂ) ≠ 0 := by exact_mod_cast NeZero.ne n
  have hm : (m : ℂ) ≠ 0 := by exact_mod_cast NeZero.ne m
  have hr : ∀ (i : ZMod n) (j : ZMod m), phaseRamp ((s0 : ℝ) / n) ((s1 : ℝ) / m) i.val j.val =
      stdAddChar (i * (s0 : ZMod n)) * stdAddChar (j * (s1 : ZMod m)) := by
    intro i j
    have e0 : i * (s0 : ZMod n) = (((i.val : ℤ) * s0 : ℤ) : ZMod n) := by push_cast; simp
    have e1 : j * (s1 : ZMod m) = (((j.val : ℤ) * s1 : ℤ) : ZMod m) := by push_cast; simp
    rw [e0, e1, stdAddChar_coe, stdAddChar_coe, ← Complex.exp_add]
    unfold phaseRamp
    congr 1
    push_cast
    field_simp
  rw [fft2_eq, fft2_eq]
  refine sum_congr rfl fun i _ => sum_congr rfl fun j _ => ?_
  rw [hr, show -(i * (k - (s0 : ZMod n))) = -(i * k) + i * (s0 : ZMod n) by ring,
    show -(j * (l - (s1 : ZMod m))) = -(j * l) + j * (s1 : ZMod m) by ring,
    AddChar.map_add_eq_mul, AddChar.map_add_eq_mul]
  ring

theorem centerFreq_ramp {w : Wave n m} {c : ℝ × ℝ} (h : centerFreq w = some c) (s0 s1 : ℤ)
    (hin : ∀ i j, fftshift2 (fft2 w) i j ≠ 0 → 0 ≤ (i.val : ℤ) + s0 ∧ (i.val : ℤ) + s0 < n ∧
      0 ≤ (j.val : ℤ) + s1 ∧ (j.val : ℤ) + s1 < m) :
    centerFreq (fun i j => phaseRamp ((s0 : ℝ) / n) ((s1 : ℝ) / m) i.val j.val * w i j) =
      some (c.1 + (s0 : ℝ) / n, c.2 + (s1 : ℝ) / m) := by
  have hn : (n : ℝ) ≠ 0 := by exact_mod_cast NeZero.ne n
  have hm : (m : ℝ) ≠ 0 := by exact_mod_cast NeZero.ne m
  unfold centerFreq at h ⊢
  have e : (fun k l => ‖fftshift2 (fft2 fun i j => phaseRamp ((s0 : ℝ) / n) ((s1 : ℝ) / m)
      i.val j.val * w i j) k l‖ ^ 2) = fun k l =>
      (fun k l => ‖fftshift2 (fft2 w) k l‖ ^ 2) (k - (s0 : ZMod n)) (l - (s1 : ZMod m)) := by
    funext k l
    simp only [fftshift2, fft2_ramp]
    rw [sub_right_comm k, sub_right_comm l]
  rw [e, centroid_translate (fun k l => ‖fftshift2 (fft2 w) k l‖ ^ 2) s0 s1 (fun i j hij => hin i j (by intro h0; rw [h0] at hij; simp at hij))]
  obtain ⟨c', hc', rfl⟩ := Option.map_eq_some_iff.1 h
  rw [hc']
  simp only [Option.map_some, Option.some.injEq, Prod.mk.injEq]
  constructor <;> field_simp <;> ring

theorem centerFreq_scale (c : ℂ) (hc : c ≠ 0) (w : Wave n m) :
    centerFreq (fun i j => w i j * c) = centerFreq w := by
  unfold centerFreq
  congr 1
  have e : (fun k l => ‖fftshift2 (fft2 fun i j => w i j * c) k l‖ ^ 2) = fun k l =>
      ‖c‖ ^ 2 * ‖fftshift2 (fft2 w) k l‖ ^ 2 := by
    funext k l
    simp only [fftshift2, fft2_smul]
    rw [norm_mul, mul_pow, mul_comm]
  rw [e, centroid_scale _ _ (by positivity)]

/-- **C47** (ramp correction, what holds): if the centroid of the spectrum of the first probe mode is
a whole number of pixels away from the zero frequency and moving the spectrum by that many pixels
pushes nothing over the edge, the corrected probe has its spectral centroid at zero frequency.
Missing: the general case, see `standardize_ramp_violated`. -/
theorem standardize_ramp_partial {S : Finset (ZMod a × ZMod b)} {R R' : Recon r n m a b}
    (h : standardize S true R = some R') (s0 s1 : ℤ)
    (hc : centerFreq (R.probe 0) = some ((s0 : ℝ) / n, (s1 : ℝ) / m))
    (hin : ∀ i j, fftshift2 (fft2 (R.probe 0)) i j ≠ 0 → 0 ≤ (i.val : ℤ) - s0 ∧
      (i.val : ℤ) - s0 < n ∧ 0 ≤ (j.val : ℤ) - s1 ∧ (j.val : ℤ) - s1 < m) :
    centerFreq (R'.probe 0) = some (0, 0) := by
  unfold standardize at h
  split at h
  · exact absurd h (by simp)
  rename_i hn
  have hN : ((stdNormalization (R.probe 0) : ℝ) : ℂ)⁻¹ ≠ 0 := by
    rw [ne_eq, inv_eq_zero]; exact_mod_cast hn
  have e0 : (stdScale R).probe 0 = fun i j =>
      R.probe 0 i j * ((stdNormalization (R.probe 0) : ℝ) : ℂ)⁻¹ := by
    funext i j; simp [stdScale, div_eq_mul_inv]
  simp only [if_true] at h
  rw [e0, centerFreq_scale _ hN, hc] at h
  simp only [Option.map_some, Option.some.injEq] at h
  subst h
  have e1 : (stdPhase S (stdRamp ((s0 : ℝ) / n, (s1 : ℝ) / m) (stdScale R))).probe 0 = fun i j =>
      (phaseRamp (((-s0 : ℤ) : ℝ) / n) (((-s1 : ℤ) : ℝ) / m) i.val j.val * R.probe 0 i j) *
      (((stdNormalization (R.probe 0) : ℝ) : ℂ)⁻¹ * Complex.exp (-(Complex.I * (Complex.arg
        (∑ i, ∑ j, (stdRamp ((s0 : ℝ) / n, (s1 : ℝ) / m) (stdScale R)).probe 0 i j) : ℝ)))) := by
    funext i j
    have hconj : (starRingEnd ℂ) (phaseRamp ((s0 : ℝ) / n) ((s1 : ℝ) / m) i.val j.val) =
        phaseRamp (((-s0 : ℤ) : ℝ) / n) (((-s1 : ℤ) : ℝ) / m) i.val j.val := by
      unfold phaseRamp
      rw [← Complex.exp_conj]
      congr 1
      simp only [map_mul, map_add, Complex.conj_I, Complex.conj_ofReal, map_ofNat, map_natCast]
      push_cast
      ring
    simp only [stdPhase, unphase]
    conv_lhs => enter [1]; simp only [stdRamp, stdScale]
    rw [hconj]
    ring
  rw [e1, centerFreq_scale _ (mul_ne_zero hN (Complex.exp_ne_zero _)),
    centerFreq_ramp hc (-s0) (-s1) (by intro i j hij; have := hin i j hij; omega)]
  simp only [Option.some.injEq, Prod.mk.injEq]
  push_cast
  constructor <;> ring

theorem fft2_flat (c : ℂ) (k : ZMod n) (l : ZMod m) :
    fft2 (fun _ _ => c) k l = if k = 0 ∧ l = 0 then (n : ℂ) * m * c else 0 := by
  have e : ∀ i : ZMod n, ∀ j : ZMod m, (stdAddChar (-(i * k)) * stdAddChar (-(j * l)) * c : ℂ) =
      stdAddChar (i * -k) * (stdAddChar (j * -l) * c) := fun i j => by rw [mul_neg, mul_neg, mul_assoc]
  rw [fft2_eq]
  simp only [e]
  simp only [← mul_sum, ← sum_mul]
  rw [char_sum, char_sum]
  simp only [neg_eq_zero]
  by_cases hk : k = 0 <;> by_cases hl : l = 0 <;> simp [hk, hl, mul_assoc]

theorem centerFreq_flat {c : ℂ} (hc : c ≠ 0) : centerFreq (fun (_ : ZMod n) (_ : ZMod m) => c) = some (0, 0) := by
  have hn : (n : ℝ) ≠ 0 := by exact_mod_cast NeZero.ne n
  have hm : (m : ℝ) ≠ 0 := by exact_mod_cast NeZero.ne m
  set A : ℝ := ‖(n : ℂ) * m * c‖ ^ 2 with hA
  have hA0 : A ≠ 0 := by
    rw [hA, norm_mul, norm_mul]
    simp [hn, hm, hc]
  have e : (fun k l => ‖fftshift2 (fft2 fun (_ : ZMod n) (_ : ZMod m) => c) k l‖ ^ 2) = fun k l =>
      if k = ((n / 2 : ℕ) : ZMod n) then (if l = ((m / 2 : ℕ) : ZMod m) then A else 0) else 0 := by
    funext k l
    simp only [fftshift2, fft2_flat, sub_eq_zero]
    by_cases hk : k = ((n / 2 : ℕ) : ZMod n) <;> by_cases hl : l = ((m / 2 : ℕ) : ZMod m) <;> simp [hk, hl, hA]
  have v0 : (((n / 2 : ℕ) : ZMod n)).val = n / 2 :=
    ZMod.val_cast_of_lt (Nat.div_lt_self (NeZero.pos n) one_lt_two)
  have v1 : (((m / 2 : ℕ) : ZMod m)).val = m / 2 :=
    ZMod.val_cast_of_lt (Nat.div_lt_self (NeZero.pos m) one_lt_two)
  unfold centerFreq centroid
  rw [e]
  simp only [mul_ite, mul_zero, sum_ite_irrel, sum_const_zero, sum_ite_eq', mem_univ, if_true, v0, v1]
  rw [if_neg hA0]
  simp only [Option.map_some, Option.some.injEq, Prod.mk.injEq]
  rw [mul_div_assoc, mul_div_assoc, div_self hA0]
  simp

/-- **C47** (ramp correction of a plane wave): a first probe mode which is a tilted plane wave with a whole number of
periods, below the highest frequency of the array, becomes the constant 1. -/
theorem standardize_plane_wave {S : Finset (ZMod a × ZMod b)} {R : Recon r n m a b} (s0 s1 : ℤ) {A : ℂ} (hA : A ≠ 0)
    (hR : ∀ i j, R.probe 0 i j = A * Complex.exp (2 * Real.pi * Complex.I * ((s0 : ℝ) / n * i.val + (s1 : ℝ) / m * j.val)))
    (h0 : 0 ≤ ((n / 2 : ℕ) : ℤ) + s0 ∧ ((n / 2 : ℕ) : ℤ) + s0 < n) (h1 : 0 ≤ ((m / 2 : ℕ) : ℤ) + s1 ∧ ((m / 2 : ℕ) : ℤ) + s1 < m) :
    ∃ R', standardize S true R = some R' ∧ ∀ i j, R'.probe 0 i j = 1 := by
  have hn : (n : ℝ) ≠ 0 := by exact_mod_cast NeZero.ne n
  have hm : (m : ℝ) ≠ 0 := by exact_mod_cast NeZero.ne m
  have hR' : R.probe 0 = fun i j => phaseRamp ((s0 : ℝ) / n) ((s1 : ℝ) / m) i.val j.val * A := by
    funext i j
    rw [hR, mul_comm]
    unfold phaseRamp
    push_cast
    rfl
  have hr1 : ∀ i j : ℕ, ‖phaseRamp ((s0 : ℝ) / n) ((s1 : ℝ) / m) i j‖ = 1 := by
    intro i j
    unfold phaseRamp
    rw [show (2 * Real.pi * Complex.I * (((s0 : ℝ) / n : ℝ) * (i : ℂ) + ((s1 : ℝ) / m : ℝ) * (j : ℂ)) : ℂ) =
      ((2 * Real.pi * ((s0 : ℝ) / n * i + (s1 : ℝ) / m * j) : ℝ) : ℂ) * Complex.I by push_cast; ring,
      Complex.norm_exp_ofReal_mul_I]
  have hN : stdNormalization (R.probe 0) = ‖A‖ := by
    unfold stdNormalization
    rw [hR']
    simp only [norm_mul, hr1, one_mul, sum_const, card_univ, ZMod.card, nsmul_eq_mul]
    rw [← mul_assoc, mul_div_assoc, mul_comm, div_mul_cancel₀ _ (mul_ne_zero hn hm), Real.sqrt_sq (norm_nonneg _)]
  have hA1 : (‖A‖ : ℂ) ≠ 0 := by exact_mod_cast norm_ne_zero_iff.2 hA
  have hc : centerFreq ((stdScale R).probe 0) = some ((s0 : ℝ) / n, (s1 : ℝ) / m) := by
    have e0 : (stdScale R).probe 0 = fun i j => phaseRamp ((s0 : ℝ) / n) ((s1 : ℝ) / m) i.val j.val *
        (fun (_ : ZMod n) (_ : ZMod m) => A / (‖A‖ : ℂ)) i j := by
      funext i j
      simp only [stdScale, hN]
      rw [hR', mul_div_assoc]
    rw [e0, centerFreq_ramp (centerFreq_flat (div_ne_zero hA hA1)) s0 s1]
    · simp
    · intro i j hij
      simp only [fftshift2, fft2_flat, sub_eq_zero] at hij
      by_cases hk : i = ((n / 2 : ℕ) : ZMod n) ∧ j = ((m / 2 : ℕ) : ZMod m)
      · rw [hk.1, hk.2, ZMod.val_cast_of_lt (Nat.div_lt_self (NeZero.pos n) one_lt_two),
          ZMod.val_cast_of_lt (Nat.div_lt_self (NeZero.pos m) one_lt_two)]
        exact ⟨h0.1, h0.2, h1.1, h1.2⟩
      · rw [if_neg hk] at hij
        exact absurd rfl hij
  refine ⟨stdPhase S (stdRamp ((s0 : ℝ) / n, (s1 : ℝ) / m) (stdScale R)), ?_, ?_⟩
  · unfold standardize
    rw [if_neg (by rw [hN]; exact norm_ne_zero_iff.2 hA), if_pos rfl, hc]
    rfl
  · have hp : ∀ i j, (stdRamp ((s0 : ℝ) / n, (s1 : ℝ) / m) (stdScale R)).probe 0 i j = A / (‖A‖ : ℂ) := by
      intro i j
      simp only [stdRamp, stdScale, hN]
      rw [hR']
      beta_reduce
      have hu : phaseRamp ((s0 : ℝ) / n) ((s1 : ℝ) / m) i.val j.val *
          (starRingEnd ℂ) (phaseRamp ((s0 : ℝ) / n) ((s1 : ℝ) / m) i.val j.val) = 1 := by
        rw [Complex.mul_conj']
        rw [hr1]; simp
      linear_combination (A / (‖A‖ : ℂ)) * hu
    intro i j
    simp only [stdPhase, hp, sum_const, card_univ, ZMod.card, nsmul_eq_mul]
    have hpos : ((n : ℂ) * ((m : ℂ) * (A / (‖A‖ : ℂ)))) = ((n * m : ℝ) : ℂ) * (A / (‖A‖ : ℂ)) := by push_cast; ring
    unfold unphase
    rw [hpos, Complex.arg_real_mul _ (by have := NeZero.pos n; have := NeZero.pos m; positivity), phase_mul]
    rw [norm_div]
    simp [norm_ne_zero_iff.2 hA]

/-- **C47** (negation): the probe `[1, 0]` keeps its spectral centroid half a pixel away from the zero
frequency when the ramp is corrected, so the documented choice "the centroid of the FFT of the probe
is at zero frequency" fails. -/
theorem standardize_ramp_violated :
    ∃ (R R' : Recon 0 2 1 2 1), standardize (defaultSlice 2 1) true R = some R' ∧
      centerFreq (R'.probe 0) ≠ some (0, 0) := by
  let R : Recon 0 2 1 2 1 := { probe := fun _ i _ => if i = 0 then 1 else 0, obj := fun _ _ => 1 }
  have hp : R.probe 0 ≠ 0 := by
    intro h0
    have := congrFun (congrFun h0 0) 0
    simp [R] at this
  cases hR : standardize (defaultSlice 2 1) true R with
  | none => exact absurd ((standardize_defined _ _ _).1 hR) hp
  | some R' =>
    refine ⟨R, R', hR, ?_⟩
    obtain ⟨hn, f, -, rfl⟩ := standardize_some hR
    -- the result is a multiple of the probe
    have hN : ((stdNormalization (R.probe 0) : ℝ) : ℂ)⁻¹ ≠ 0 := by
      rw [ne_eq, inv_eq_zero]; exact_mod_cast hn
    have e : (stdPhase (defaultSlice 2 1) (stdRamp f (stdScale R))).probe 0 = fun i j =>
        R.probe 0 i j * (((stdNormalization (R.probe 0) : ℝ) : ℂ)⁻¹ * Complex.exp (-(Complex.I *
        (Complex.arg (∑ i, ∑ j, (stdRamp f (stdScale R)).probe 0 i j) : ℝ)))) := by
      funext i j
      simp only [stdPhase, unphase]
      conv_lhs => enter [1]; simp only [stdRamp, stdScale]
      by_cases hi : i = 0
      · have hj : j = 0 := Subsingleton.elim _ _
        subst hi hj
        have : phaseRamp f.1 f.2 (0 : ZMod 2).val (0 : ZMod 1).val = 1 := by
          simp [phaseRamp]
        rw [this]
        simp only [map_one, mul_one]
        ring
      · simp [R, hi]
    rw [e, centerFreq_scale _ (mul_ne_zero hN (Complex.exp_ne_zero _))]
    have hfft : fft2 (R.probe 0) = fun _ _ => 1 := by
      funext k l
      rw [fft2_eq, Fintype.sum_eq_single 0 (by intro i hi; simp [R, hi])]
      rw [Fintype.sum_eq_single 0 (by intro j hj; exact absurd (Subsingleton.elim _ _) hj)]
      simp [R]
    unfold centerFreq centroid
    rw [hfft]
    have hu : (univ : Finset (ZMod 2)) = {0, 1} := by decide
    have v1 : ((1 : ZMod 2)).val = 1 := rfl
    have v0 : (default : ZMod 1).val = 0 := rfl
    simp [fftshift2, hu, v1, v0, -ZMod.natCast_val]
    norm_num

/-- Non-vacuity of `standardize_ramp_partial`: the probe `[1, -1]`, whose spectrum is a single spot one
pixel from the zero frequency. -/
example : ∃ (R R' : Recon 0 2 1 2 1), standardize (defaultSlice 2 1) true R = some R' ∧
    centerFreq (R.probe 0) = some (((-1 : ℤ) : ℝ) / (2 : ℕ), ((0 : ℤ) : ℝ) / (1 : ℕ)) ∧
    ∀ i j, fftshift2 (fft2 (R.probe 0)) i j ≠ 0 → 0 ≤ (i.val : ℤ) - (-1) ∧
      (i.val : ℤ) - (-1) < (2 : ℕ) ∧ 0 ≤ (j.val : ℤ) - 0 ∧ (j.val : ℤ) - 0 < (1 : ℕ) := by
  let R : Recon 0 2 1 2 1 := { probe := fun _ i _ => if i = 0 then 1 else -1, obj := fun _ _ => 1 }
  have hp : R.probe 0 ≠ 0 := by
    intro h0
    have := congrFun (congrFun h0 0) 0
    simp [R] at this
  have hu : (univ : Finset (ZMod 2)) = {0, 1} := by decide
  have hx : (stdAddChar (1 : ZMod 2) : ℂ) = -1 := by
    have h := stdAddChar_coe (N := 2) 1
    rw [Int.cast_one] at h
    rw [h, show (2 * Real.pi * Complex.I * ((1 : ℤ) : ℂ) / ((2 : ℕ) : ℂ)) = Real.pi * Complex.I by
      push_cast; ring, Complex.exp_pi_mul_I]
  have hfft : fft2 (R.probe 0) = fun k _ => if k = 1 then 2 else 0 := by
    funext k l
    rw [fft2_eq, hu, sum_pair (by decide)]
    have hl : l = 0 := Subsingleton.elim _ _
    subst hl
    rw [Fintype.sum_eq_single 0 (by intro j hj; exact absurd (Subsingleton.elim _ _) hj)]
    rw [Fintype.sum_eq_single 0 (by intro j hj; exact absurd (Subsingleton.elim _ _) hj)]
    rcases (by decide : ∀ k : ZMod 2, k = 0 ∨ k = 1) k with rfl | rfl
    · simp [R]
    · have hneg : (-((1 : ZMod 2) * 1)) = 1 := by decide
      rw [hneg, hx]
      simp [R]
      norm_num
  cases hR : standardize (defaultSlice 2 1) true R with
  | none => exact absurd ((standardize_defined _ _ _).1 hR) hp
  | some R' =>
    refine ⟨R, R', hR, ?_, ?_⟩
    · unfold centerFreq centroid
      rw [hfft]
      have v1 : ((1 : ZMod 2)).val = 1 := rfl
      have v0 : (default : ZMod 1).val = 0 := rfl
      simp [fftshift2, hu, v1, v0, -ZMod.natCast_val]
      rfl
    · intro i j hij
      rw [hfft] at hij
      have hj : j = 0 := Subsingleton.elim _ _
      subst hj
      rcases (by decide : ∀ k : ZMod 2, k = 0 ∨ k = 1) i with rfl | rfl
      · decide
      · exfalso; apply hij; simp [fftshift2]

/-! ### The default region for the phase of the object -/

theorem card_val_range (k l : ℕ) (hl : l ≤ a) :
    ((univ : Finset (ZMod a)).filter fun x => k ≤ x.val ∧ x.val < l).card = l - k := by
  rw [← Nat.card_Ico]
  refine card_bij (fun x _ => x.val) ?_ ?_ ?_
  · intro x hx
    simpa using hx
  · intro x _ y _ h
    exact ZMod.val_injective a h
  · intro z hz
    rw [mem_Ico] at hz
    have hv : ((z : ZMod a)).val = z := ZMod.val_cast_of_lt (by omega)
    exact ⟨z, by simp [hv, hz], hv⟩

/-- **C47** (default region): the object phase is taken from the middle quarter of each axis: a quarter of each axis, and
for sizes divisible by 8 symmetric about the middle of the object. -/
theorem standardize_default_region :
    (defaultSlice a b).card = 2 * (a / 8) * (2 * (b / 8)) ∧
    (8 ∣ a → 8 ∣ b → ∀ p ∈ defaultSlice a b, (-1 - p.1, -1 - p.2) ∈ defaultSlice a b) := by
  constructor
  · have e : defaultSlice a b = ((univ : Finset (ZMod a)).filter fun x => a / 8 * 3 ≤ x.val ∧ x.val < a / 8 * 5) ×ˢ
        ((univ : Finset (ZMod b)).filter fun x => b / 8 * 3 ≤ x.val ∧ x.val < b / 8 * 5) := by
      ext p
      simp [defaultSlice, and_assoc]
    rw [e, card_product, card_val_range _ _ (by omega), card_val_range _ _ (by omega)]
    congr 1 <;> omega
  · intro ha hb p hp
    have hv : ∀ {c : ℕ} [NeZero c] (x : ZMod c), (-1 - x).val + x.val + 1 = c := by
      intro c _ x
      have hx := ZMod.val_lt x
      have h1 : (-1 - x : ZMod c) = ((c - 1 - x.val : ℕ) : ZMod c) := by
        rw [Nat.cast_sub (by omega), Nat.cast_sub (NeZero.pos c)]
        simp
      rw [h1, ZMod.val_cast_of_lt (by omega)]
      omega
    simp only [defaultSlice, mem_filter, mem_univ, true_and] at hp ⊢
    have h1 := hv p.1
    have h2 := hv p.2
    omega

/-- **C47, violated part**: for objects of less than 8 pixels in one direction the default region is empty, and the phase of
the object is not standardized: the object is only scaled (here without ramp correction). -/
theorem standardize_small_object_violated (hs : a < 8 ∨ b < 8) {R R' : Recon r n m a b}
    (h : standardize (defaultSlice a b) false R = some R') :
    ∃ c : ℝ, 0 < c ∧ ∀ i j, R'.obj i j = c * R.obj i j := by
  unfold standardize at h
  split at h
  · exact absurd h (by simp)
  rename_i hn
  simp only [Bool.false_eq_true, if_false, Option.some.injEq] at h
  subst h
  have he : defaultSlice a b = ∅ := by
    rw [← card_eq_zero, standardize_default_region.1]
    rcases hs with h | h <;> simp [Nat.div_eq_of_lt h]
  refine ⟨_, normalization_pos hn, fun i j => ?_⟩
  simp only [stdPhase, he, sum_empty, unphase, Complex.arg_zero, stdScale]
  simp [mul_comm]

end Cdtools
