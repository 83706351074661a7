/- Property theorems C113: small changes of probe and object change the simulated amplitudes little. -/
import Verif.Props.FancyFromDataset
import Verif.Props.Bragg
import Verif.Lemmas.FancyLinear
import Verif.Props.PadDownsample
import Verif.Props.ModelLoss

set_option linter.unusedSectionVars false

namespace Cdtools
open Finset ZMod Matrix

/-! ### Amplitudes -/

/-- The root of a sum of squares changes by at most the root of the sum of the squared changes. -/
theorem sqrt_sum_sub {ι : Type} (s : Finset ι) (f g : ι → ℂ) :
    (Real.sqrt (∑ i ∈ s, ‖f i‖ ^ 2) - Real.sqrt (∑ i ∈ s, ‖g i‖ ^ 2)) ^ 2 ≤ ∑ i ∈ s, ‖f i - g i‖ ^ 2 := by
  have hA : 0 ≤ ∑ i ∈ s, ‖f i‖ ^ 2 := sum_nonneg fun i _ => sq_nonneg _
  have hB : 0 ≤ ∑ i ∈ s, ‖g i‖ ^ 2 := sum_nonneg fun i _ => sq_nonneg _
  have hcs := Real.sum_mul_le_sqrt_mul_sqrt s (fun i => ‖f i‖) (fun i => ‖g i‖)
  have h1 : ∑ i ∈ s, (‖f i‖ - ‖g i‖) ^ 2 ≤ ∑ i ∈ s, ‖f i - g i‖ ^ 2 := by
    refine sum_le_sum fun i _ => ?_
    exact sq_le_sq' (by have := norm_sub_norm_le (g i) (f i); rw [norm_sub_rev] at this; linarith) (norm_sub_norm_le _ _)
  have h2 : ∑ i ∈ s, (‖f i‖ - ‖g i‖) ^ 2 = (∑ i ∈ s, ‖f i‖ ^ 2) + (∑ i ∈ s, ‖g i‖ ^ 2) - 2 * ∑ i ∈ s, ‖f i‖ * ‖g i‖ := by
    rw [mul_sum, ← sum_add_distrib, ← sum_sub_distrib]
    exact sum_congr rfl fun i _ => by ring
  have h3 := Real.sq_sqrt hA
  have h4 := Real.sq_sqrt hB
  nlinarith

/-- Adding a constant to intensities, an efficiency of at most one and saturation do not enlarge differences of amplitudes. -/
theorem sqrt_affine_sub (q c A B : ℝ) (hq : 0 ≤ q) (hq1 : q ≤ 1) (hc : 0 ≤ c) (hA : 0 ≤ A) (hB : 0 ≤ B) :
    |Real.sqrt (q * A + c) - Real.sqrt (q * B + c)| ≤ |Real.sqrt A - Real.sqrt B| := by
  wlog h : B ≤ A generalizing A B
  · rw [abs_sub_comm, abs_sub_comm (Real.sqrt A)]
    exact this B A hB hA (le_of_not_ge h)
  have h1 : Real.sqrt B ≤ Real.sqrt A := Real.sqrt_le_sqrt h
  have h2 : Real.sqrt (q * B + c) ≤ Real.sqrt (q * A + c) := Real.sqrt_le_sqrt (by nlinarith)
  rw [abs_of_nonneg (sub_nonneg.2 h1), abs_of_nonneg (sub_nonneg.2 h2)]
  have hd : 0 ≤ Real.sqrt A - Real.sqrt B := sub_nonneg.2 h1
  have hX : 0 ≤ q * B + c := by positivity
  have key : Real.sqrt (q * A + c) ≤ Real.sqrt (q * B + c) + (Real.sqrt A - Real.sqrt B) := by
    rw [Real.sqrt_le_left (by positivity)]
    have e1 := Real.sq_sqrt hA
    have e2 := Real.sq_sqrt hB
    have e3 := Real.sq_sqrt hX
    have hsq : Real.sqrt q * Real.sqrt B ≤ Real.sqrt (q * B + c) := by
      rw [← Real.sqrt_mul hq]
      exact Real.sqrt_le_sqrt (by linarith)
    have hqs : q ≤ Real.sqrt q := by
      rw [Real.le_sqrt hq hq]
      nlinarith
    have hB0 := Real.sqrt_nonneg B
    have hqB : q * Real.sqrt B ≤ Real.sqrt (q * B + c) := le_trans (mul_le_mul_of_nonneg_right hqs hB0) hsq
    have hA' : A = (Real.sqrt B + (Real.sqrt A - Real.sqrt B)) ^ 2 := by nlinarith
    set δ := Real.sqrt A - Real.sqrt B
    rw [hA', add_sq, e2]
    nlinarith [mul_le_mul_of_nonneg_right hqB hd, sq_nonneg δ, mul_nonneg hq (sq_nonneg δ)]
  linarith

theorem sqrt_cutAt_sub (sat : Option ℝ) (x y : ℝ) (hx : 0 ≤ x) (hy : 0 ≤ y) :
    |Real.sqrt (cutAt sat x) - Real.sqrt (cutAt sat y)| ≤ |Real.sqrt x - Real.sqrt y| := by
  cases sat with
  | none => exact le_rfl
  | some s =>
    unfold cutAt
    simp only [max_eq_left hx, max_eq_left hy]
    have h : ∀ z, Real.sqrt (min z s) = min (Real.sqrt z) (Real.sqrt s) := fun z => Real.sqrt_monotone.map_min
    rw [h, h]
    refine (abs_min_sub_min_le_max _ _ _ _).trans ?_
    simp

/-- Sum of squared differences of the amplitudes of two patterns. -/
noncomputable def amplitudeChange (x y : Img ℝ) : ℝ :=
  ∑ i ∈ range x.h, ∑ j ∈ range x.w, (Real.sqrt (x.px i j) - Real.sqrt (y.px i j)) ^ 2

/-- The settings of a detector that counts at most one count per photon. -/
def Efficient (qe : Option (Img ℝ)) : Prop := ∀ q, qe = some q → ∀ i j, 0 ≤ q.px i j ∧ q.px i j ≤ 1

/-- The efficiency at a pixel; one without an efficiency map. -/
def qeAt (qe : Option (Img ℝ)) (i j : ℕ) : ℝ :=
  match qe with
  | none => 1
  | some q => q.px i j

theorem measQuadratic_shape (sat : Option ℝ) (os : ℕ) (hos : 0 < os) (bg : Img ℝ) (qe : Option (Img ℝ)) (I : Img ℝ) :
    let img := measQuadratic { saturation := sat, oversampling := os } bg qe I
    img.h = I.h / os ∧ img.w = I.w / os ∧ ∀ i j, img.px i j = cutAt sat ((qeAt qe i j) * ((∑ i' ∈ Ico (os * i) (os * i + os), ∑ j' ∈ Ico (os * j) (os * j + os), I.px i' j') / os ^ 2 + 1e-7) +
        bg.px i j ^ 2) := by
  intro img
  obtain ⟨h1, h2, h3, -⟩ := oversampling_averages_blocks { saturation := none, oversampling := os } rfl rfl hos I
  simp only at h1 h2 h3
  have hs : ∀ a : Img ℝ, (saturate sat a).h = a.h ∧ (saturate sat a).w = a.w ∧ ∀ i j, (saturate sat a).px i j = cutAt sat (a.px i j) := by
    intro a
    unfold saturate cutAt clamp0
    cases sat with
    | none => exact ⟨rfl, rfl, fun _ _ => rfl⟩
    | some s => exact ⟨rfl, rfl, fun _ _ => rfl⟩
  have himg : img = measQuadratic { saturation := sat, oversampling := os } bg qe I := rfl
  unfold measQuadratic at himg
  simp only at himg
  rw [himg]
  refine ⟨?_, ?_, ?_⟩
  · rw [(hs _).1]
    cases qe <;> exact h1
  · rw [(hs _).2.1]
    cases qe <;> exact h2
  · intro i j
    rw [(hs _).2.2]
    cases qe with
    | none =>
      simp only [Img.zip, qeAt, one_mul]
      rw [h3]
    | some q =>
      simp only [Img.zip, qeAt]
      rw [h3]

theorem sum_blocks_le (os A : ℕ) (hos : 0 < os) (g : ℕ → ℝ) (hg : ∀ i, 0 ≤ g i) :
    ∑ i ∈ range (A / os), ∑ i' ∈ Ico (os * i) (os * i + os), g i' ≤ ∑ i ∈ range A, g i := by
  rw [sum_block_total]
  refine sum_le_sum_of_subset_of_nonneg ?_ fun i _ _ => hg i
  exact range_mono (Nat.mul_div_le A os)

/-- The amplitudes read out for two sets of waves differ by at most the waves. -/
theorem readOut_amplitudes {κ : Type} [Fintype κ] (sat : Option ℝ) (os : ℕ) (hos : 0 < os) (bg : Img ℝ) (qe : Option (Img ℝ)) (hq : Efficient qe)
    (h w : ℕ) (ψ φ : κ → ℕ → ℕ → ℂ) :
    amplitudeChange (measQuadratic { saturation := sat, oversampling := os } bg qe ⟨h, w, fun i j => ∑ u, ‖ψ u i j‖ ^ 2⟩)
      (measQuadratic { saturation := sat, oversampling := os } bg qe ⟨h, w, fun i j => ∑ u, ‖φ u i j‖ ^ 2⟩) ≤
    (∑ i ∈ range h, ∑ j ∈ range w, ∑ u, ‖ψ u i j - φ u i j‖ ^ 2) / os ^ 2 := by
  have hos' : (0 : ℝ) < (os : ℝ) ^ 2 := by positivity
  obtain ⟨s1, s2, s3⟩ := measQuadratic_shape sat os hos bg qe ⟨h, w, fun i j => ∑ u, ‖ψ u i j‖ ^ 2⟩
  obtain ⟨-, -, t3⟩ := measQuadratic_shape sat os hos bg qe ⟨h, w, fun i j => ∑ u, ‖φ u i j‖ ^ 2⟩
  unfold amplitudeChange
  rw [s1, s2]
  simp only at s3 t3 ⊢
  simp only [s3, t3]
  set D : ℕ → ℕ → ℝ := fun i j => ∑ u, ‖ψ u i j - φ u i j‖ ^ 2 with hD
  have hD0 : ∀ i j, 0 ≤ D i j := fun i j => sum_nonneg fun u _ => sq_nonneg _
  have pixel : ∀ i j, (Real.sqrt (cutAt sat ((qeAt qe i j) * ((∑ i' ∈ Ico (os * i) (os * i + os), ∑ j' ∈ Ico (os * j) (os * j + os), ∑ u, ‖ψ u i' j'‖ ^ 2) / (os : ℝ) ^ 2 + 1e-7) +
        bg.px i j ^ 2)) - Real.sqrt (cutAt sat ((qeAt qe i j) * ((∑ i' ∈ Ico (os * i) (os * i + os), ∑ j' ∈ Ico (os * j) (os * j + os), ∑ u, ‖φ u i' j'‖ ^ 2) / (os : ℝ) ^ 2 + 1e-7) +
        bg.px i j ^ 2))) ^ 2 ≤ (∑ i' ∈ Ico (os * i) (os * i + os), ∑ j' ∈ Ico (os * j) (os * j + os), D i' j') / (os : ℝ) ^ 2 := by
    intro i j
    have hqq : ∃ q : ℝ, (qeAt qe i j) = q ∧ 0 ≤ q ∧ q ≤ 1 := by
      cases hqe : qe with
      | none => exact ⟨1, rfl, zero_le_one, le_rfl⟩
      | some q => exact ⟨_, rfl, hq q hqe i j⟩
    obtain ⟨q, hqe, hq0, hq1⟩ := hqq
    rw [hqe]
    have hsum : ∀ f : κ → ℕ → ℕ → ℂ, (∑ i' ∈ Ico (os * i) (os * i + os), ∑ j' ∈ Ico (os * j) (os * j + os), ∑ u, ‖f u i' j'‖ ^ 2) =
        ∑ p ∈ (Ico (os * i) (os * i + os) ×ˢ Ico (os * j) (os * j + os)) ×ˢ (univ : Finset κ), ‖f p.2 p.1.1 p.1.2‖ ^ 2 := by
      intro f
      rw [sum_product, sum_product]
    have hDsum : (∑ i' ∈ Ico (os * i) (os * i + os), ∑ j' ∈ Ico (os * j) (os * j + os), D i' j') =
        ∑ p ∈ (Ico (os * i) (os * i + os) ×ˢ Ico (os * j) (os * j + os)) ×ˢ (univ : Finset κ), ‖ψ p.2 p.1.1 p.1.2 - φ p.2 p.1.1 p.1.2‖ ^ 2 := by
      rw [sum_product, sum_product]
    rw [hsum ψ, hsum φ, hDsum]
    generalize (Ico (os * i) (os * i + os) ×ˢ Ico (os * j) (os * j + os)) ×ˢ (univ : Finset κ) = s
    have hk := sqrt_sum_sub s (fun p => ψ p.2 p.1.1 p.1.2) (fun p => φ p.2 p.1.1 p.1.2)
    beta_reduce at hk
    have hA : 0 ≤ ∑ p ∈ s, ‖ψ p.2 p.1.1 p.1.2‖ ^ 2 := sum_nonneg fun _ _ => sq_nonneg _
    have hB : 0 ≤ ∑ p ∈ s, ‖φ p.2 p.1.1 p.1.2‖ ^ 2 := sum_nonneg fun _ _ => sq_nonneg _
    generalize (∑ p ∈ s, ‖ψ p.2 p.1.1 p.1.2‖ ^ 2) = A at *
    generalize (∑ p ∈ s, ‖φ p.2 p.1.1 p.1.2‖ ^ 2) = B at *
    have hb2 := sq_nonneg (bg.px i j)
    have e : ∀ X : ℝ, q * (X / (os : ℝ) ^ 2 + 1e-7) + bg.px i j ^ 2 = q * (X / (os : ℝ) ^ 2) + (q * 1e-7 + bg.px i j ^ 2) := fun X => by ring
    have hA' : 0 ≤ A / (os : ℝ) ^ 2 := by positivity
    have hB' : 0 ≤ B / (os : ℝ) ^ 2 := by positivity
    have l1 := sqrt_cutAt_sub sat (q * (A / (os : ℝ) ^ 2 + 1e-7) + bg.px i j ^ 2) (q * (B / (os : ℝ) ^ 2 + 1e-7) + bg.px i j ^ 2)
      (by positivity) (by positivity)
    have l2 := sqrt_affine_sub q (q * 1e-7 + bg.px i j ^ 2) (A / (os : ℝ) ^ 2) (B / (os : ℝ) ^ 2) hq0 hq1 (by positivity) hA' hB'
    rw [← e, ← e] at l2
    have l3 := l1.trans l2
    rw [← sq_abs]
    have l4 := pow_le_pow_left₀ (abs_nonneg _) l3 2
    refine l4.trans ?_
    rw [sq_abs, Real.sqrt_div hA, Real.sqrt_div hB, Real.sqrt_sq (Nat.cast_nonneg os), ← sub_div, div_pow]
    exact div_le_div_of_nonneg_right hk hos'.le
  refine (sum_le_sum fun i _ => sum_le_sum fun j _ => pixel i j).trans ?_
  simp only [← sum_div]
  refine div_le_div_of_nonneg_right ?_ hos'.le
  have step : ∀ i, ∑ j ∈ range (w / os), ∑ i' ∈ Ico (os * i) (os * i + os), ∑ j' ∈ Ico (os * j) (os * j + os), D i' j' ≤
      ∑ i' ∈ Ico (os * i) (os * i + os), ∑ j ∈ range w, D i' j := by
    intro i
    rw [sum_comm]
    exact sum_le_sum fun i' _ => sum_blocks_le os w hos (D i') (hD0 i')
  refine (sum_le_sum fun i _ => step i).trans ?_
  exact sum_blocks_le os h hos (fun i => ∑ j ∈ range w, D i j) fun i => sum_nonneg fun j _ => hD0 i j

/-! ### Waves -/

variable {n m a b N k : ℕ} [NeZero n] [NeZero m] [NeZero a] [NeZero b]

theorem power_mul_le (τ : ℝ) (s p : Wave n m) (h : ∀ x y, ‖s x y‖ ≤ τ) : power (fun x y => p x y * s x y) ≤ τ ^ 2 * power p := by
  unfold power
  rw [mul_sum]
  refine sum_le_sum fun x _ => ?_
  rw [mul_sum]
  refine sum_le_sum fun y _ => ?_
  rw [norm_mul, mul_pow, mul_comm]
  exact mul_le_mul_of_nonneg_right (pow_le_pow_left₀ (norm_nonneg _) (h x y) 2) (sq_nonneg _)

/-- A shifted probe behind a window of transmission at most `τ` has at most `τ²` times its power. -/
theorem sincApply_power_le (sb : Bool) (tr : ℝ × ℝ) (τ : ℝ) (sel p : Wave n m) (h : ∀ x y, ‖sel x y‖ ≤ τ) :
    power (sincApply sb tr sel p) ≤ τ ^ 2 * power p := by
  have h1 : power (fun i j => ifft2 (ifftshift2 fun x y => fftshift2 (fft2 p) x y *
      (phaseMask (tr.1 - ⌊tr.1⌋) (tr.2 - ⌊tr.2⌋) : Wave n m) x y) i j * sel i j) ≤ τ ^ 2 * power p := by
    rw [← power_maskFourier p _ (phaseMask_norm (tr.1 - ⌊tr.1⌋) (tr.2 - ⌊tr.2⌋))]
    exact power_mul_le τ sel _ h
  unfold sincApply
  cases sb with
  | false => exact h1
  | true =>
    simp only [if_true]
    rw [power_maskFourier _ (fun x y => (starRingEnd ℂ) ((phaseMask (tr.1 - ⌊tr.1⌋) (tr.2 - ⌊tr.2⌋) : Wave n m) x y)) fun x y => by
      rw [RCLike.norm_conj, phaseMask_norm]]
    exact h1

/-- Near-field propagation with a propagator of modulus at most one does not add power. -/
theorem nearField_power_le (q w : Wave n m) (hq : ∀ x y, ‖q x y‖ ≤ 1) : power (nearField q w) ≤ power w := by
  have h1 := ifft2_parseval_norm (fun x y => q x y * fft2 w x y)
  have h2 := fft2_parseval_norm w
  have h3 : power (fun x y => q x y * fft2 w x y) ≤ power (fft2 w) := by
    have := power_mul_le 1 q (fft2 w) hq
    simp only [mul_comm _ (q _ _)] at this
    linarith
  unfold nearField
  unfold power at *
  rw [h2, ← h1] at h3
  exact le_of_mul_le_mul_left h3 size_pos

theorem ramp_norm (M : Fancy n m a b N k) (idx : Fin N) (t : Fin 3 → ℝ) (x : ZMod n) (y : ZMod m) : ‖M.ramp idx t x y‖ = 1 := by
  unfold Fancy.ramp
  cases M.fourierShifts with
  | none => simp
  | some f =>
    simp only
    rw [mul_comm Complex.I]
    generalize (if M.simulateTranslation then f idx + translationsToPixel M.detBasis M.normal t else f idx) = d
    have := Complex.norm_exp_ofReal_mul_I (d 0 * (2 * Real.pi * (x.val / ((n : ℝ) - 1)) * M.oversampling) +
      d 1 * (2 * Real.pi * (y.val / ((m : ℝ) - 1)) * M.oversampling))
    rw [← this]
    congr 2
    push_cast
    ring

/-- From one mode of the probe to the detector: at most `(‖probe_norm‖ τ)²` times the power. -/
theorem toDetector_power_le (M : Fancy n m a b N k) (ha : n ≤ a) (hb : m ≤ b) (hprop : M.nearField = true → ∀ x y, ‖M.propagator x y‖ ≤ 1)
    (idx : Fin N) (t : Fin 3 → ℝ) (τ : ℝ) (sel : Wave a b) (hs : ∀ x y, ‖sel x y‖ ≤ τ) (p : Wave n m) :
    power (M.toDetector idx t sel p) ≤ (M.probeNorm * τ) ^ 2 * power p := by
  have hpr : ∀ w, power (M.propagate w) ≤ power w := by
    intro w
    unfold Fancy.propagate
    split_ifs with h
    · exact nearField_power_le _ _ (hprop h)
    · exact (far_field_unitary.2.2.1 w).le
  unfold Fancy.toDetector
  refine (hpr _).trans ?_
  rw [power_const_mul]
  have h1 := sincApply_power_le M.nearField (M.pixTrans idx t 0, M.pixTrans idx t 1) τ sel (padProbe a b fun x y => p x y * M.ramp idx t x y) hs
  have h2 : power (fun x y => p x y * M.ramp idx t x y) = power p := by
    unfold power
    simp only [norm_mul, ramp_norm, mul_one]
  rw [power_padProbe ha hb, h2] at h1
  have h3 : ‖(M.probeNorm : ℂ)‖ ^ 2 = M.probeNorm ^ 2 := by simp
  rw [h3, mul_pow, mul_assoc]
  exact mul_le_mul_of_nonneg_left h1 (sq_nonneg _)

/-- Two sets of waves at the detector. -/
theorem shots_change {r : ℕ} (sat : Option ℝ) (os : ℕ) (hos : 0 < os) (bg : Img ℝ) (qe : Option (Img ℝ)) (hq : Efficient qe)
    (ψ φ : Fin r → Wave a b) :
    amplitudeChange
      (measQuadratic { saturation := sat, oversampling := os } bg qe (sumModes a b (List.ofFn fun i => fun x y => ψ i x y)))
      (measQuadratic { saturation := sat, oversampling := os } bg qe (sumModes a b (List.ofFn fun i => fun x y => φ i x y))) ≤
    (∑ i, power (ψ i - φ i)) / os ^ 2 := by
  have hs : ∀ f : Fin r → Wave a b, sumModes a b (List.ofFn fun i => fun x y => f i x y) =
      ⟨a, b, fun x y => ∑ i, ‖f i x y‖ ^ 2⟩ := by
    intro f
    unfold sumModes
    simp only [List.map_ofFn, List.sum_ofFn, Function.comp]
  rw [hs, hs]
  refine (readOut_amplitudes sat os hos bg qe hq a b (fun i x y => ψ i x y) (fun i x y => φ i x y)).trans (le_of_eq ?_)
  congr 1
  rw [sum_pixels (fun x y => ∑ i, ‖ψ i x y - φ i x y‖ ^ 2)]
  unfold power
  rw [sum_comm' (t' := univ) (s' := fun _ => univ) (by simp)]
  rw [sum_comm]
  refine (sum_congr rfl fun x _ => sum_comm).trans ?_
  rw [sum_comm]
  rfl

/-- The total weight of the exposure `idx`: the square of its weight, or the sum of the squared moduli of its matrix. -/
noncomputable def weightSquare (W : Weights N k) (idx : Fin N) : ℝ :=
  match W with
  | .perShot w => w idx ^ 2
  | .matrices _ V => ∑ i, ∑ j, ‖V idx i j‖ ^ 2

theorem shotProbes_power (W : Weights N k) (idx : Fin N) (P Q : Fin k → Wave n m) :
    ∑ i, power (shotProbes W idx P i - shotProbes W idx Q i) ≤ weightSquare W idx * ∑ j, power (P j - Q j) := by
  cases W with
  | perShot w =>
    refine le_of_eq ?_
    unfold shotProbes weightSquare
    simp only
    rw [mul_sum]
    refine sum_congr rfl fun j _ => ?_
    have e : ((fun x y => (w idx : ℂ) * P j x y) - (fun x y => (w idx : ℂ) * Q j x y) : Wave n m) = fun x y => (w idx : ℂ) * (P j - Q j) x y := by
      funext x y
      simp only [Pi.sub_apply]
      ring
    rw [e, power_const_mul]
    simp
  | matrices r V =>
    unfold shotProbes weightSquare
    simp only
    rw [sum_mul]
    refine sum_le_sum fun i _ => ?_
    have pix : ∀ x y, ‖(∑ j, V idx i j * P j x y) - ∑ j, V idx i j * Q j x y‖ ^ 2 ≤ (∑ j, ‖V idx i j‖ ^ 2) * ∑ j, ‖P j x y - Q j x y‖ ^ 2 := by
      intro x y
      rw [← sum_sub_distrib]
      refine (pow_le_pow_left₀ (norm_nonneg _) (norm_sum_le _ _) 2).trans ?_
      refine le_trans (le_of_eq ?_) (sum_mul_sq_le_sq_mul_sq univ (fun j => ‖V idx i j‖) (fun j => ‖P j x y - Q j x y‖))
      congr 1
      refine sum_congr rfl fun j _ => ?_
      rw [← mul_sub, norm_mul]
    have hsw : ∑ j, power (P j - Q j) = ∑ x, ∑ y, ∑ j, ‖P j x y - Q j x y‖ ^ 2 := by
      unfold power
      rw [sum_comm]
      refine (sum_congr rfl fun x _ => sum_comm).trans ?_
      rfl
    rw [hsw, mul_sum]
    unfold power
    refine sum_le_sum fun x _ => ?_
    rw [mul_sum]
    exact sum_le_sum fun y _ => pix x y

theorem basisProbes_power (M : Fancy n m a b N k) (P : Fin k → Wave n m) (j : Fin k) :
    power (M.basisProbes j - { M with probe := P }.basisProbes j) ≤ power (M.probe j - P j) := by
  rw [Fancy.basisProbes_eq, Fancy.basisProbes_eq]
  have e : ({ M with probe := P } : Fancy n m a b N k).realSpace (P j) = M.realSpace (P j) := rfl
  rw [e, ← M.isLinear_realSpace.map_sub]
  unfold Fancy.realSpace
  have h1 : power (fun x y => (M.probe j - P j) x y * (if M.support x y then 1 else 0)) ≤ power (M.probe j - P j) := by
    have := power_mul_le 1 (fun x y => if M.support x y then 1 else 0) (M.probe j - P j) (fun x y => by split_ifs <;> simp)
    linarith
  split_ifs
  · have h := far_field_unitary.2.2.1 (inverseFarField fun x y => (M.probe j - P j) x y * (if M.support x y then 1 else 0))
    rw [far_field_unitary.2.1] at h
    linarith
  · exact h1

theorem objWindow_bound (T : Img ℂ) (i0 j0 : ℤ) (sel : Wave a b) (h : objWindow a b T i0 j0 = .ok sel) :
    ∃ r c : ℕ, ∀ x y, sel x y = T.px (r + x.val) (c + y.val) := by
  unfold objWindow at h
  simp only at h
  split_ifs at h
  exact ⟨_, _, fun x y => by rw [← Except.ok.inj h]⟩

/-- **C113.** What the detector of a `FancyPtycho` model can resolve of a change of the probe: if the transmission is at most `τ`, the squared
amplitudes of an exposure change by at most `(probe_norm · τ / oversampling)²`, times the weights of the exposure, times the power of the change
of the probe modes - at any position, in the near and in the far field, with any mask, background and saturation. -/
theorem fancy_probe_stability (M : Fancy n m a b N k) (P : Fin k → Wave n m) (ha : n ≤ a) (hb : m ≤ b) (hos : 0 < M.oversampling)
    (hq : Efficient M.qe) (hprop : M.nearField = true → ∀ x y, ‖M.propagator x y‖ ≤ 1) (τ : ℝ) (hτ : ∀ i j, ‖M.transmission.px i j‖ ≤ τ)
    (idx : Fin N) (t : Fin 3 → ℝ) (y y' : Img ℝ) (hy : M.forward idx t = .ok y) (hy' : { M with probe := P }.forward idx t = .ok y') :
    amplitudeChange y y' ≤ (M.probeNorm * τ / M.oversampling) ^ 2 * weightSquare M.weights idx * ∑ j, power (M.probe j - P j) := by
  unfold Fancy.forward at hy hy'
  split_ifs at hy hy' with h
  have ht : ({ M with probe := P } : Fancy n m a b N k).transmission = M.transmission := rfl
  have hp : ({ M with probe := P } : Fancy n m a b N k).pixTrans = M.pixTrans := rfl
  simp only [ht, hp] at hy'
  simp only at hy
  cases hw : objWindow a b M.transmission ⌊M.pixTrans idx t 0⌋ ⌊M.pixTrans idx t 1⌋ with
  | error e => rw [hw] at hy; exact absurd hy (by simp [Except.map])
  | ok sel =>
    rw [hw] at hy hy'
    have e1 := (Except.ok.inj hy).symm
    have e2 := (Except.ok.inj hy').symm
    rw [e1, e2]
    refine (shots_change M.saturation M.oversampling hos M.background M.qe hq
      (fun i => M.toDetector idx t sel (shotProbes M.weights idx M.basisProbes i))
      (fun i => M.toDetector idx t sel (shotProbes M.weights idx ({ M with probe := P } : Fancy n m a b N k).basisProbes i))).trans ?_
    obtain ⟨r, c, hsel⟩ := objWindow_bound _ _ _ _ hw
    have hs : ∀ x y, ‖sel x y‖ ≤ τ := fun x y => by rw [hsel]; exact hτ _ _
    have h1 : ∑ i, power (M.toDetector idx t sel (shotProbes M.weights idx M.basisProbes i) -
        M.toDetector idx t sel (shotProbes M.weights idx ({ M with probe := P } : Fancy n m a b N k).basisProbes i)) ≤
        (M.probeNorm * τ) ^ 2 * (weightSquare M.weights idx * ∑ j, power (M.probe j - P j)) := by
      refine (sum_le_sum fun i _ => ?_).trans ((mul_sum _ _ _).symm.le.trans (mul_le_mul_of_nonneg_left
        ((shotProbes_power M.weights idx M.basisProbes ({ M with probe := P } : Fancy n m a b N k).basisProbes).trans
          (mul_le_mul_of_nonneg_left (sum_le_sum fun j _ => basisProbes_power M P j) ?_)) (sq_nonneg _)))
      · rw [← (M.isLinear_toDetector idx t sel).map_sub]
        exact toDetector_power_le M ha hb hprop idx t τ sel hs _
      · unfold weightSquare
        cases M.weights with
        | perShot w => exact sq_nonneg _
        | matrices r V => exact sum_nonneg fun i _ => sum_nonneg fun j _ => sq_nonneg _
    refine (div_le_div_of_nonneg_right h1 (by positivity)).trans (le_of_eq ?_)
    rw [div_pow]
    ring

theorem sincApply_sub (sb : Bool) (tr : ℝ × ℝ) (s s' p : Wave n m) :
    sincApply sb tr s p - sincApply sb tr s' p = sincApply sb tr (s - s') p := by
  have hl : IsLinearMap ℂ fun w : Wave n m => sincApply sb tr w p := by
    have h1 : IsLinearMap ℂ fun w : Wave n m => (fun i j => ifft2 (ifftshift2 fun x y => fftshift2 (fft2 p) x y *
        (phaseMask (tr.1 - ⌊tr.1⌋) (tr.2 - ⌊tr.2⌋) : Wave n m) x y) i j * w i j : Wave n m) := isLinear_mulRight' _
    unfold sincApply
    cases sb with
    | false => exact h1
    | true =>
      exact isLinear_comp isLinear_ifft2 (isLinear_comp isLinear_ifftshift2 (isLinear_comp
        (isLinear_mulRight fun x y => (starRingEnd ℂ) ((phaseMask (tr.1 - ⌊tr.1⌋) (tr.2 - ⌊tr.2⌋) : Wave n m) x y))
        (isLinear_comp isLinear_fftshift2 (isLinear_comp isLinear_fft2 h1))))
  exact (hl.map_sub s s').symm

theorem toDetector_sub_window (M : Fancy n m a b N k) (idx : Fin N) (t : Fin 3 → ℝ) (s s' : Wave a b) (p : Wave n m) :
    M.toDetector idx t s p - M.toDetector idx t s' p = M.toDetector idx t (s - s') p := by
  have hp : IsLinearMap ℂ M.propagate := by
    unfold Fancy.propagate
    cases M.nearField
    · exact isLinear_farField
    · exact isLinear_nearField _
  unfold Fancy.toDetector
  simp only
  rw [← hp.map_sub, ← sincApply_sub]
  congr 1
  funext x y
  simp only [Pi.sub_apply]
  ring

/-- **C113.** What the detector of a `FancyPtycho` model can resolve of a change of the object: if the transmission changes by at most `δ`, the
squared amplitudes of an exposure change by at most `(probe_norm · δ / oversampling)²` times the power of the probes of the exposure. -/
theorem fancy_object_stability (M : Fancy n m a b N k) (O : Img ℂ) (hO : O.h = M.obj.h ∧ O.w = M.obj.w) (ha : n ≤ a) (hb : m ≤ b)
    (hos : 0 < M.oversampling) (hq : Efficient M.qe) (hprop : M.nearField = true → ∀ x y, ‖M.propagator x y‖ ≤ 1) (δ : ℝ)
    (hδ : ∀ i j, ‖M.transmission.px i j - { M with obj := O }.transmission.px i j‖ ≤ δ)
    (idx : Fin N) (t : Fin 3 → ℝ) (y y' : Img ℝ) (hy : M.forward idx t = .ok y) (hy' : { M with obj := O }.forward idx t = .ok y') :
    amplitudeChange y y' ≤ (M.probeNorm * δ / M.oversampling) ^ 2 * ∑ i, power (shotProbes M.weights idx M.basisProbes i) := by
  unfold Fancy.forward at hy hy'
  split_ifs at hy hy' with h
  have hp : ({ M with obj := O } : Fancy n m a b N k).pixTrans = M.pixTrans := rfl
  simp only [hp] at hy'
  simp only at hy
  have hshape : M.transmission.h = M.obj.h ∧ M.transmission.w = M.obj.w ∧
      ({ M with obj := O } : Fancy n m a b N k).transmission.h = O.h ∧ ({ M with obj := O } : Fancy n m a b N k).transmission.w = O.w := by
    unfold Fancy.transmission
    simp only
    split_ifs <;> exact ⟨rfl, rfl, rfl, rfl⟩
  obtain ⟨g1, g2, g3, g4⟩ := hshape
  unfold objWindow at hy hy'
  simp only [g3, g4, hO.1, hO.2] at hy'
  simp only [g1, g2] at hy
  split_ifs at hy hy' with hw
  · simp only [Except.map] at hy hy'
    have e1 := (Except.ok.inj hy).symm
    have e2 := (Except.ok.inj hy').symm
    rw [e1, e2]
    set s0 := (sliceExtent M.obj.h ⌊M.pixTrans idx t 0⌋ (⌊M.pixTrans idx t 0⌋ + a)).1
    set s1 := (sliceExtent M.obj.w ⌊M.pixTrans idx t 1⌋ (⌊M.pixTrans idx t 1⌋ + b)).1
    refine (shots_change M.saturation M.oversampling hos M.background M.qe hq
      (fun i => M.toDetector idx t (fun i j => M.transmission.px (s0 + i.val) (s1 + j.val)) (shotProbes M.weights idx M.basisProbes i))
      (fun i => M.toDetector idx t (fun i j => ({ M with obj := O } : Fancy n m a b N k).transmission.px (s0 + i.val) (s1 + j.val))
        (shotProbes M.weights idx M.basisProbes i))).trans ?_
    have h1 : ∑ i, power (M.toDetector idx t (fun i j => M.transmission.px (s0 + i.val) (s1 + j.val)) (shotProbes M.weights idx M.basisProbes i) -
        M.toDetector idx t (fun i j => ({ M with obj := O } : Fancy n m a b N k).transmission.px (s0 + i.val) (s1 + j.val))
        (shotProbes M.weights idx M.basisProbes i)) ≤
        (M.probeNorm * δ) ^ 2 * ∑ i, power (shotProbes M.weights idx M.basisProbes i) := by
      rw [mul_sum]
      refine sum_le_sum fun i _ => ?_
      rw [toDetector_sub_window]
      exact toDetector_power_le M ha hb hprop idx t δ _ (fun x y => hδ _ _) _
    refine (div_le_div_of_nonneg_right h1 (by positivity)).trans (le_of_eq ?_)
    rw [div_pow]
    ring
  · exact absurd hy (by simp [Except.map])

/-- The transmission of a phase-only object, of an exponentiated object without gain and of a plain object changes by at most as much as the object. -/
theorem transmission_stability (M : Fancy n m a b N k) (O : Img ℂ) (δ : ℝ) (hδ : ∀ i j, ‖M.obj.px i j - O.px i j‖ ≤ δ)
    (hg : M.exponentiate = true → M.phaseOnly = false → ∀ i j, 0 ≤ (M.obj.px i j).im ∧ 0 ≤ (O.px i j).im) (i j : ℕ) :
    ‖M.transmission.px i j - { M with obj := O }.transmission.px i j‖ ≤ δ := by
  have hexp : ∀ z w : ℂ, z.re ≤ 0 → w.re ≤ 0 → ‖Complex.exp z - Complex.exp w‖ ≤ ‖z - w‖ := by
    intro z w hz hw
    have := Convex.norm_image_sub_le_of_norm_hasDerivWithin_le (s := {u : ℂ | u.re ≤ 0}) (C := 1) (f := Complex.exp) (f' := Complex.exp)
      (x := w) (y := z) (fun u _ => (Complex.hasDerivAt_exp u).hasDerivWithinAt)
      (fun u hu => by rw [Complex.norm_exp]; exact Real.exp_le_one_iff.2 hu) (convex_halfSpace_re_le 0) hw hz
    simpa using this
  refine le_trans ?_ (hδ i j)
  unfold Fancy.transmission
  simp only
  split_ifs with h1 h2
  · simp only [Img.map]
    refine (hexp _ _ (by simp) (by simp)).trans ?_
    rw [← mul_sub, norm_mul, Complex.norm_I, one_mul, ← Complex.ofReal_sub, ← Complex.sub_re, Complex.norm_real]
    exact Complex.abs_re_le_norm _
  · obtain ⟨g1, g2⟩ := hg h1 (by simpa using h2) i j
    simp only [Img.map]
    refine (hexp _ _ (by simpa using g1) (by simpa using g2)).trans ?_
    rw [← mul_sub, norm_mul, Complex.norm_I, one_mul]
  · exact le_rfl

/-- **C113.** A change of the background changes the amplitudes by at most that change. -/
theorem fancy_background_stability (M : Fancy n m a b N k) (B : Img ℝ) (hos : 0 < M.oversampling) (hq : Efficient M.qe)
    (idx : Fin N) (t : Fin 3 → ℝ) (y y' : Img ℝ) (hy : M.forward idx t = .ok y) (hy' : { M with background := B }.forward idx t = .ok y') :
    y.h = y'.h ∧ y.w = y'.w ∧ ∀ i j, |Real.sqrt (y.px i j) - Real.sqrt (y'.px i j)| ≤ |M.background.px i j - B.px i j| := by
  unfold Fancy.forward at hy hy'
  split_ifs at hy hy' with h
  have ht : ({ M with background := B } : Fancy n m a b N k).transmission = M.transmission := rfl
  have hp : ({ M with background := B } : Fancy n m a b N k).pixTrans = M.pixTrans := rfl
  simp only [ht, hp] at hy'
  simp only at hy
  cases hw : objWindow a b M.transmission ⌊M.pixTrans idx t 0⌋ ⌊M.pixTrans idx t 1⌋ with
  | error e => rw [hw] at hy; exact absurd hy (by simp [Except.map])
  | ok sel =>
    rw [hw] at hy hy'
    simp only [Except.map] at hy hy'
    have e1 := (Except.ok.inj hy).symm
    have e2 := (Except.ok.inj hy').symm
    have hI : ∀ i j, 0 ≤ (sumModes a b (List.ofFn fun i => fun x y => M.toDetector idx t sel (shotProbes M.weights idx M.basisProbes i) x y)).px i j := by
      intro i j
      unfold sumModes
      refine List.sum_nonneg fun x hx => ?_
      obtain ⟨ψ, -, rfl⟩ := List.mem_map.1 hx
      exact sq_nonneg _
    have e2' : y' = measQuadratic { saturation := M.saturation, oversampling := M.oversampling } B M.qe
        (sumModes a b (List.ofFn fun i => fun x y => M.toDetector idx t sel (shotProbes M.weights idx M.basisProbes i) x y)) := e2
    generalize (sumModes a b (List.ofFn fun i => fun x y => M.toDetector idx t sel (shotProbes M.weights idx M.basisProbes i) x y)) = I at e1 e2' hI
    obtain ⟨s1, s2, s3⟩ := measQuadratic_shape M.saturation M.oversampling hos M.background M.qe I
    obtain ⟨t1, t2, t3⟩ := measQuadratic_shape M.saturation M.oversampling hos B M.qe I
    rw [e1, e2']
    refine ⟨s1.trans t1.symm, s2.trans t2.symm, fun i j => ?_⟩
    rw [s3, t3]
    have hq0 : 0 ≤ qeAt M.qe i j := by
      unfold qeAt
      cases hqe : M.qe with
      | none => exact zero_le_one
      | some q => exact (hq q hqe i j).1
    have hX : 0 ≤ qeAt M.qe i j * ((∑ i' ∈ Ico (M.oversampling * i) (M.oversampling * i + M.oversampling),
        ∑ j' ∈ Ico (M.oversampling * j) (M.oversampling * j + M.oversampling), I.px i' j') / (M.oversampling : ℝ) ^ 2 + 1e-7) := by
      have : 0 ≤ ∑ i' ∈ Ico (M.oversampling * i) (M.oversampling * i + M.oversampling),
        ∑ j' ∈ Ico (M.oversampling * j) (M.oversampling * j + M.oversampling), I.px i' j' := sum_nonneg fun _ _ => sum_nonneg fun _ _ => hI _ _
      positivity
    set X := qeAt M.qe i j * ((∑ i' ∈ Ico (M.oversampling * i) (M.oversampling * i + M.oversampling),
        ∑ j' ∈ Ico (M.oversampling * j) (M.oversampling * j + M.oversampling), I.px i' j') / (M.oversampling : ℝ) ^ 2 + 1e-7)
    refine (sqrt_cutAt_sub _ _ _ (by positivity) (by positivity)).trans ?_
    have h1 := sqrt_affine_sub 1 X (M.background.px i j ^ 2) (B.px i j ^ 2) zero_le_one le_rfl hX (sq_nonneg _) (sq_nonneg _)
    rw [one_mul, one_mul, add_comm _ X, add_comm _ X] at h1
    refine h1.trans ?_
    rw [Real.sqrt_sq_eq_abs, Real.sqrt_sq_eq_abs]
    exact abs_abs_sub_abs_le _ _


/-! ### The loss -/

/-- **C113.** The root of the amplitude loss of a minibatch changes by at most the root of the total change of the simulated amplitudes,
whatever the data, the mask and the chunks. -/
theorem amplitude_loss_stability {I T : Type} {h w : ℕ} (mask : Option (Fin h × Fin w → Bool)) (f f' : I → T → Except String (Img ℝ))
    (width width' : ℕ) (hw : 1 ≤ width) (hw' : 1 ≤ width') (batch : List (DataShot I T)) (hc : CanSimulate h w [(f, batch), (f', batch)])
    (E : I → T → ℝ) (hE : ∀ e ∈ batch, ∀ y y', f e.index e.translation = .ok y → f' e.index e.translation = .ok y' →
      amplitudeChange y y' ≤ E e.index e.translation) :
    ∃ L L', minibatchLoss h w (amplitudeMse mask true) f width batch = .ok L ∧ minibatchLoss h w (amplitudeMse mask true) f' width' batch = .ok L' ∧
      (Real.sqrt L - Real.sqrt L') ^ 2 ≤ (batch.map fun e => E e.index e.translation).sum := by
  have c1 : ∀ e ∈ batch, ∃ Q, f e.index e.translation = .ok Q ∧ Q.h = h ∧ Q.w = w := hc (f, batch) (by simp)
  have c2 : ∀ e ∈ batch, ∃ Q, f' e.index e.translation = .ok Q ∧ Q.h = h ∧ Q.w = w := hc (f', batch) (by simp)
  have hl : ∀ b b', amplitudeMse mask true (b ++ b') = amplitudeMse mask true b + amplitudeMse mask true b' := fun b b' =>
    by
    simp only [amplitudeMse, if_true]
    exact batchSum_append mask _ b b'
  have h0 : amplitudeMse mask true [] = 0 := by simp [amplitudeMse, batchSum]
  refine ⟨_, _, minibatchLoss_ok _ hl h0 f width hw batch c1, minibatchLoss_ok _ hl h0 f' width' hw' batch c2, ?_⟩
  have hsum : ∀ g : I → T → Except String (Img ℝ), amplitudeMse mask true (pairsOf h w (g, batch)) =
      ∑ p ∈ (univ : Finset (Fin batch.length)) ×ˢ selectedPixels mask,
        ‖((Real.sqrt ((simOf g batch[p.1]).px p.2.1 p.2.2) - Real.sqrt ((batch[p.1]).pattern.px p.2.1 p.2.2) : ℝ) : ℂ)‖ ^ 2 := by
    intro g
    rw [sum_product]
    unfold amplitudeMse batchSum pairsOf
    simp only [if_true, List.map_map, Complex.norm_real, Real.norm_eq_abs, sq_abs]
    rw [← Fin.sum_univ_fun_getElem]
    rfl
  rw [hsum f, hsum f']
  refine (sqrt_sum_sub _ _ _).trans ?_
  rw [sum_product, ← Fin.sum_univ_fun_getElem]
  refine sum_le_sum fun i _ => ?_
  obtain ⟨Q, hQ, q1, q2⟩ := c1 batch[i] (List.getElem_mem _)
  obtain ⟨Q', hQ', -⟩ := c2 batch[i] (List.getElem_mem _)
  refine le_trans ?_ (hE batch[i] (List.getElem_mem _) Q Q' hQ hQ')
  have s1 : simOf f batch[i] = Q := by unfold simOf; rw [hQ]
  have s2 : simOf f' batch[i] = Q' := by unfold simOf; rw [hQ']
  have e : ∀ p : Fin h × Fin w, ‖((Real.sqrt ((simOf f batch[i]).px p.1 p.2) - Real.sqrt ((batch[i]).pattern.px p.1 p.2) : ℝ) : ℂ) -
      ((Real.sqrt ((simOf f' batch[i]).px p.1 p.2) - Real.sqrt ((batch[i]).pattern.px p.1 p.2) : ℝ) : ℂ)‖ ^ 2 =
      (Real.sqrt (Q.px p.1 p.2) - Real.sqrt (Q'.px p.1 p.2)) ^ 2 := by
    intro p
    rw [s1, s2, ← Complex.ofReal_sub, Complex.norm_real, Real.norm_eq_abs, sq_abs]
    congr 1
    ring
  simp only at e ⊢
  rw [sum_congr rfl fun p _ => e p]
  refine (sum_le_sum_of_subset_of_nonneg (subset_univ _) fun p _ _ => sq_nonneg _).trans (le_of_eq ?_)
  unfold amplitudeChange
  rw [q1, q2, Fintype.sum_prod_type, ← Fin.sum_univ_eq_sum_range (fun i => ∑ j ∈ range w, (Real.sqrt (Q.px i j) - Real.sqrt (Q'.px i j)) ^ 2)]
  refine sum_congr rfl fun x _ => ?_
  rw [← Fin.sum_univ_eq_sum_range (fun j => (Real.sqrt (Q.px x j) - Real.sqrt (Q'.px x j)) ^ 2)]

/-- **C113.** The consequence for reconstructions with the amplitude loss: changing the probe of a `FancyPtycho` model changes the root of the
loss of any minibatch by at most the transmission bound times the size of the change. -/
theorem fancy_probe_loss_stability {h w : ℕ} (M : Fancy n m a b N k) (P : Fin k → Wave n m) (ha : n ≤ a) (hb : m ≤ b) (hos : 0 < M.oversampling)
    (hq : Efficient M.qe) (hprop : M.nearField = true → ∀ x y, ‖M.propagator x y‖ ≤ 1) (τ : ℝ) (hτ : ∀ i j, ‖M.transmission.px i j‖ ≤ τ)
    (mask : Option (Fin h × Fin w → Bool)) (width : ℕ) (hw : 1 ≤ width) (batch : List (DataShot (Fin N) (Fin 3 → ℝ)))
    (hc : CanSimulate h w [(M.forward, batch), ({ M with probe := P }.forward, batch)]) :
    ∃ L L', minibatchLoss h w (amplitudeMse mask true) M.forward width batch = .ok L ∧
      minibatchLoss h w (amplitudeMse mask true) { M with probe := P }.forward width batch = .ok L' ∧
      (Real.sqrt L - Real.sqrt L') ^ 2 ≤ (M.probeNorm * τ / M.oversampling) ^ 2 * (batch.map fun e => weightSquare M.weights e.index).sum *
        ∑ j, power (M.probe j - P j) := by
  obtain ⟨L, L', h1, h2, h3⟩ := amplitude_loss_stability mask M.forward ({ M with probe := P } : Fancy n m a b N k).forward width width hw hw batch hc
    (fun i _ => (M.probeNorm * τ / M.oversampling) ^ 2 * weightSquare M.weights i * ∑ j, power (M.probe j - P j))
    fun e _ y y' hy hy' => fancy_probe_stability M P ha hb hos hq hprop τ hτ e.index e.translation y y' hy hy'
  refine ⟨L, L', h1, h2, h3.trans (le_of_eq ?_)⟩
  rw [List.sum_map_mul_right, List.sum_map_mul_left]

/-- The same for a change of the object. -/
theorem fancy_object_loss_stability {h w : ℕ} (M : Fancy n m a b N k) (O : Img ℂ) (hO : O.h = M.obj.h ∧ O.w = M.obj.w) (ha : n ≤ a) (hb : m ≤ b)
    (hos : 0 < M.oversampling) (hq : Efficient M.qe) (hprop : M.nearField = true → ∀ x y, ‖M.propagator x y‖ ≤ 1) (δ : ℝ)
    (hδ : ∀ i j, ‖M.transmission.px i j - { M with obj := O }.transmission.px i j‖ ≤ δ)
    (mask : Option (Fin h × Fin w → Bool)) (width : ℕ) (hw : 1 ≤ width) (batch : List (DataShot (Fin N) (Fin 3 → ℝ)))
    (hc : CanSimulate h w [(M.forward, batch), ({ M with obj := O }.forward, batch)]) :
    ∃ L L', minibatchLoss h w (amplitudeMse mask true) M.forward width batch = .ok L ∧
      minibatchLoss h w (amplitudeMse mask true) { M with obj := O }.forward width batch = .ok L' ∧
      (Real.sqrt L - Real.sqrt L') ^ 2 ≤ (M.probeNorm * δ / M.oversampling) ^ 2 *
        (batch.map fun e => ∑ i, power (shotProbes M.weights e.index M.basisProbes i)).sum := by
  obtain ⟨L, L', h1, h2, h3⟩ := amplitude_loss_stability mask M.forward ({ M with obj := O } : Fancy n m a b N k).forward width width hw hw batch hc
    (fun i _ => (M.probeNorm * δ / M.oversampling) ^ 2 * ∑ j, power (shotProbes M.weights i M.basisProbes j))
    fun e _ y y' hy hy' => fancy_object_stability M O hO ha hb hos hq hprop δ hδ e.index e.translation y y' hy hy'
  refine ⟨L, L', h1, h2, h3.trans (le_of_eq ?_)⟩
  rw [List.sum_map_mul_left]

/-! ### Non-vacuity -/

/-- A model, a changed probe, a changed object and a minibatch with all hypotheses: both can be simulated, the transmission is at most 13 on the
object, and the change is not zero. -/
noncomputable def steadyFancy : Fancy 2 2 2 2 2 1 := { toyFancy with obj := ⟨5, 5, fun i j => if i < 5 ∧ j < 5 then i + 2 * j + 1 else 0⟩ }

theorem steady_forward (M : Fancy 2 2 2 2 2 1) (h1 : M.simulateTranslation = false) (hb : M.objBasis = toyFancy.objBasis) (hn : M.normal = toyFancy.normal)
    (hm : M.minTranslation = toyFancy.minTranslation) (ho : M.offsets = toyFancy.offsets) (hs : M.translationScale = toyFancy.translationScale)
    (hO : M.transmission.h = 5 ∧ M.transmission.w = 5) (idx : Fin 2) : ∃ Q, M.forward idx 0 = .ok Q := by
  obtain ⟨Q0, h0⟩ := toyFancy_forward idx
  have hp : M.pixTrans idx 0 = toyFancy.pixTrans idx 0 := by
    unfold Fancy.pixTrans
    rw [hb, hn, hm, ho, hs]
  unfold Fancy.forward at h0 ⊢
  rw [if_neg (by simp [h1])]
  split_ifs at h0 with hh
  simp only [hp] at h0 ⊢
  unfold objWindow at h0 ⊢
  have g : toyFancy.transmission.h = 5 ∧ toyFancy.transmission.w = 5 := by simp [toyFancy, Fancy.transmission]
  simp only [g.1, g.2, hO.1, hO.2] at h0 ⊢
  split_ifs at h0 ⊢ with hw
  · exact ⟨_, rfl⟩
  · exact absurd h0 (by simp [Except.map])

example : ∃ (P : Fin 1 → Wave 2 2) (e : DataShot (Fin 2) (Fin 3 → ℝ)), 0 < steadyFancy.oversampling ∧ Efficient steadyFancy.qe ∧
    (∀ i j, ‖steadyFancy.transmission.px i j‖ ≤ 13) ∧ 0 < ∑ j, power (steadyFancy.probe j - P j) ∧
    CanSimulate 2 2 [(steadyFancy.forward, [e]), ({ steadyFancy with probe := P }.forward, [e])] := by
  refine ⟨fun _ _ _ => 0, ⟨0, 0, ⟨2, 2, fun _ _ => 3⟩⟩, by simp [steadyFancy, toyFancy], (fun q h => by cases h), ?_, ?_, ?_⟩
  · intro i j
    have : steadyFancy.transmission.px i j = if i < 5 ∧ j < 5 then (i : ℂ) + 2 * j + 1 else 0 := by simp [steadyFancy, toyFancy, Fancy.transmission]
    rw [this]
    split_ifs with h
    · have e : ((i : ℂ) + 2 * j + 1) = ((i + 2 * j + 1 : ℕ) : ℂ) := by push_cast; ring
      rw [e, Complex.norm_natCast]
      have : i + 2 * j + 1 ≤ 13 := by omega
      exact_mod_cast this
    · simp
  · have : ∀ j, steadyFancy.probe j - (fun _ _ => 0) = steadyFancy.probe j := fun j => sub_zero _
    simp only [this]
    refine sum_pos (fun j _ => power_pos_of_ne_zero fun x y => ?_) ⟨0, mem_univ _⟩
    simp only [steadyFancy, toyFancy]
    split_ifs <;> norm_num
  · intro s hs e he
    simp only [List.mem_cons, List.not_mem_nil, or_false] at hs
    rcases hs with rfl | rfl
    · simp only [List.mem_singleton] at he
      subst he
      obtain ⟨Q, hQ⟩ := steady_forward steadyFancy rfl rfl rfl rfl rfl rfl (by simp [steadyFancy, toyFancy, Fancy.transmission]) 0
      have := forward_shape _ _ _ _ hQ
      exact ⟨Q, hQ, by simpa [steadyFancy, toyFancy] using this⟩
    · simp only [List.mem_singleton] at he
      subst he
      obtain ⟨Q, hQ⟩ := steady_forward { steadyFancy with probe := fun _ _ _ => 0 } rfl rfl rfl rfl rfl rfl
        (by simp [steadyFancy, toyFancy, Fancy.transmission]) 0
      have := forward_shape _ _ _ _ hQ
      exact ⟨Q, hQ, by simpa [steadyFancy, toyFancy] using this⟩

end Cdtools
