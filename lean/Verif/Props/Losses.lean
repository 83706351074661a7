/- Property theorems C27, C28, C29: losses and their normalization. -/
import Verif.Model.Losses
import Mathlib.Analysis.SpecialFunctions.Log.Deriv
import Mathlib.Tactic.Ring
import Mathlib.Tactic.Linarith
import Mathlib.Tactic.Positivity
import Mathlib.Tactic.NormNum
import Mathlib.Tactic.FieldSimp

namespace Cdtools
open Finset
set_option linter.unusedSectionVars false
variable {κ : Type} [Fintype κ]

/-! ### Specification -/

/-- The pixel takes part: there is no mask, or the mask is True there. -/
def Unmasked (mask : Option (κ → Bool)) (p : κ) : Prop := ∀ m, mask = some m → m p = true

open Classical in
/-- Number of pixels of one pattern that take part. -/
noncomputable def unmaskedCount (mask : Option (κ → Bool)) : ℕ :=
  (univ.filter fun p => Unmasked mask p).card

/-- Two batches are indistinguishable outside the masked pixels. -/
def AgreeOnUnmasked (mask : Option (κ → Bool)) (b b' : List ((κ → ℝ) × (κ → ℝ))) : Prop :=
  List.Forall₂ (fun x y => ∀ p, Unmasked mask p → x.1 p = y.1 p ∧ x.2 p = y.2 p) b b'

theorem mem_selected (mask : Option (κ → Bool)) (p : κ) :
    p ∈ selectedPixels mask ↔ Unmasked mask p := by
  cases mask <;> simp [selectedPixels, Unmasked]

theorem selected_card (mask : Option (κ → Bool)) :
    (selectedPixels mask).card = unmaskedCount mask := by
  unfold unmaskedCount
  congr 1
  ext p
  simp [mem_selected]

/-! ### Sums over batches -/

theorem batchSum_append (mask : Option (κ → Bool)) (f : ℝ → ℝ → ℝ)
    (b b' : List ((κ → ℝ) × (κ → ℝ))) :
    batchSum mask f (b ++ b') = batchSum mask f b + batchSum mask f b' := by
  simp [batchSum]

theorem batchSum_nonneg (mask : Option (κ → Bool)) (f : ℝ → ℝ → ℝ)
    (b : List ((κ → ℝ) × (κ → ℝ)))
    (h : ∀ x ∈ b, ∀ p, Unmasked mask p → 0 ≤ f (x.1 p) (x.2 p)) : 0 ≤ batchSum mask f b := by
  refine List.sum_nonneg fun y hy => ?_
  obtain ⟨x, hx, rfl⟩ := List.mem_map.1 hy
  exact sum_nonneg fun p hp => h x hx p ((mem_selected _ _).1 hp)

theorem batchSum_eq_zero (mask : Option (κ → Bool)) (f : ℝ → ℝ → ℝ)
    (b : List ((κ → ℝ) × (κ → ℝ)))
    (h : ∀ x ∈ b, ∀ p, Unmasked mask p → 0 ≤ f (x.1 p) (x.2 p)) :
    batchSum mask f b = 0 ↔ ∀ x ∈ b, ∀ p, Unmasked mask p → f (x.1 p) (x.2 p) = 0 := by
  induction b with
  | nil => simp [batchSum]
  | cons x b ih =>
    have h1 : 0 ≤ ∑ p ∈ selectedPixels mask, f (x.1 p) (x.2 p) :=
      sum_nonneg fun p hp => h x (by simp) p ((mem_selected _ _).1 hp)
    have h2 := batchSum_nonneg mask f b fun y hy => h y (by simp [hy])
    have e : batchSum mask f (x :: b) =
        (∑ p ∈ selectedPixels mask, f (x.1 p) (x.2 p)) + batchSum mask f b := by simp [batchSum]
    rw [e, add_eq_zero_iff_of_nonneg h1 h2, ih fun y hy => h y (by simp [hy]),
      sum_eq_zero_iff_of_nonneg fun p hp => h x (by simp) p ((mem_selected _ _).1 hp)]
    simp [mem_selected]

theorem batchSum_congr (mask : Option (κ → Bool)) (f : ℝ → ℝ → ℝ)
    (b b' : List ((κ → ℝ) × (κ → ℝ))) (h : AgreeOnUnmasked mask b b') :
    batchSum mask f b = batchSum mask f b' := by
  unfold AgreeOnUnmasked at h
  induction h with
  | nil => rfl
  | @cons x y b b' hxy _ ih =>
    have e : ∀ (x : (κ → ℝ) × (κ → ℝ)) b, batchSum mask f (x :: b) =
        (∑ p ∈ selectedPixels mask, f (x.1 p) (x.2 p)) + batchSum mask f b := by
      intro x b; simp [batchSum]
    rw [e, e, ih]
    congr 1
    refine sum_congr rfl fun p hp => ?_
    obtain ⟨h1, h2⟩ := hxy p ((mem_selected _ _).1 hp)
    rw [h1, h2]

theorem batchSum_mono (mask : Option (κ → Bool)) (f g : ℝ → ℝ → ℝ)
    (b : List ((κ → ℝ) × (κ → ℝ)))
    (h : ∀ x ∈ b, ∀ p, Unmasked mask p → f (x.1 p) (x.2 p) ≤ g (x.1 p) (x.2 p)) :
    batchSum mask f b ≤ batchSum mask g b := by
  induction b with
  | nil => simp [batchSum]
  | cons x b ih =>
    have e : ∀ (f : ℝ → ℝ → ℝ) (x : (κ → ℝ) × (κ → ℝ)) b, batchSum mask f (x :: b) =
        (∑ p ∈ selectedPixels mask, f (x.1 p) (x.2 p)) + batchSum mask f b := by
      intro f x b; simp [batchSum]
    rw [e, e]
    exact add_le_add (sum_le_sum fun p hp => h x (by simp) p ((mem_selected _ _).1 hp))
      (ih fun y hy => h y (by simp [hy]))

/-! ### C27, C28: squared distances -/

/-- **C27** (the loss): for non-negative intensities `amplitude_mse(..., use_sum=True)` is
non-negative; it is 0 iff measured and simulated intensities agree on every unmasked pixel of every
exposure; it does not depend on masked pixels; it adds over exposures; and it is the sum of
`(√sim - √meas)²`. The mean form divides by the number of unmasked pixels. -/
theorem amplitude_mse_distance (mask : Option (κ → Bool)) (b : List ((κ → ℝ) × (κ → ℝ)))
    (hb : ∀ x ∈ b, ∀ p, 0 ≤ x.1 p ∧ 0 ≤ x.2 p) :
    0 ≤ amplitudeMse mask true b ∧
    (amplitudeMse mask true b = 0 ↔ ∀ x ∈ b, ∀ p, Unmasked mask p → x.1 p = x.2 p) ∧
    (∀ b', AgreeOnUnmasked mask b b' → amplitudeMse mask true b = amplitudeMse mask true b') ∧
    (∀ b', amplitudeMse mask true (b ++ b') = amplitudeMse mask true b + amplitudeMse mask true b') ∧
    (∀ m s, amplitudeMse none true [(m, s)] = ∑ p : κ, (√(s p) - √(m p)) ^ 2) ∧
    amplitudeMse mask false b = amplitudeMse mask true b / (b.length * unmaskedCount mask : ℕ) := by
  have nn : ∀ x ∈ b, ∀ p, Unmasked mask p → 0 ≤ (Real.sqrt (x.2 p) - Real.sqrt (x.1 p)) ^ 2 :=
    fun x _ p _ => sq_nonneg _
  refine ⟨?_, ?_, fun b' h => ?_, fun b' => ?_, fun m s => ?_, ?_⟩
  · simp only [amplitudeMse, if_true]
    exact batchSum_nonneg mask _ b nn
  · simp only [amplitudeMse, if_true]
    rw [batchSum_eq_zero mask _ b nn]
    refine forall₂_congr fun x hx => forall₂_congr fun p _ => ?_
    rw [sq_eq_zero_iff, sub_eq_zero, Real.sqrt_inj (hb x hx p).2 (hb x hx p).1]
    exact eq_comm
  · simp only [amplitudeMse, if_true]
    exact batchSum_congr mask _ b b' h
  · simp only [amplitudeMse, if_true]
    exact batchSum_append mask _ b b'
  · simp [amplitudeMse, batchSum, selectedPixels]
  · simp [amplitudeMse, batchCount, selected_card]

/-- **C28** (the loss): the same for `intensity_mse`, for all (also negative) intensities. -/
theorem intensity_mse_distance (mask : Option (κ → Bool)) (b : List ((κ → ℝ) × (κ → ℝ))) :
    0 ≤ intensityMse mask true b ∧
    (intensityMse mask true b = 0 ↔ ∀ x ∈ b, ∀ p, Unmasked mask p → x.1 p = x.2 p) ∧
    (∀ b', AgreeOnUnmasked mask b b' → intensityMse mask true b = intensityMse mask true b') ∧
    (∀ b', intensityMse mask true (b ++ b') = intensityMse mask true b + intensityMse mask true b') ∧
    (∀ m s, intensityMse none true [(m, s)] = ∑ p : κ, (s p - m p) ^ 2) ∧
    intensityMse mask false b = intensityMse mask true b / (b.length * unmaskedCount mask : ℕ) := by
  have nn : ∀ x ∈ b, ∀ p, Unmasked mask p → 0 ≤ (x.2 p - x.1 p) ^ 2 := fun x _ p _ => sq_nonneg _
  refine ⟨?_, ?_, fun b' h => ?_, fun b' => ?_, fun m s => ?_, ?_⟩
  · simp only [intensityMse, if_true]
    exact batchSum_nonneg mask _ b nn
  · simp only [intensityMse, if_true]
    rw [batchSum_eq_zero mask _ b nn]
    refine forall₂_congr fun x hx => forall₂_congr fun p _ => ?_
    rw [sq_eq_zero_iff, sub_eq_zero]
    exact eq_comm
  · simp only [intensityMse, if_true]
    exact batchSum_congr mask _ b b' h
  · simp only [intensityMse, if_true]
    exact batchSum_append mask _ b b'
  · simp [intensityMse, batchSum, selectedPixels]
  · simp [intensityMse, batchCount, selected_card]

/-- Non-vacuity: one exposure, two pixels, the second masked; the loss is (√4 − √1)² = 1. -/
example : amplitudeMse (some fun p : Fin 2 => decide (p = 0)) true
    [(fun p => if p = 0 then 1 else 7, fun p => if p = 0 then 4 else 0)] = 1 := by
  have : Real.sqrt 4 = 2 := by
    rw [show (4 : ℝ) = 2 ^ 2 by norm_num]; exact Real.sqrt_sq (by norm_num)
  simp [amplitudeMse, batchSum, selectedPixels, sum_filter, this]
  norm_num

/-! ### C27, C28: the recorded loss -/

theorem countNorm_foldl (mask : Option (κ → Bool)) (bs : List (List (κ → ℝ))) (n : CountNorm) :
    bs.foldl (CountNorm.accumulate mask) n =
      if n.firstPassComplete then n
      else { n with numPix := n.numPix + (bs.map List.length).sum * unmaskedCount mask } := by
  induction bs generalizing n with
  | nil => cases n with | mk f k => cases f <;> simp
  | cons b bs ih =>
    rw [List.foldl_cons, ih]
    cases n with
    | mk f k => cases f <;> simp [CountNorm.accumulate, batchCount, selected_card]; ring

/-- **C27/C28** (normalization): in a run of completed epochs starting with a fresh normalizer —
each epoch any list of minibatches with any losses — every recorded loss is the sum of the
epoch's minibatch losses divided by the number of unmasked pixels in *the first epoch's*
minibatches. -/
theorem recorded_loss_is_mean (mask : Option (κ → Bool))
    (epochs : List ((List (κ → ℝ) → ℝ) × List (List (κ → ℝ)))) (e0)
    (h0 : epochs.head? = some e0) :
    (lossEpochs (CountNorm.accumulate mask) CountNorm.normalize {} epochs).2 =
      epochs.map fun e => (e.2.map e.1).sum /
        (((e0.2.map List.length).sum * unmaskedCount mask : ℕ) : ℝ) := by
  have later : ∀ (k : ℕ) (es : List ((List (κ → ℝ) → ℝ) × List (List (κ → ℝ)))),
      (lossEpochs (CountNorm.accumulate mask) CountNorm.normalize ⟨true, k⟩ es).2 =
        es.map fun e => (e.2.map e.1).sum / (k : ℝ) := by
    intro k es
    induction es with
    | nil => rfl
    | cons e es ih =>
      simp only [lossEpochs, lossEpoch, countNorm_foldl, if_true, CountNorm.normalize,
        List.map_cons]
      rw [← ih]
  cases epochs with
  | nil => simp at h0
  | cons e es =>
    obtain rfl : e = e0 := by simpa using h0
    simp only [lossEpochs, lossEpoch, countNorm_foldl, CountNorm.normalize, List.map_cons,
      Bool.false_eq_true, if_false, Nat.zero_add]
    rw [later]

/-- Hence, when every epoch covers the same number of exposures (C07), the recorded loss is the
mean over all unmasked pixels, however the exposures are batched. -/
theorem recorded_loss_independent_of_batching (mask : Option (κ → Bool))
    (f : List ((κ → ℝ) × (κ → ℝ)) → ℝ)
    (hf : ∀ b b', f (b ++ b') = f b + f b') (hf0 : f [] = 0)
    (batches : List (List ((κ → ℝ) × (κ → ℝ)))) :
    (lossEpoch (N := CountNorm)
      (fun n (b : List ((κ → ℝ) × (κ → ℝ))) => n.accumulate mask (b.map (·.1)))
      CountNorm.normalize f {} batches).2 =
      f batches.flatten / ((batches.flatten.length * unmaskedCount mask : ℕ) : ℝ) := by
  have h1 : (batches.map f).sum = f batches.flatten := by
    induction batches with
    | nil => simp [hf0]
    | cons b bs ih => rw [List.map_cons, List.sum_cons, ih, List.flatten_cons, hf]
  have h2 : ∀ n : CountNorm, batches.foldl (fun n (b : List ((κ → ℝ) × (κ → ℝ))) =>
      n.accumulate mask (b.map (·.1))) n =
      (batches.map fun b => b.map (·.1)).foldl (CountNorm.accumulate mask) n := by
    intro n
    rw [List.foldl_map]
  simp only [lossEpoch, h1, h2, countNorm_foldl, CountNorm.normalize, Bool.false_eq_true, if_false,
    Nat.zero_add, List.length_flatten, List.map_map]
  congr 4
  simp [Function.comp_def]

/-- The divisor is frozen by the first *completed* epoch, not by the first one: minibatches of an
aborted first epoch (interrupt, exception) are counted too, so **C27 is violated** after one — every
later recorded loss is too small. Here one minibatch was accumulated before the abort. -/
theorem aborted_first_epoch_violated (mask : Option (κ → Bool)) (p : κ → ℝ) (l : ℝ)
    (hl : l ≠ 0) (hk : 0 < unmaskedCount mask) :
    let aborted := CountNorm.accumulate mask {} [p]
    (lossEpoch (CountNorm.accumulate mask) CountNorm.normalize (fun _ => l) aborted [[p]]).2 =
      l / (2 * unmaskedCount mask) ∧
    (lossEpoch (CountNorm.accumulate mask) CountNorm.normalize (fun _ => l) {} [[p]]).2 =
      l / unmaskedCount mask ∧
    l / (2 * unmaskedCount mask) ≠ l / (unmaskedCount mask : ℝ) := by
  have hk' : (unmaskedCount mask : ℝ) ≠ 0 := by exact_mod_cast hk.ne'
  refine ⟨?_, ?_, fun h => ?_⟩
  · simp [lossEpoch, CountNorm.accumulate, CountNorm.normalize, batchCount, selected_card]
    ring
  · simp [lossEpoch, CountNorm.accumulate, CountNorm.normalize, batchCount, selected_card]
  · field_simp at h
    norm_num at h

/-! ### C29: Poisson likelihood -/

theorem xlogy_eq (x y : ℝ) : xlogy x y = x * Real.log y := by
  unfold xlogy
  split
  · simp [*]
  · rfl

/-- The pointwise inequality: `s - i log s ≥ i - i log i` for `i ≥ 0`, `s > 0`, with equality only
at `s = i` (or never, if `i = 0`). -/
theorem poisson_pointwise (i s : ℝ) (hi : 0 ≤ i) (hs : 0 < s) :
    i - xlogy i i ≤ s - xlogy i s ∧ (i - xlogy i i = s - xlogy i s → s = i) := by
  simp only [xlogy_eq]
  rcases hi.eq_or_lt with rfl | hi
  · simp only [zero_mul, sub_zero]
    exact ⟨hs.le, fun h => h.symm⟩
  · have hr : 0 < s / i := div_pos hs hi
    have e : Real.log s = Real.log (s / i) + Real.log i := by
      rw [Real.log_div hs.ne' hi.ne']; ring
    have l1 := Real.log_le_sub_one_of_pos hr
    have l2 : i * Real.log (s / i) ≤ i * (s / i - 1) := mul_le_mul_of_nonneg_left l1 hi.le
    have l3 : i * (s / i - 1) = s - i := by field_simp
    refine ⟨by rw [e]; nlinarith, fun h => ?_⟩
    by_contra hne
    have hne' : s / i ≠ 1 := by
      intro h'
      exact hne (by field_simp at h'; exact h')
    have l4 := Real.log_lt_sub_one_of_pos hr hne'
    have l5 : i * Real.log (s / i) < i * (s / i - 1) := mul_lt_mul_of_pos_left l4 hi
    rw [e] at h
    nlinarith

/-- **C29** (likelihood): for non-negative measured and simulated intensities and `eps > 0`,
`poisson_nll` is at least its value where simulation plus epsilon equals the measurement, so with
`subtract_min` it is non-negative; it is then 0 iff simulation plus epsilon equals the measurement
on every unmasked pixel; masked pixels do not matter and exposures add. -/
theorem poisson_nll_minimum (mask : Option (κ → Bool)) (eps : ℝ) (he : 0 < eps)
    (b : List ((κ → ℝ) × (κ → ℝ))) (hb : ∀ x ∈ b, ∀ p, 0 ≤ x.1 p ∧ 0 ≤ x.2 p) (sm : Bool) :
    poissonNll mask eps false (b.map fun x => (x.1, fun p => x.1 p - eps)) ≤
      poissonNll mask eps false b ∧
    poissonNll mask eps true b = poissonNll mask eps false b -
      poissonNll mask eps false (b.map fun x => (x.1, fun p => x.1 p - eps)) ∧
    0 ≤ poissonNll mask eps true b ∧
    (poissonNll mask eps true b = 0 ↔
      ∀ x ∈ b, ∀ p, Unmasked mask p → x.2 p + eps = x.1 p) ∧
    (∀ b', AgreeOnUnmasked mask b b' → poissonNll mask eps sm b = poissonNll mask eps sm b') ∧
    (∀ b', poissonNll mask eps sm (b ++ b') = poissonNll mask eps sm b + poissonNll mask eps sm b')
    := by
  have hmin : poissonNll mask eps false (b.map fun x => (x.1, fun p => x.1 p - eps)) =
      batchSum mask (fun i _ => i - xlogy i i) b := by
    simp [poissonNll, batchSum, Function.comp_def]
  have hd : poissonNll mask eps true b =
      batchSum mask (fun i s => (s + eps - xlogy i (s + eps)) - (i - xlogy i i)) b := by
    simp only [poissonNll, if_true]
    clear hmin hb
    induction b with
    | nil => simp [batchSum]
    | cons x b ih =>
      have e : ∀ (f : ℝ → ℝ → ℝ) (x : (κ → ℝ) × (κ → ℝ)) b, batchSum mask f (x :: b) =
          (∑ p ∈ selectedPixels mask, f (x.1 p) (x.2 p)) + batchSum mask f b := by
        intro f x b; simp [batchSum]
      rw [e, e, e, ← ih]
      have := sum_sub_distrib (s := selectedPixels mask)
        (fun p => x.2 p + eps - xlogy (x.1 p) (x.2 p + eps))
        (fun p => x.1 p - xlogy (x.1 p) (x.1 p))
      linarith
  have nn : ∀ x ∈ b, ∀ p, Unmasked mask p →
      0 ≤ (x.2 p + eps - xlogy (x.1 p) (x.2 p + eps)) - (x.1 p - xlogy (x.1 p) (x.1 p)) := by
    intro x hx p _
    have := (poisson_pointwise (x.1 p) (x.2 p + eps) (hb x hx p).1
      (by linarith [(hb x hx p).2])).1
    linarith
  refine ⟨?_, ?_, ?_, ?_, fun b' h => ?_, fun b' => ?_⟩
  · rw [hmin]
    simp only [poissonNll, Bool.false_eq_true, if_false]
    exact batchSum_mono mask _ _ b fun x hx p hp => by have := nn x hx p hp; linarith
  · rw [hmin]
    simp only [poissonNll, Bool.false_eq_true, if_false, if_true]
  · rw [hd]
    exact batchSum_nonneg mask _ b nn
  · rw [hd, batchSum_eq_zero mask _ b nn]
    refine forall₂_congr fun x hx => forall₂_congr fun p _ => ?_
    constructor
    · intro h
      exact (poisson_pointwise (x.1 p) (x.2 p + eps) (hb x hx p).1
        (by linarith [(hb x hx p).2])).2 (by linarith)
    · intro h
      rw [h]
      ring
  · cases sm
    · simp only [poissonNll, Bool.false_eq_true, if_false]
      exact batchSum_congr mask _ b b' h
    · simp only [poissonNll, if_true]
      rw [batchSum_congr mask _ b b' h, batchSum_congr mask _ b b' h]
  · cases sm
    · simp only [poissonNll, Bool.false_eq_true, if_false]
      exact batchSum_append mask _ b b'
    · simp only [poissonNll, if_true, batchSum_append]
      ring

/-- The offset the normalizer subtracts exceeds the minimum by at most `eps` per pixel. -/
theorem poisson_offset_gap (i eps : ℝ) (hi : 0 ≤ i) (he : 0 < eps) :
    (i + eps - xlogy i (i + eps)) - eps ≤ i - xlogy i i := by
  simp only [xlogy_eq]
  rcases hi.eq_or_lt with rfl | hi
  · simp
  · have : Real.log i ≤ Real.log (i + eps) := Real.log_le_log hi (by linarith)
    nlinarith

theorem poissonNorm_foldl_offset (mask : Option (κ → Bool)) (bs : List (List (κ → ℝ)))
    (n : PoissonNorm) (h : n.firstPassComplete = false) :
    (bs.foldl (PoissonNorm.accumulate mask) n).offset = n.offset +
      poissonNll mask (1e-6) false (bs.flatten.map fun p => (p, p)) ∧
    (bs.foldl (PoissonNorm.accumulate mask) n).firstPassComplete = false := by
  induction bs generalizing n with
  | nil => simp [poissonNll, batchSum, h]
  | cons b bs ih =>
    rw [List.foldl_cons]
    obtain ⟨h1, h2⟩ := ih (n.accumulate mask b) (by simp [PoissonNorm.accumulate, h])
    refine ⟨?_, h2⟩
    rw [h1]
    simp only [PoissonNorm.accumulate, h, Bool.false_eq_true, if_false, List.flatten_cons,
      List.map_append]
    have := batchSum_append mask (fun i s => s + 1e-6 - xlogy i (s + 1e-6))
      (b.map fun p => (p, p)) (bs.flatten.map fun p => (p, p))
    simp only [poissonNll, Bool.false_eq_true, if_false] at this ⊢
    rw [this]
    ring

open Classical in
/-- Pixels with at least one count, over a list of batches. -/
noncomputable def brightCount (mask : Option (κ → Bool)) (ps : List (κ → ℝ)) : ℕ :=
  (ps.map fun p => (univ.filter fun k => Unmasked mask k ∧ 1 ≤ p k).card).sum

theorem poissonNorm_foldl_count (mask : Option (κ → Bool)) (bs : List (List (κ → ℝ)))
    (n : PoissonNorm) (h : n.firstPassComplete = false) :
    (bs.foldl (PoissonNorm.accumulate mask) n).sumNonzero = n.sumNonzero +
      brightCount mask bs.flatten := by
  classical
  induction bs generalizing n with
  | nil => simp [brightCount]
  | cons b bs ih =>
    rw [List.foldl_cons, ih _ (by simp [PoissonNorm.accumulate, h])]
    simp only [PoissonNorm.accumulate, h, Bool.false_eq_true, if_false, List.flatten_cons,
      brightCount, List.map_append, List.sum_append]
    rw [add_assoc]
    congr 3
    refine List.map_congr_left fun p _ => ?_
    congr 1
    ext k
    simp [mem_selected]

/-- **C29** (normalized loss, what does hold): with the default `eps = 1e-6`, for every batching of
non-negative data into a first epoch and non-negative simulations, the recorded loss is the NLL
minus the data's own NLL, divided by half the number of pixels with at least one count, and it is at
least `- 1e-6 * (number of unmasked pixels) / (that half)`. Missing: non-negativity, which fails
(`normalized_poisson_violated`). -/
theorem normalized_poisson_partial (mask : Option (κ → Bool))
    (batches : List (List ((κ → ℝ) × (κ → ℝ))))
    (hb : ∀ b ∈ batches, ∀ x ∈ b, ∀ p, 0 ≤ x.1 p ∧ 0 ≤ x.2 p) :
    let data := batches.flatten.map (·.1)
    let r := (lossEpoch (N := PoissonNorm)
      (fun n (b : List ((κ → ℝ) × (κ → ℝ))) => n.accumulate mask (b.map (·.1)))
      PoissonNorm.normalize (poissonNll mask (1e-6) false) {} batches).2
    r = (poissonNll mask (1e-6) false batches.flatten -
        poissonNll mask (1e-6) false (data.map fun p => (p, p))) / (0.5 * brightCount mask data) ∧
    - (1e-6 * (data.length * unmaskedCount mask)) / (0.5 * brightCount mask data) ≤ r := by
  have hsum : ∀ bs : List (List ((κ → ℝ) × (κ → ℝ))),
      (bs.map (poissonNll mask (1e-6) false)).sum = poissonNll mask (1e-6) false bs.flatten := by
    intro bs
    induction bs with
    | nil => simp [poissonNll, batchSum]
    | cons b bs ih =>
      rw [List.map_cons, List.sum_cons, ih, List.flatten_cons]
      simp only [poissonNll, Bool.false_eq_true, if_false]
      exact (batchSum_append mask _ b bs.flatten).symm
  have hfold : ∀ n : PoissonNorm, batches.foldl (fun n (b : List ((κ → ℝ) × (κ → ℝ))) =>
      n.accumulate mask (b.map (·.1))) n =
      (batches.map fun b => b.map (·.1)).foldl (PoissonNorm.accumulate mask) n := by
    intro n
    rw [List.foldl_map]
  have hflat : (batches.map fun b => b.map (·.1)).flatten = batches.flatten.map (·.1) := by
    rw [List.map_flatten]
  intro data r
  have hr : r = (poissonNll mask (1e-6) false batches.flatten -
      poissonNll mask (1e-6) false (data.map fun p => (p, p))) / (0.5 * brightCount mask data) := by
    simp only [r, lossEpoch, hsum, hfold]
    obtain ⟨o1, o2⟩ := poissonNorm_foldl_offset mask (batches.map fun b => b.map (·.1)) {} rfl
    have o3 := poissonNorm_foldl_count mask (batches.map fun b => b.map (·.1)) {} rfl
    simp only [PoissonNorm.normalize, o2, Bool.false_eq_true, if_false, o1, o3, hflat, zero_add]
    rfl
  refine ⟨hr, ?_⟩
  rw [hr]
  refine div_le_div_of_nonneg_right ?_ (by positivity)
  have key : ∀ b : List ((κ → ℝ) × (κ → ℝ)), (∀ x ∈ b, ∀ p, 0 ≤ x.1 p ∧ 0 ≤ x.2 p) →
      poissonNll mask (1e-6) false ((b.map (·.1)).map fun p => (p, p)) ≤
        poissonNll mask (1e-6) false b + 1e-6 * (b.length * unmaskedCount mask) := by
    intro b
    induction b with
    | nil => intro _; simp [poissonNll, batchSum]
    | cons x b ih =>
      intro hx
      have := ih fun y hy => hx y (by simp [hy])
      have e : ∀ (f : ℝ → ℝ → ℝ) (x : (κ → ℝ) × (κ → ℝ)) b, batchSum mask f (x :: b) =
          (∑ p ∈ selectedPixels mask, f (x.1 p) (x.2 p)) + batchSum mask f b := by
        intro f x b; simp [batchSum]
      simp only [poissonNll, Bool.false_eq_true, if_false, List.map_cons] at this ⊢
      rw [e, e]
      have hp : (∑ p ∈ selectedPixels mask, (x.1 p + 1e-6 - xlogy (x.1 p) (x.1 p + 1e-6))) ≤
          (∑ p ∈ selectedPixels mask, (x.2 p + 1e-6 - xlogy (x.1 p) (x.2 p + 1e-6))) +
            1e-6 * unmaskedCount mask := by
        rw [← selected_card, mul_comm, ← nsmul_eq_mul, ← sum_const, ← sum_add_distrib]
        refine sum_le_sum fun p _ => ?_
        have h1 := poisson_offset_gap (x.1 p) 1e-6 (hx x (by simp) p).1 (by norm_num)
        have h2 := (poisson_pointwise (x.1 p) (x.2 p + 1e-6) (hx x (by simp) p).1
          (by have := (hx x (by simp) p).2; linarith)).1
        linarith
      simp only [List.length_cons]
      push_cast
      linarith
  have := key batches.flatten (by
    intro x hx
    obtain ⟨b, h1, h2⟩ := List.mem_flatten.1 hx
    exact hb b h1 x h2)
  simp only [data, List.length_map]
  linarith

/-- **C29** (all epochs): in a run of completed epochs starting with a fresh normalizer - each epoch any list of minibatches with any losses - every
recorded loss is the sum of the losses of the epoch minus the likelihood of the data themselves, divided by half the number of pixels with at least one
count, both taken over *the first epoch's* minibatches. -/
theorem recorded_poisson_epochs (mask : Option (κ → Bool))
    (epochs : List ((List (κ → ℝ) → ℝ) × List (List (κ → ℝ)))) (e0) (h0 : epochs.head? = some e0) :
    (lossEpochs (PoissonNorm.accumulate mask) PoissonNorm.normalize {} epochs).2 =
      epochs.map fun e => ((e.2.map e.1).sum - poissonNll mask (1e-6) false (e0.2.flatten.map fun p => (p, p))) /
        (0.5 * brightCount mask e0.2.flatten) := by
  have frozen : ∀ (bs : List (List (κ → ℝ))) (n : PoissonNorm), n.firstPassComplete = true →
      bs.foldl (PoissonNorm.accumulate mask) n = n := by
    intro bs
    induction bs with
    | nil => intro n _; rfl
    | cons b bs ih =>
      intro n hn
      have : n.accumulate mask b = n := by unfold PoissonNorm.accumulate; rw [if_pos hn]
      rw [List.foldl_cons, this, ih n hn]
  have later : ∀ (es : List ((List (κ → ℝ) → ℝ) × List (List (κ → ℝ)))) (n : PoissonNorm), n.firstPassComplete = true →
      (lossEpochs (PoissonNorm.accumulate mask) PoissonNorm.normalize n es).2 =
        es.map fun e => ((e.2.map e.1).sum - n.offset) / n.normalization := by
    intro es
    induction es with
    | nil => intro n _; rfl
    | cons e es ih =>
      intro n hn
      simp only [lossEpochs, lossEpoch, frozen _ n hn, PoissonNorm.normalize, hn, if_true, List.map_cons]
      rw [ih n hn]
  cases epochs with
  | nil => simp at h0
  | cons e es =>
    obtain rfl : e = e0 := by simpa using h0
    obtain ⟨o1, o2⟩ := poissonNorm_foldl_offset mask e.2 {} rfl
    have o3 := poissonNorm_foldl_count mask e.2 {} rfl
    simp only [lossEpochs, lossEpoch, PoissonNorm.normalize, o2, Bool.false_eq_true, if_false, List.map_cons]
    rw [later _ _ rfl]
    simp only [o1, o3, zero_add]

/-- **C29 is violated** by the normalizer: for every data value `i ≥ 1` a non-negative simulation
exists whose recorded loss is negative (simulation plus epsilon equal to the data). -/
theorem normalized_poisson_violated (i : ℝ) (hi : 1 ≤ i) :
    ∃ s : ℝ, 0 ≤ s ∧
      (lossEpoch (N := PoissonNorm)
        (fun n (b : List ((Unit → ℝ) × (Unit → ℝ))) => n.accumulate none (b.map (·.1)))
        PoissonNorm.normalize (poissonNll none (1e-6) false) {}
        [[(fun _ => i, fun _ => s)]]).2 < 0 := by
  refine ⟨i - 1e-6, by linarith [show (1e-6 : ℝ) < 1 by norm_num], ?_⟩
  have h := (normalized_poisson_partial (κ := Unit) none [[(fun _ => i, fun _ => i - 1e-6)]] (by
    simp only [List.mem_singleton, forall_eq]
    intro _
    exact ⟨by linarith, by linarith [show (1e-6 : ℝ) < 1 by norm_num]⟩)).1
  rw [h]
  refine div_neg_of_neg_of_pos ?_ ?_
  · have h1 := poisson_pointwise i (i + 1e-6) (by linarith) (by linarith [show (0:ℝ) < 1e-6 by norm_num])
    have h2 : i - xlogy i i ≠ i + 1e-6 - xlogy i (i + 1e-6) := by
      intro h'
      have := h1.2 h'
      norm_num at this
    have h3 := lt_of_le_of_ne h1.1 h2
    simp [poissonNll, batchSum, selectedPixels]
    linarith
  · simp [brightCount, Unmasked, hi]
    norm_num

end Cdtools
