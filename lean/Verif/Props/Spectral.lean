/-
C71: `calc_spectral_info` (`tools/analysis/analysis.py:1428-1528`).
-/
import Verif.Model.ReconSets
import Verif.Props.Frc

set_option linter.unusedSectionVars false

namespace Cdtools
open Finset ZMod

variable {n m : ℕ} [NeZero n] [NeZero m]

/-! ### Specification

Measured intensity in the valid pixels, and the arithmetic mean over a set of pixels. -/

/-- The intensity all the patterns record in one pixel. -/
noncomputable def recorded (patterns : List (ZMod n → ZMod m → ℝ)) (i : ZMod n) (j : ZMod m) : ℝ :=
  (patterns.map fun p => p i j).sum

/-- The valid pixels of ring `b` (out of `nbins`). -/
noncomputable def validRing (nbins : ℕ) (d0 d1 : ℝ) (mask : ZMod n → ZMod m → Bool) (b : ℕ) :
    Finset (ZMod n × ZMod m) :=
  haveI := Classical.decPred fun p : ZMod n × ZMod m => InRing nbins (frcRange n m false d0 d1) d0 d1 b p.1 p.2
  (univ.filter fun p => InRing nbins (frcRange n m false d0 d1) d0 d1 b p.1 p.2).filter fun p => mask p.1 p.2 = true

/-! ### The image -/

/-- **C71** (total intensity): when the scan has an area, the total intensity in the returned image is the intensity
recorded in the valid pixels, divided by the scanned area and multiplied by the area of one field of view. -/
theorem spectral_total_intensity (fov : ℝ) {A : ℝ} (mask : ZMod n → ZMod m → Bool)
    (patterns : List (ZMod n → ZMod m → ℝ)) :
    ∑ i, ∑ j, sumPattern fov (some A) mask patterns i j =
      (∑ i, ∑ j, if mask i j then recorded patterns i j else 0) / A * fov := by
  unfold sumPattern recorded
  rw [div_mul_eq_mul_div, mul_div_assoc, sum_mul]
  refine sum_congr rfl fun i _ => ?_
  rw [sum_mul]
  refine sum_congr rfl fun j _ => ?_
  by_cases h : mask i j <;> simp [h]

/-- **C71** (collinear scans): when it has none, the image is the mean pattern in the valid pixels. -/
theorem spectral_mean_pattern (fov : ℝ) (mask : ZMod n → ZMod m → Bool)
    (patterns : List (ZMod n → ZMod m → ℝ)) (i : ZMod n) (j : ZMod m) (hm : mask i j = true) :
    sumPattern fov none mask patterns i j = recorded patterns i j / patterns.length := by
  unfold sumPattern recorded
  simp only [hm, if_true]
  ring

/-- **C71** (mask): bad pixels are zero, and nothing recorded in them has any effect. -/
theorem spectral_masked (fov : ℝ) (area : Option ℝ) (mask : ZMod n → ZMod m → Bool)
    (patterns : List (ZMod n → ZMod m → ℝ)) (f : ℕ → ZMod n → ZMod m → ℝ) :
    (∀ i j, mask i j = false → sumPattern fov area mask patterns i j = 0) ∧
    sumPattern fov area mask
      (patterns.mapIdx fun k p => fun i j => if mask i j then p i j else f k i j) =
        sumPattern fov area mask patterns := by
  refine ⟨fun i j h => by simp [sumPattern, h], ?_⟩
  funext i j
  unfold sumPattern
  rw [List.length_mapIdx]
  by_cases h : mask i j
  · have : ((patterns.mapIdx fun k p => fun i j => if mask i j then p i j else f k i j).map fun p => p i j) =
        patterns.map fun p => p i j := by
      apply List.ext_getElem <;> simp [h]
    rw [this]
  · simp [h]

/-- **C71** (order): the order in which the patterns were measured does not matter. -/
theorem spectral_order {fov : ℝ} {area : Option ℝ} {mask : ZMod n → ZMod m → Bool}
    {p q : List (ZMod n → ZMod m → ℝ)} (h : p.Perm q) :
    sumPattern fov area mask p = sumPattern fov area mask q := by
  funext i j
  unfold sumPattern
  rw [(h.map _).sum_eq, h.length_eq]

/-! ### The radial profile -/

theorem ringSum_inRing {α : Type} [AddCommMonoid α] {nbins : ℕ} (hn : 0 < nbins) {d0 d1 : ℝ} (h0 : 0 < d0)
    (h1 : 0 < d1) (w : ZMod n → ZMod m → α) {b : ℕ} (hb : b < nbins) [DecidablePred fun p : ZMod n × ZMod m =>
      InRing nbins (frcRange n m false d0 d1) d0 d1 b p.1 p.2] :
    ringSum nbins (frcRange n m false d0 d1) d0 d1 w b =
      ∑ p ∈ univ.filter (fun p : ZMod n × ZMod m => InRing nbins (frcRange n m false d0 d1) d0 d1 b p.1 p.2),
        w p.1 p.2 := by
  rw [ringSum_eq]
  refine sum_congr ?_ fun _ _ => rfl
  ext p
  rw [mem_filter, mem_filter]
  exact and_congr_right fun _ => (frc_rings_disjoint hn false h0 h1 p.1 p.2).1 b hb

/-- **C71** (profile): the profile of the returned image is, in every ring, the mean over the *valid* pixels of that
ring; bad pixels neither contribute nor count. A ring without a valid pixel has no value (NaN). -/
theorem spectral_profile {nbins : ℕ} (hn : 0 < nbins) {d0 d1 : ℝ} (h0 : 0 < d0) (h1 : 0 < d1) (fov : ℝ)
    (area : Option ℝ) (mask : ZMod n → ZMod m → Bool) (patterns : List (ZMod n → ZMod m → ℝ)) {b : ℕ} (hb : b < nbins) :
    (validRing nbins d0 d1 mask b = ∅ →
      meanSpectrum nbins d0 d1 mask (sumPattern fov area mask patterns) b = none) ∧
    ((validRing nbins d0 d1 mask b).Nonempty →
      meanSpectrum nbins d0 d1 mask (sumPattern fov area mask patterns) b =
        some ((∑ p ∈ validRing nbins d0 d1 mask b, sumPattern fov area mask patterns p.1 p.2) /
          (validRing nbins d0 d1 mask b).card)) := by
  classical
  have hc : (ringSum nbins (frcRange n m false d0 d1) d0 d1 (fun i j => if mask i j then 1 else 0) b : ℕ) =
      (validRing nbins d0 d1 mask b).card := by
    rw [ringSum_inRing hn h0 h1 _ hb]
    unfold validRing
    rw [card_filter]
  have hs : ringSum nbins (frcRange n m false d0 d1) d0 d1 (sumPattern fov area mask patterns) b =
      ∑ p ∈ validRing nbins d0 d1 mask b, sumPattern fov area mask patterns p.1 p.2 := by
    rw [ringSum_inRing hn h0 h1 _ hb]
    unfold validRing
    rw [sum_filter (p := fun p : ZMod n × ZMod m => mask p.1 p.2 = true)]
    refine sum_congr ?_ fun p _ => ?_
    · ext p; simp only [mem_filter]
    · by_cases h : mask p.1 p.2 = true
      · rw [if_pos h]
      · rw [if_neg h]
        exact (spectral_masked fov area mask patterns (fun _ _ _ => 0)).1 _ _ (by simpa using h)
  unfold meanSpectrum
  simp only [hc, hs]
  refine ⟨fun h => ?_, fun h => ?_⟩
  · rw [h]; rfl
  · rw [if_neg (card_ne_zero.2 h)]

/-- **C71** (units): scaling every pattern by `c` scales the image and its profile by `c`. -/
theorem spectral_scale (nbins : ℕ) (d0 d1 fov : ℝ) (area : Option ℝ) (mask : ZMod n → ZMod m → Bool)
    (patterns : List (ZMod n → ZMod m → ℝ)) (c : ℝ) (b : ℕ) :
    meanSpectrum nbins d0 d1 mask (sumPattern fov area mask (patterns.map fun p => fun i j => p i j * c)) b =
      (meanSpectrum nbins d0 d1 mask (sumPattern fov area mask patterns) b).map (· * c) := by
  have h : ∀ i j, sumPattern fov area mask (patterns.map fun p => fun i j => p i j * c) i j =
      sumPattern fov area mask patterns i j * c := by
    intro i j
    unfold sumPattern
    rw [List.length_map, List.map_map]
    have : (patterns.map ((fun p : ZMod n → ZMod m → ℝ => p i j) ∘ fun p => fun i j => p i j * c)).sum =
        (patterns.map fun p => p i j).sum * c := List.sum_map_mul_right ..
    rw [this]
    ring
  unfold meanSpectrum
  simp only [ringSum_congr h, ringSum_mul]
  split
  · rfl
  · simp only [Option.map_some]
    congr 1
    ring

/-- **C71** (documentation): the docstring announces the estimated SSNR as the third result. What is returned depends
only on the mean intensity: one pixel with counts 1, 3 and one with counts 2, 2 (mean 2, SNR different) give the same
curve, and so do all stacks with the same sum and length. -/
theorem spectral_not_ssnr {fov : ℝ} {area : Option ℝ} {mask : ZMod n → ZMod m → Bool}
    {p q : List (ZMod n → ZMod m → ℝ)} (hl : p.length = q.length) (h : ∀ i j, recorded p i j = recorded q i j)
    (nbins : ℕ) (d0 d1 : ℝ) (b : ℕ) :
    meanSpectrum nbins d0 d1 mask (sumPattern fov area mask p) b =
      meanSpectrum nbins d0 d1 mask (sumPattern fov area mask q) b := by
  have : sumPattern fov area mask p = sumPattern fov area mask q := by
    funext i j
    have := h i j
    unfold recorded at this
    unfold sumPattern
    rw [this, hl]
  rw [this]

/-- Two different stacks of one-pixel patterns to which `spectral_not_ssnr` applies. -/
example : ∃ p q : List (ZMod 1 → ZMod 1 → ℝ), p.length = q.length ∧ p ≠ q ∧ ∀ i j, recorded p i j = recorded q i j := by
  refine ⟨[fun _ _ => 1, fun _ _ => 3], [fun _ _ => 2, fun _ _ => 2], rfl, ?_, fun i j => ?_⟩
  · intro h
    have := congrFun (congrFun (List.cons.inj h).1 0) 0
    norm_num at this
  · norm_num [recorded]

/-- Ring 0 of 1 of a 2×2 detector with one bad pixel has valid pixels (`spectral_profile` is not vacuous): with unit
pixels the centre pixel has radius 0. -/
example (mask : ZMod 2 → ZMod 2 → Bool) (hm : mask 1 1 = true) : (validRing 1 1 1 mask 0).Nonempty := by
  refine ⟨(1, 1), ?_⟩
  unfold validRing
  simp only [mem_filter, mem_univ, true_and]
  refine ⟨?_, hm⟩
  have hr : ringRadius (n := 2) (m := 2) 1 1 1 1 = 0 := by
    have h1 : (1 : ZMod 2).val = 1 := rfl
    norm_num [ringRadius, shiftedFreq, h1]
  refine ((frc_rings_disjoint (n := 2) (m := 2) Nat.one_pos false one_pos one_pos 1 1).1 0 Nat.one_pos).1 ?_
  rw [hr]
  have ht := frcRange_nonneg (n := 2) (m := 2) false (d0 := 1) (d1 := 1) one_pos one_pos
  unfold histBin histEdges
  split
  · norm_num
  · norm_num [ht]

end Cdtools
