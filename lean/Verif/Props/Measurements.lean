/- Property theorems C30, C31, C32: measurements. -/
import Verif.Model.Measurements
import Verif.Props.PadDownsample
import Mathlib.LinearAlgebra.UnitaryGroup
import Mathlib.Analysis.RCLike.Basic
import Mathlib.Tactic.Positivity

namespace Cdtools
open Finset
set_option linter.unusedSectionVars false

/-! ### C30 -/

theorem saturate_le (s : ℝ) (a : Img ℝ) (i j : ℕ) : (saturate (some s) a).px i j ≤ s :=
  min_le_right _ _

theorem saturate_nonneg (s : ℝ) (hs : 0 ≤ s) (a : Img ℝ) (i j : ℕ) :
    0 ≤ (saturate (some s) a).px i j := le_min (le_max_right _ _) hs

theorem saturate_mono (sat : Option ℝ) (a b : Img ℝ) (i j : ℕ) (h : a.px i j ≤ b.px i j) :
    (saturate sat a).px i j ≤ (saturate sat b).px i j := by
  cases sat with
  | none => exact h
  | some s => exact min_le_min (max_le_max h le_rfl) le_rfl

theorem binPixels_nonneg (n : ℕ) (a : Img ℝ) (h : ∀ i j, 0 ≤ a.px i j) (i j : ℕ) :
    0 ≤ (binPixels n a).px i j := by
  unfold binPixels
  split
  · simp only [Img.avgPool, Img.sumPool]
    exact div_nonneg (sum_nonneg fun _ _ => sum_nonneg fun _ _ => h _ _) (by positivity)
  · exact h i j

theorem binPixels_mono (n : ℕ) (a b : Img ℝ) (h : ∀ i j, a.px i j ≤ b.px i j) (i j : ℕ) :
    (binPixels n a).px i j ≤ (binPixels n b).px i j := by
  unfold binPixels
  split
  · simp only [Img.avgPool, Img.sumPool]
    exact div_le_div_of_nonneg_right
      (sum_le_sum fun _ _ => sum_le_sum fun _ _ => h _ _) (by positivity)
  · exact h i j

theorem cutSlice_px (s : Option DetSlice) (a : Img ℝ) (i j : ℕ) :
    ∃ i' j', ∀ b : Img ℝ, (cutSlice s b).px i j = b.px i' j' := by
  cases s with
  | none => exact ⟨i, j, fun _ => rfl⟩
  | some s => exact ⟨s.r0 + i, s.c0 + j, fun _ => rfl⟩

/-- The three measurement functions, as functions of the simulated intensity before read-out. -/
inductive Measurement where
  | plain
  | background (bg : Img ℝ) (qe : Option (Img ℝ))

/-- The measured pattern for a simulated intensity. -/
noncomputable def Measurement.apply (c : MeasSettings) (a : Img ℝ) : Measurement → Img ℝ
  | .plain => readOut c a
  | .background bg qe => measQuadratic c bg qe a

/-- The quantum efficiencies are non-negative. -/
def Measurement.QeNonneg : Measurement → Prop
  | .background _ (some q) => ∀ i j, 0 ≤ q.px i j
  | _ => True

/-- The least value a detector pixel can show without saturation: the offset epsilon (times the
quantum efficiency) plus the background. -/
noncomputable def Measurement.floor (c : MeasSettings) (i j : ℕ) : Measurement → ℝ
  | .plain => c.epsilon
  | .background bg none => c.epsilon + bg.px i j ^ 2
  | .background bg (some q) => q.px i j * c.epsilon + bg.px i j ^ 2

/-- `intensity` and `incoherent_sum` are the plain measurement of a non-negative simulated
intensity; `incoherent_sum` of a single mode is `intensity`. -/
theorem measurements_are_plain (c : MeasSettings) :
    (∀ wave : Img ℂ, measIntensity c wave = Measurement.plain.apply c ⟨wave.h, wave.w,
      fun i j => ‖wave.px i j‖ ^ 2⟩) ∧
    (∀ h w modes, measIncoherent c h w modes = Measurement.plain.apply c ⟨h, w,
      fun i j => (modes.map fun ψ => ‖ψ i j‖ ^ 2).sum⟩) ∧
    (∀ wave : Img ℂ, measIncoherent c wave.h wave.w [wave.px] = measIntensity c wave) := by
  refine ⟨fun _ => rfl, fun _ _ _ => rfl, fun wave => ?_⟩
  simp [measIncoherent, measIntensity, sumModes, Img.map]

/-- **C30**: for every measurement, slice, oversampling and saturation, of every non-negative
simulated intensity: with saturation `s ≥ 0` every pixel is between 0 and `s`; without saturation
every pixel is at least epsilon (times quantum efficiency) plus background; and a pointwise larger
simulated intensity never gives a smaller pixel (given non-negative quantum efficiencies). -/
theorem measurement_in_range (c : MeasSettings) (m : Measurement) (a : Img ℝ) (i j : ℕ) :
    (∀ s, c.saturation = some s → (m.apply c a).px i j ≤ s) ∧
    (∀ s, c.saturation = some s → 0 ≤ s → 0 ≤ (m.apply c a).px i j) ∧
    (c.saturation = none → m.QeNonneg → (∀ i j, 0 ≤ a.px i j) →
      m.floor c i j ≤ (m.apply c a).px i j) ∧
    (∀ b : Img ℝ, m.QeNonneg → (∀ i j, a.px i j ≤ b.px i j) →
      (m.apply c a).px i j ≤ (m.apply c b).px i j) := by
  obtain ⟨i', j', hij⟩ := cutSlice_px c.slice a i j
  have raw : ∀ b : Img ℝ, ((cutSlice c.slice (binPixels c.oversampling b)).map
      fun x => x + c.epsilon).px i j = (binPixels c.oversampling b).px i' j' + c.epsilon := by
    intro b
    simp [Img.map, hij]
  refine ⟨fun s hs => ?_, fun s hs h0 => ?_, fun hs hq ha => ?_, fun b hq hab => ?_⟩
  · cases m with
    | plain => simp only [Measurement.apply, readOut, hs]; exact saturate_le _ _ _ _
    | background bg qe => simp only [Measurement.apply, measQuadratic, hs]; exact saturate_le _ _ _ _
  · cases m with
    | plain => simp only [Measurement.apply, readOut, hs]; exact saturate_nonneg s h0 _ _ _
    | background bg qe =>
      simp only [Measurement.apply, measQuadratic, hs]; exact saturate_nonneg s h0 _ _ _
  · have hn := binPixels_nonneg c.oversampling a ha i' j'
    cases m with
    | plain =>
      simp only [Measurement.apply, readOut, hs, saturate, Measurement.floor, raw]
      linarith
    | background bg qe =>
      cases qe with
      | none =>
        simp only [Measurement.apply, measQuadratic, hs, readOut, saturate, Measurement.floor,
          Img.zip, raw]
        linarith
      | some q =>
        simp only [Measurement.apply, measQuadratic, hs, readOut, saturate, Measurement.floor,
          Img.zip, raw]
        have := mul_nonneg (hq i j) hn
        nlinarith
  · have hm := binPixels_mono c.oversampling a b hab i' j'
    cases m with
    | plain =>
      simp only [Measurement.apply, readOut]
      refine saturate_mono _ _ _ _ _ ?_
      rw [raw, raw]
      linarith
    | background bg qe =>
      simp only [Measurement.apply, measQuadratic]
      refine saturate_mono _ _ _ _ _ ?_
      cases qe with
      | none =>
        simp only [readOut, saturate, Img.zip, raw]
        linarith
      | some q =>
        simp only [readOut, saturate, Img.zip, raw]
        have := mul_le_mul_of_nonneg_left hm (hq i j)
        nlinarith

/-- Slicing picks the detector region out of the full measurement: same pixels, at the slice's
offset, whatever the other settings. -/
theorem detector_slice_selects (c : MeasSettings) (s : DetSlice) (a : Img ℝ) :
    let full := readOut { c with slice := none } a
    let cut := readOut { c with slice := some s } a
    cut.h = min s.r1 full.h - s.r0 ∧ cut.w = min s.c1 full.w - s.c0 ∧
    ∀ i j, cut.px i j = full.px (s.r0 + i) (s.c0 + j) := by
  cases hs : c.saturation <;>
    exact ⟨by simp [readOut, saturate, cutSlice, Img.map, Img.slice, hs],
      by simp [readOut, saturate, cutSlice, Img.map, Img.slice, hs],
      fun i j => by simp [readOut, saturate, cutSlice, Img.map, Img.slice, hs]⟩

/-- Non-vacuity: a one-pixel wave of amplitude 2, oversampling 1, saturation 3. -/
example : (measIntensity { saturation := some 3, epsilon := 0 } ⟨1, 1, fun _ _ => 2⟩).px 0 0 = 3 := by
  simp [measIntensity, readOut, saturate, cutSlice, binPixels, Img.map, clamp0]
  norm_num

/-! ### C31 -/

/-- The mutual coherence of the modes on the diagonal determines everything: two stacks of modes
with the same total intensity at every point are measured alike. -/
theorem incoherent_sum_depends_on_intensity (c : MeasSettings) (h w : ℕ)
    (modes modes' : List (ℕ → ℕ → ℂ))
    (hm : ∀ i j, (modes.map fun ψ => ψ i j * (starRingEnd ℂ) (ψ i j)).sum =
      (modes'.map fun ψ => ψ i j * (starRingEnd ℂ) (ψ i j)).sum) :
    measIncoherent c h w modes = measIncoherent c h w modes' := by
  have key : ∀ (l : List (ℕ → ℕ → ℂ)) i j, ((l.map fun ψ => ‖ψ i j‖ ^ 2).sum : ℝ) =
      ((l.map fun ψ => ψ i j * (starRingEnd ℂ) (ψ i j)).sum : ℂ).re := by
    intro l i j
    induction l with
    | nil => simp
    | cons ψ l ih =>
      simp only [List.map_cons, List.sum_cons, Complex.add_re, ih]
      congr 1
      rw [Complex.mul_conj, Complex.ofReal_re, Complex.normSq_eq_norm_sq]
  unfold measIncoherent
  congr 1
  unfold sumModes
  congr 1
  funext i j
  rw [key, key, hm]

/-- **C31**: `incoherent_sum` does not change when the modes are reordered, when each is multiplied
by a phase (which may vary over the field), when zero modes are added, or when the modes are mixed
by any unitary matrix; and before read-out the sum of two stacks of modes is the sum of their
intensities. -/
theorem incoherent_sum_invariances (c : MeasSettings) (h w : ℕ) (modes : List (ℕ → ℕ → ℂ)) :
    (∀ modes', modes.Perm modes' → measIncoherent c h w modes' = measIncoherent c h w modes) ∧
    (∀ phases : List (ℕ → ℕ → ℂ), phases.length = modes.length →
      (∀ φ ∈ phases, ∀ i j, ‖φ i j‖ = 1) →
      measIncoherent c h w (List.zipWith (fun φ ψ i j => φ i j * ψ i j) phases modes) =
        measIncoherent c h w modes) ∧
    (∀ k, measIncoherent c h w (modes ++ List.replicate k fun _ _ => 0) =
      measIncoherent c h w modes) ∧
    (∀ (n : ℕ) (U : Matrix.unitaryGroup (Fin n) ℂ) (ψ : Fin n → ℕ → ℕ → ℂ),
      measIncoherent c h w (List.ofFn fun k => fun i j => ∑ l, U.1 k l * ψ l i j) =
        measIncoherent c h w (List.ofFn ψ)) ∧
    (∀ modes' i j, (sumModes h w (modes ++ modes')).px i j =
      (sumModes h w modes).px i j + (sumModes h w modes').px i j) := by
  refine ⟨fun modes' hp => ?_, fun phases hl hφ => ?_, fun k => ?_, fun n U ψ => ?_,
    fun modes' i j => by simp [sumModes]⟩
  · refine incoherent_sum_depends_on_intensity c h w _ _ fun i j => ?_
    exact (hp.symm.map _).sum_eq
  · unfold measIncoherent
    congr 1
    unfold sumModes
    congr 1
    funext i j
    congr 1
    apply List.ext_getElem
    · simp [hl]
    · intro k h1 h2
      simp only [List.getElem_map, List.getElem_zipWith, norm_mul]
      rw [hφ _ (List.getElem_mem _), one_mul]
  · refine incoherent_sum_depends_on_intensity c h w _ _ fun i j => ?_
    simp
  · refine incoherent_sum_depends_on_intensity c h w _ _ fun i j => ?_
    rw [List.map_ofFn, List.map_ofFn, List.sum_ofFn, List.sum_ofFn]
    simp only [Function.comp]
    have hU : star (U : Matrix (Fin n) (Fin n) ℂ) * U = 1 := Matrix.UnitaryGroup.star_mul_self U
    have e : ∀ l l', ∑ k, U.1 k l * (starRingEnd ℂ) (U.1 k l') = if l' = l then 1 else 0 := by
      intro l l'
      have := congrFun (congrFun hU l') l
      rw [Matrix.mul_apply, Matrix.one_apply] at this
      rw [← this]
      refine sum_congr rfl fun k _ => ?_
      rw [Matrix.star_apply, mul_comm]
      rfl
    calc ∑ k, (∑ l, U.1 k l * ψ l i j) * (starRingEnd ℂ) (∑ l, U.1 k l * ψ l i j)
        = ∑ k, ∑ l, ∑ l', (U.1 k l * (starRingEnd ℂ) (U.1 k l')) *
            (ψ l i j * (starRingEnd ℂ) (ψ l' i j)) := by
          refine sum_congr rfl fun k _ => ?_
          rw [map_sum, sum_mul_sum]
          refine sum_congr rfl fun l _ => sum_congr rfl fun l' _ => ?_
          rw [map_mul]
          ring
      _ = ∑ l, ∑ l', (∑ k, U.1 k l * (starRingEnd ℂ) (U.1 k l')) *
            (ψ l i j * (starRingEnd ℂ) (ψ l' i j)) := by
          rw [sum_comm]
          refine sum_congr rfl fun l _ => ?_
          rw [sum_comm]
          refine sum_congr rfl fun l' _ => ?_
          rw [sum_mul]
      _ = ∑ l, ψ l i j * (starRingEnd ℂ) (ψ l i j) := by
          refine sum_congr rfl fun l _ => ?_
          simp [e]

/-- Non-vacuity: there are non-trivial unitaries, e.g. swapping two modes. -/
example : (!![0, 1; 1, 0] : Matrix (Fin 2) (Fin 2) ℂ) ∈ Matrix.unitaryGroup (Fin 2) ℂ := by
  rw [Matrix.mem_unitaryGroup_iff]
  ext i j
  fin_cases i <;> fin_cases j <;> simp [Matrix.mul_apply, Matrix.star_apply]

/-! ### C32 -/

/-- **C32**: with oversampling `n ≥ 1` and neither slice nor saturation, the measured image has the
floor of the simulated shape by `n`, its pixel `(i, j)` is epsilon plus the mean of the simulated
intensity over the `n × n` block starting at `(n i, n j)`, and when `n` divides the shape its total
(without epsilon) is the simulated total divided by `n²`. -/
theorem oversampling_averages_blocks (c : MeasSettings) (hs : c.saturation = none)
    (hsl : c.slice = none) (hn : 0 < c.oversampling) (a : Img ℝ) :
    let n := c.oversampling
    (readOut c a).h = a.h / n ∧ (readOut c a).w = a.w / n ∧
    (∀ i j, (readOut c a).px i j = (∑ i' ∈ Ico (n * i) (n * i + n),
      ∑ j' ∈ Ico (n * j) (n * j + n), a.px i' j') / n ^ 2 + c.epsilon) ∧
    (n ∣ a.h → n ∣ a.w → c.epsilon = 0 → (readOut c a).total = a.total / n ^ 2) := by
  intro n
  have hbin : (binPixels n a).h = a.h / n ∧ (binPixels n a).w = a.w / n ∧
      ∀ i j, (binPixels n a).px i j = ((maskedBy none a).sumPool n).px i j / n ^ 2 := by
    unfold binPixels
    split
    · refine ⟨rfl, rfl, fun i j => ?_⟩
      simp only [Img.avgPool, maskedBy, pow_two]
    · rename_i h
      have h1 : n = 1 := not_not.1 h
      rw [h1]
      refine ⟨by simp, by simp, fun i j => ?_⟩
      simp [Img.sumPool, maskedBy]
  have hro : readOut c a = (binPixels n a).map fun x => x + c.epsilon := by
    simp [readOut, hs, hsl, saturate, cutSlice, n]
  have hpx : ∀ i j, (readOut c a).px i j = (∑ i' ∈ Ico (n * i) (n * i + n),
      ∑ j' ∈ Ico (n * j) (n * j + n), a.px i' j') / n ^ 2 + c.epsilon := by
    intro i j
    rw [hro]
    simp only [Img.map, hbin.2.2]
    rw [sumPool_px]
    rfl
  refine ⟨by rw [hro]; exact hbin.1, by rw [hro]; exact hbin.2.1, hpx, fun h1 h2 he => ?_⟩
  have ht := downsample_conserves_counts n hn none a ((maskedBy none a).sumPool n)
    (sumPool_blockSums n none a) h1 h2
  simp only [usableValue_none] at ht
  have : (readOut c a).total = ((maskedBy none a).sumPool n).total / n ^ 2 := by
    simp only [Img.total, sum_div]
    rw [hro]
    simp only [Img.map, hbin.1, hbin.2.1, hbin.2.2, he, add_zero]
    rfl
  rw [this, ht]
  rfl

/-- Non-vacuity: oversampling 2 on a 4×4 image. -/
example : ((readOut { oversampling := 2, epsilon := 0 } ⟨4, 4, fun i j => (i : ℝ) * j⟩).total)
    = 36 / 2 ^ 2 := by
  rw [(oversampling_averages_blocks _ rfl rfl (by norm_num) _).2.2.2 (by decide) (by decide) rfl]
  simp [Img.total, sum_range_succ]
  norm_num

end Cdtools
