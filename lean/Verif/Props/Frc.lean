/-
**C50**: Fourier ring correlation values are correlation coefficients over disjoint rings.
-/
import Verif.Model.Analysis
import Verif.Props.Propagators

set_option linter.unusedSectionVars false

namespace Cdtools
open Finset ZMod

variable {n m : ℕ} [NeZero n] [NeZero m]

/-! ### Specification -/

/-- The pixels of the centred spectrum that ring `b` of `nbins` collects: those whose spatial frequency
lies between the ring's edges; the outer edge belongs to the last ring only. -/
def InRing (nbins : ℕ) (top d0 d1 : ℝ) (b : ℕ) (i : ZMod n) (j : ZMod m) : Prop :=
  binEdge nbins top b ≤ ringRadius d0 d1 i j ∧
    (ringRadius d0 d1 i j < binEdge nbins top (b + 1) ∨
      b + 1 = nbins ∧ ringRadius d0 d1 i j = binEdge nbins top nbins)

/-! ### Rings -/

theorem histEdges_lt {top : ℝ} (h : 0 ≤ top) : (histEdges top).1 < (histEdges top).2 := by
  unfold histEdges
  split
  · norm_num
  · rename_i h0; exact lt_of_le_of_ne h h0

/-- `np.histogram` puts a value in the bin between whose edges it lies. -/
theorem histBin_iff {nbins : ℕ} (hn : 0 < nbins) {top : ℝ} (ht : 0 ≤ top) (x : ℝ) (b : ℕ) (hb : b < nbins) :
    histBin nbins top x = some b ↔ binEdge nbins top b ≤ x ∧
      (x < binEdge nbins top (b + 1) ∨ b + 1 = nbins ∧ x = binEdge nbins top nbins) := by
  have hlt := histEdges_lt ht
  unfold histBin binEdge
  simp only
  generalize histEdges top = e at *
  have hw : 0 < e.2 - e.1 := by linarith
  have hnr : (0 : ℝ) < nbins := by exact_mod_cast hn
  set y := (x - e.1) * nbins / (e.2 - e.1) with hy
  have hx : x = e.1 + y * (e.2 - e.1) / nbins := by
    rw [hy]; field_simp; ring
  have mono : ∀ u v : ℝ, e.1 + u * (e.2 - e.1) / nbins ≤ e.1 + v * (e.2 - e.1) / nbins ↔ u ≤ v := by
    intro u v
    rw [add_le_add_iff_left, div_le_div_iff_of_pos_right hnr, mul_le_mul_iff_left₀ hw]
  have mono' : ∀ u v : ℝ, e.1 + u * (e.2 - e.1) / nbins < e.1 + v * (e.2 - e.1) / nbins ↔ u < v := by
    intro u v
    rw [← not_le, mono, not_le]
  have inj : ∀ u v : ℝ, e.1 + u * (e.2 - e.1) / nbins = e.1 + v * (e.2 - e.1) / nbins ↔ u = v := by
    intro u v
    rw [le_antisymm_iff, mono, mono, ← le_antisymm_iff]
  have h0 : e.1 ≤ x ↔ 0 ≤ y := by
    rw [← mono 0 y, ← hx]; simp
  have h1 : x ≤ e.2 ↔ y ≤ nbins := by
    rw [← mono y nbins, ← hx]
    have : e.1 + nbins * (e.2 - e.1) / nbins = e.2 := by field_simp; ring
    rw [this]
  rw [h0, h1]
  conv_rhs => rw [hx]
  rw [mono, mono', inj]
  push_cast
  clear_value y
  have hbr : (b : ℝ) + 1 ≤ nbins := by exact_mod_cast hb
  by_cases hc : 0 ≤ y ∧ y ≤ nbins
  · rw [if_pos hc, Option.some.injEq]
    obtain ⟨hy0, hyn⟩ := hc
    constructor
    · intro h
      have hfl := Nat.floor_le hy0
      have hfl2 := Nat.lt_floor_add_one y
      rcases Nat.lt_or_ge ⌊y⌋₊ nbins with hlt' | hge
      · have : ⌊y⌋₊ = b := by omega
        rw [← this]
        exact ⟨hfl, Or.inl hfl2⟩
      · have hge' : (nbins : ℝ) ≤ ⌊y⌋₊ := by exact_mod_cast hge
        have hyeq : y = nbins := le_antisymm hyn (hge'.trans hfl)
        have : b + 1 = nbins := by omega
        refine ⟨?_, Or.inr ⟨this, hyeq⟩⟩
        rw [hyeq]; linarith
    · rintro ⟨hl, hr | ⟨hr, hr'⟩⟩
      · have : ⌊y⌋₊ = b := by
          rw [Nat.floor_eq_iff hy0]; exact ⟨hl, hr⟩
        omega
      · rw [hr', Nat.floor_natCast]
        omega
  · rw [if_neg hc]
    constructor
    · intro h; exact absurd h (by simp)
    · rintro ⟨hl, hr | ⟨-, hr'⟩⟩
      · exact absurd ⟨le_trans (Nat.cast_nonneg b) hl, by linarith⟩ hc
      · exact absurd ⟨by rw [hr']; exact hnr.le, hr'.le⟩ hc

/-- **C50** (frequencies): the frequencies of the rows and columns are those of the discrete Fourier transform, in cycles per
unit of length, in the order of the centred spectrum. -/
theorem frc_frequencies (d : ℝ) (i : ZMod n) :
    shiftedFreq n d i = fftshift (fun k => fftfreq n k / d) i := by
  have hlt := ZMod.val_lt i
  have hn : (n : ℝ) ≠ 0 := by exact_mod_cast NeZero.ne n
  obtain ⟨q, hq, hk, hl, hu⟩ := fftfreq_spec n (i - ((n / 2 : ℕ) : ZMod n))
  have hqe : q = (i.val : ℤ) - (n / 2 : ℕ) := by
    have h1 : (((i.val : ℤ) - (n / 2 : ℕ) : ℤ) : ZMod n) = (q : ZMod n) := by
      rw [hk, Int.cast_sub, Int.cast_natCast, Int.cast_natCast, ZMod.natCast_zmod_val]
    have h2 := (ZMod.intCast_eq_intCast_iff_dvd_sub _ _ n).1 h1
    obtain ⟨c, hc⟩ := h2
    have hc0 : c = 0 := by
      have hnp : (0 : ℤ) < n := by exact_mod_cast NeZero.pos n
      have : -1 < c := by
        by_contra hcc
        have : (n : ℤ) * c ≤ n * (-1) := mul_le_mul_of_nonneg_left (by omega) hnp.le
        omega
      have : c < 1 := by
        by_contra hcc
        have : (n : ℤ) * 1 ≤ n * c := mul_le_mul_of_nonneg_left (by omega) hnp.le
        omega
      omega
    rw [hc0] at hc
    omega
  unfold shiftedFreq fftshift
  simp only
  rw [hq, hqe, div_div, Int.cast_sub, Int.cast_natCast, Int.cast_natCast]

theorem ringRadius_nonneg (d0 d1 : ℝ) (i : ZMod n) (j : ZMod m) : 0 ≤ ringRadius d0 d1 i j :=
  Real.sqrt_nonneg _

theorem frcRange_nonneg (corner : Bool) {d0 d1 : ℝ} (h0 : 0 < d0) (h1 : 0 < d1) :
    0 ≤ frcRange n m corner d0 d1 := by
  unfold frcRange
  split
  · exact (ringRadius_nonneg d0 d1 (0 : ZMod n) (0 : ZMod m)).trans
      (le_sup' (fun p : ZMod n × ZMod m => ringRadius d0 d1 p.1 p.2) (mem_univ (0, 0)))
  · refine le_max_of_le_left ?_
    refine le_trans ?_ (le_sup' (shiftedFreq n d0) (mem_univ ((n / 2 : ℕ) : ZMod n)))
    unfold shiftedFreq
    rw [ZMod.val_natCast, Nat.mod_eq_of_lt (Nat.div_lt_self (NeZero.pos n) one_lt_two)]
    simp

/-- **C50** (disjoint rings): every pixel of the spectrum is counted in exactly the rings between whose
edges its frequency lies, and there is at most one of them. -/
theorem frc_rings_disjoint {nbins : ℕ} (hn : 0 < nbins) (corner : Bool) {d0 d1 : ℝ} (h0 : 0 < d0)
    (h1 : 0 < d1) (i : ZMod n) (j : ZMod m) :
    (∀ b < nbins, histBin nbins (frcRange n m corner d0 d1) (ringRadius d0 d1 i j) = some b ↔
      InRing nbins (frcRange n m corner d0 d1) d0 d1 b i j) ∧
    (∀ b < nbins, ∀ c < nbins, InRing nbins (frcRange n m corner d0 d1) d0 d1 b i j →
      InRing nbins (frcRange n m corner d0 d1) d0 d1 c i j → b = c) := by
  have ht := frcRange_nonneg (n := n) (m := m) corner h0 h1
  have key := fun b hb => histBin_iff hn ht (ringRadius d0 d1 i j) b hb
  refine ⟨key, fun b hb c hc hB hC => ?_⟩
  have e1 := (key b hb).2 hB
  have e2 := (key c hc).2 hC
  rw [e1] at e2
  exact Option.some.inj e2

/-- **C50** (complete rings): with `limit='corner'` every pixel is in a ring; with `limit='side'`
exactly those whose frequency does not exceed the highest frequency along an axis (when that is not
zero). -/
theorem frc_rings_cover {nbins : ℕ} (hn : 0 < nbins) (corner : Bool) {d0 d1 : ℝ} (h0 : 0 < d0)
    (h1 : 0 < d1) (i : ZMod n) (j : ZMod m) (hpos : 0 < frcRange n m corner d0 d1) :
    (∃ b < nbins, InRing nbins (frcRange n m corner d0 d1) d0 d1 b i j) ↔
      (corner = true ∨ ringRadius d0 d1 i j ≤ frcRange n m false d0 d1) := by
  have ht := frcRange_nonneg (n := n) (m := m) corner h0 h1
  have key := fun b hb => histBin_iff hn ht (ringRadius d0 d1 i j) b hb
  have hle : (∃ b < nbins, InRing nbins (frcRange n m corner d0 d1) d0 d1 b i j) ↔
      ringRadius d0 d1 i j ≤ frcRange n m corner d0 d1 := by
    have hbin : (∃ b < nbins, histBin nbins (frcRange n m corner d0 d1) (ringRadius d0 d1 i j) = some b) ↔
        ringRadius d0 d1 i j ≤ frcRange n m corner d0 d1 := by
      unfold histBin histEdges
      simp only [if_neg hpos.ne]
      constructor
      · rintro ⟨b, -, hb⟩
        split at hb
        · rename_i h; exact h.2
        · exact absurd hb (by simp)
      · intro h
        rw [if_pos ⟨ringRadius_nonneg _ _ _ _, h⟩]
        exact ⟨_, by omega, rfl⟩
    rw [← hbin]
    constructor
    · rintro ⟨b, hb, h⟩; exact ⟨b, hb, (key b hb).2 h⟩
    · rintro ⟨b, hb, h⟩; exact ⟨b, hb, (key b hb).1 h⟩
  rw [hle]
  cases corner
  · simp
  · simp only [true_or, iff_true]
    unfold frcRange
    simp only [if_true]
    exact le_sup' (fun p : ZMod n × ZMod m => ringRadius d0 d1 p.1 p.2) (mem_univ (i, j))

/-! ### Values -/

theorem ringSum_eq {α : Type} [AddCommMonoid α] (nbins : ℕ) (top d0 d1 : ℝ) (w : ZMod n → ZMod m → α)
    (b : ℕ) : ringSum nbins top d0 d1 w b =
      ∑ p ∈ (univ : Finset (ZMod n × ZMod m)).filter
        (fun p => histBin nbins top (ringRadius d0 d1 p.1 p.2) = some b), w p.1 p.2 := by
  unfold ringSum
  rw [sum_filter, ← univ_product_univ, sum_product]

theorem cauchy_schwarz {ι : Type} (s : Finset ι) (f g : ι → ℂ) :
    ‖∑ i ∈ s, f i * (starRingEnd ℂ) (g i)‖ ^ 2 ≤ (∑ i ∈ s, ‖f i‖ ^ 2) * ∑ i ∈ s, ‖g i‖ ^ 2 := by
  have h1 : ‖∑ i ∈ s, f i * (starRingEnd ℂ) (g i)‖ ≤ ∑ i ∈ s, ‖f i‖ * ‖g i‖ :=
    (norm_sum_le _ _).trans (sum_le_sum fun i _ => by rw [norm_mul, Complex.norm_conj])
  exact (pow_le_pow_left₀ (norm_nonneg _) h1 2).trans (sum_mul_sq_le_sq_mul_sq s _ _)

/-- **C50** (range): every FRC value has modulus at most one. -/
theorem frc_bounded {nbins : ℕ} {corner : Bool} {d0 d1 : ℝ} {im1 im2 : Wave n m} {b : ℕ} {v : ℂ}
    (h : frcValue nbins corner d0 d1 im1 im2 b = some v) : ‖v‖ ≤ 1 := by
  unfold frcValue at h
  simp only at h
  split at h
  · exact absurd h (by simp)
  rename_i hd
  simp only [Option.some.injEq] at h
  rw [← h, norm_div, Complex.norm_real, Real.norm_of_nonneg (Real.sqrt_nonneg _)]
  refine div_le_one_of_le₀ ?_ (Real.sqrt_nonneg _)
  apply Real.le_sqrt_of_sq_le
  rw [ringSum_eq, ringSum_eq, ringSum_eq]
  exact cauchy_schwarz _ (fun p : ZMod n × ZMod m => fftshift2 (fft2 im1) p.1 p.2)
    (fun p => fftshift2 (fft2 im2) p.1 p.2)

theorem ringSum_congr {α : Type} [AddCommMonoid α] {nbins : ℕ} {top d0 d1 : ℝ} {w w' : ZMod n → ZMod m → α}
    {b : ℕ} (h : ∀ i j, w i j = w' i j) :
    ringSum nbins top d0 d1 w b = ringSum nbins top d0 d1 w' b := by
  have : w = w' := by funext i j; exact h i j
  rw [this]

theorem ringSum_mul {α : Type} [Semiring α] (nbins : ℕ) (top d0 d1 : ℝ) (w : ZMod n → ZMod m → α)
    (c : α) (b : ℕ) : ringSum nbins top d0 d1 (fun i j => w i j * c) b =
      ringSum nbins top d0 d1 w b * c := by
  rw [ringSum_eq, ringSum_eq, sum_mul]

/-- **C50** (scaling): multiplying the images by non-zero constants changes every FRC value only by a
phase factor, which is 1 when the constants have the same phase. -/
theorem frc_scaling (nbins : ℕ) (corner : Bool) (d0 d1 : ℝ) (im1 im2 : Wave n m) (b : ℕ) {c1 c2 : ℂ}
    (hc1 : c1 ≠ 0) (hc2 : c2 ≠ 0) :
    frcValue nbins corner d0 d1 (fun i j => im1 i j * c1) (fun i j => im2 i j * c2) b =
      (frcValue nbins corner d0 d1 im1 im2 b).map
        fun v => v * (c1 * (starRingEnd ℂ) c2 / (‖c1 * (starRingEnd ℂ) c2‖ : ℂ)) := by
  unfold frcValue
  simp only
  have hs : ∀ (w : Wave n m) (c : ℂ), fftshift2 (fft2 (fun i j => w i j * c)) =
      fun i j => fftshift2 (fft2 w) i j * c := by
    intro w c; rw [fft2_smul]; rfl
  rw [hs, hs]
  have e1 : ∀ (w : Wave n m) (c : ℂ), ringSum nbins (frcRange n m corner d0 d1) d0 d1
      (fun i j => ‖w i j * c‖ ^ 2) b =
      ringSum nbins (frcRange n m corner d0 d1) d0 d1 (fun i j => ‖w i j‖ ^ 2) b * ‖c‖ ^ 2 := by
    intro w c
    rw [← ringSum_mul]
    exact ringSum_congr fun i j => by rw [norm_mul, mul_pow]
  rw [e1, e1]
  have e2 : ringSum nbins (frcRange n m corner d0 d1) d0 d1 (fun i j =>
      fftshift2 (fft2 im1) i j * c1 * (starRingEnd ℂ) (fftshift2 (fft2 im2) i j * c2)) b =
      ringSum nbins (frcRange n m corner d0 d1) d0 d1 (fun i j =>
        fftshift2 (fft2 im1) i j * (starRingEnd ℂ) (fftshift2 (fft2 im2) i j)) b *
        (c1 * (starRingEnd ℂ) c2) := by
    rw [← ringSum_mul]
    exact ringSum_congr fun i j => by rw [map_mul]; ring
  rw [e2]
  have p1 : ‖c1‖ ≠ 0 := norm_ne_zero_iff.2 hc1
  have p2 : ‖c2‖ ≠ 0 := norm_ne_zero_iff.2 hc2
  generalize ringSum nbins (frcRange n m corner d0 d1) d0 d1 (fun i j => ‖fftshift2 (fft2 im1) i j‖ ^ 2) b = A
  generalize ringSum nbins (frcRange n m corner d0 d1) d0 d1 (fun i j => ‖fftshift2 (fft2 im2) i j‖ ^ 2) b = B
  generalize ringSum nbins (frcRange n m corner d0 d1) d0 d1 (fun i j =>
        fftshift2 (fft2 im1) i j * (starRingEnd ℂ) (fftshift2 (fft2 im2) i j)) b = N
  have e3 : A * ‖c1‖ ^ 2 * (B * ‖c2‖ ^ 2) = A * B * (‖c1‖ * ‖c2‖) ^ 2 := by ring
  rw [e3]
  by_cases hAB : A * B = 0
  · rw [if_pos hAB, if_pos (by rw [hAB, zero_mul])]; rfl
  · rw [if_neg hAB, if_neg (mul_ne_zero hAB (pow_ne_zero 2 (mul_ne_zero p1 p2)))]
    simp only [Option.map_some, Option.some.injEq]
    rw [Real.sqrt_mul' _ (sq_nonneg _), Real.sqrt_sq (by positivity), norm_mul, Complex.norm_conj]
    push_cast
    ring

/-- **C50** (equal images): the FRC of an image with itself is 1 on every ring that has some spectral
power, and undefined (0/0) on the others. -/
theorem frc_self (nbins : ℕ) (corner : Bool) (d0 d1 : ℝ) (im : Wave n m) (b : ℕ) :
    frcValue nbins corner d0 d1 im im b = none ∨ frcValue nbins corner d0 d1 im im b = some 1 := by
  unfold frcValue
  simp only
  have e : ringSum nbins (frcRange n m corner d0 d1) d0 d1 (fun i j =>
      fftshift2 (fft2 im) i j * (starRingEnd ℂ) (fftshift2 (fft2 im) i j)) b =
      ((ringSum nbins (frcRange n m corner d0 d1) d0 d1 (fun i j => ‖fftshift2 (fft2 im) i j‖ ^ 2) b : ℝ) : ℂ) := by
    rw [ringSum_eq, ringSum_eq]
    push_cast
    exact sum_congr rfl fun p _ => Complex.mul_conj' _
  rw [e]
  have hnn : 0 ≤ ringSum nbins (frcRange n m corner d0 d1) d0 d1 (fun i j => ‖fftshift2 (fft2 im) i j‖ ^ 2) b := by
    rw [ringSum_eq]; exact sum_nonneg fun _ _ => sq_nonneg _
  generalize ringSum nbins (frcRange n m corner d0 d1) d0 d1 (fun i j => ‖fftshift2 (fft2 im) i j‖ ^ 2) b = A at *
  by_cases hA : A * A = 0
  · left; rw [if_pos hA]
  · right
    rw [if_neg hA, Real.sqrt_mul_self hnn, div_self]
    exact_mod_cast (mul_ne_zero_iff.1 hA).1

/-- **C50** (proportional images): if the second image is `c` times the first one, the FRC value of
every ring with spectral power is `conj(c)/|c|`: 1 for a positive factor. -/
theorem frc_proportional (nbins : ℕ) (corner : Bool) (d0 d1 : ℝ) (im : Wave n m) (b : ℕ) {c : ℂ}
    (hc : c ≠ 0) {v : ℂ} (h : frcValue nbins corner d0 d1 im (fun i j => im i j * c) b = some v) :
    v = (starRingEnd ℂ) c / (‖c‖ : ℂ) := by
  have e := frc_scaling nbins corner d0 d1 im im b one_ne_zero hc
  simp only [mul_one, one_mul, Complex.norm_conj] at e
  rw [e] at h
  rcases frc_self nbins corner d0 d1 im b with h0 | h0
  · rw [h0] at h; exact absurd h (by simp)
  · rw [h0] at h
    simp only [Option.map_some, one_mul, Option.some.injEq] at h
    exact h.symm

/-- **C50** (common shifts): rolling both images by the same vector changes no FRC value. -/
theorem frc_common_shift (nbins : ℕ) (corner : Bool) (d0 d1 : ℝ) (im1 im2 : Wave n m) (b : ℕ)
    (s : ZMod n) (t : ZMod m) :
    frcValue nbins corner d0 d1 (fun i j => im1 (i - s) (j - t)) (fun i j => im2 (i - s) (j - t)) b =
      frcValue nbins corner d0 d1 im1 im2 b := by
  have hnorm : ∀ k l, ‖(stdAddChar (-(s * k)) * stdAddChar (-(t * l)) : ℂ)‖ = 1 := by
    intro k l; rw [norm_mul, stdAddChar_norm, stdAddChar_norm, one_mul]
  have e1 : ∀ (w : Wave n m) i j, ‖fftshift2 (fft2 (fun i j => w (i - s) (j - t))) i j‖ ^ 2 =
      ‖fftshift2 (fft2 w) i j‖ ^ 2 := by
    intro w i j
    unfold fftshift2
    rw [fft2_roll, norm_mul, hnorm, one_mul]
  have e2 : ∀ i j, fftshift2 (fft2 (fun i j => im1 (i - s) (j - t))) i j *
      (starRingEnd ℂ) (fftshift2 (fft2 (fun i j => im2 (i - s) (j - t))) i j) =
      fftshift2 (fft2 im1) i j * (starRingEnd ℂ) (fftshift2 (fft2 im2) i j) := by
    intro i j
    unfold fftshift2
    rw [fft2_roll, fft2_roll, map_mul]
    have h := hnorm (i - ((n / 2 : ℕ) : ZMod n)) (j - ((m / 2 : ℕ) : ZMod m))
    generalize (stdAddChar (-(s * (i - ((n / 2 : ℕ) : ZMod n)))) *
      stdAddChar (-(t * (j - ((m / 2 : ℕ) : ZMod m)))) : ℂ) = u at *
    have hu : u * (starRingEnd ℂ) u = 1 := by rw [Complex.mul_conj', h]; simp
    linear_combination (fft2 im1 (i - ((n / 2 : ℕ) : ZMod n)) (j - ((m / 2 : ℕ) : ZMod m)) *
      (starRingEnd ℂ) (fft2 im2 (i - ((n / 2 : ℕ) : ZMod n)) (j - ((m / 2 : ℕ) : ZMod m)))) * hu
  unfold frcValue
  simp only
  rw [ringSum_congr (e1 im1), ringSum_congr (e1 im2), ringSum_congr e2]

/-- **C50** (threshold): for a positive SNR and a ring with at least one pixel, the threshold is
positive and at most one. -/
theorem frc_threshold_range {snr : ℝ} (hs : 0 < snr) {npix : ℕ} (hn : 0 < npix) :
    0 < frcThreshold snr npix ∧ frcThreshold snr npix ≤ 1 := by
  unfold frcThreshold
  simp only
  have h1 : 0 < snr / 2 := by linarith
  have h2 : 1 ≤ Real.sqrt npix := by
    rw [Real.one_le_sqrt]; exact_mod_cast hn
  have h3 : 0 < Real.sqrt npix := by linarith
  have h4 := Real.sqrt_nonneg (snr / 2)
  have h5 : 1 / Real.sqrt npix ≤ 1 := by rw [div_le_one h3]; exact h2
  generalize Real.sqrt (snr / 2) = q at *
  generalize Real.sqrt npix = r at *
  have h6 : 0 ≤ 2 * q / r := by positivity
  refine ⟨by positivity, ?_⟩
  rw [div_le_one (by positivity), add_div]
  linarith

/-- **C50** (`calc_frc`): an unknown limit or an empty set of rings raises; otherwise there is one
value per ring, in order, with the ring's lower edge and threshold. In particular the default number of
rings raises for images smaller than 8 pixels. -/
theorem calc_frc_result (nbins : Option ℕ) (limit : String) (snr d0 d1 : ℝ) (im1 im2 : Wave n m) :
    (limit ≠ "side" ∧ limit ≠ "corner" → calcFrc nbins limit snr d0 d1 im1 im2 = .error "ValueError") ∧
    (nbins = some 0 ∨ nbins = none ∧ n < 8 ∧ m < 8 →
      calcFrc nbins limit snr d0 d1 im1 im2 = .error "ValueError") ∧
    (∀ nb, (limit = "side" ∨ limit = "corner") → 0 < nb → nbins = some nb ∨ nbins = none ∧ nb = max n m / 8 →
      ∃ rows, calcFrc nbins limit snr d0 d1 im1 im2 = .ok rows ∧ rows.length = nb ∧
        ∀ b (hb : b < rows.length), rows[b].2.1 = frcValue nb (limit = "corner") d0 d1 im1 im2 b ∧
          rows[b].1 = binEdge nb (frcRange n m (limit = "corner") d0 d1) b) := by
  refine ⟨fun h => ?_, fun h => ?_, fun nb hl hnb h => ?_⟩
  · unfold calcFrc
    rw [if_neg (by tauto)]
  · unfold calcFrc
    have : nbins.getD (max n m / 8) = 0 := by
      rcases h with rfl | ⟨rfl, h1, h2⟩
      · rfl
      · simp only [Option.getD_none]; omega
    simp only [this, if_true, ite_self]
  · have : nbins.getD (max n m / 8) = nb := by
      rcases h with rfl | ⟨rfl, rfl⟩ <;> rfl
    unfold calcFrc
    simp only [this]
    rw [if_pos hl, if_neg hnb.ne']
    refine ⟨_, rfl, by simp, fun b hb => ?_⟩
    simp

/-- **C50** (edges and thresholds): ring `b` of `nb` begins at the fraction `b / nb` of the frequency range
(for a range of zero, of an interval of width one around zero), and its threshold is the half-dataset
threshold for the signal-to-noise ratio `snr` and the number of pixels in the ring. -/
theorem calc_frc_thresholds (nbins : Option ℕ) (limit : String) (snr : ℝ) {d0 d1 : ℝ} (h0 : 0 < d0)
    (h1 : 0 < d1) (im1 im2 : Wave n m) (rows : List (ℝ × Option ℂ × ℝ))
    (h : calcFrc nbins limit snr d0 d1 im1 im2 = .ok rows) (b : ℕ) (hb : b < rows.length) (N : ℕ)
    (hN : N = Nat.card {p : ZMod n × ZMod m //
      InRing rows.length (frcRange n m (limit = "corner") d0 d1) d0 d1 b p.1 p.2}) :
    (frcRange n m (limit = "corner") d0 d1 ≠ 0 →
      rows[b].1 = b / rows.length * frcRange n m (limit = "corner") d0 d1) ∧
    (frcRange n m (limit = "corner") d0 d1 = 0 → rows[b].1 = b / rows.length - 1 / 2) ∧
    rows[b].2.2 = (snr / 2 + (2 * Real.sqrt (snr / 2) + 1) / Real.sqrt N) /
      (1 + snr / 2 + 2 * Real.sqrt (snr / 2) / Real.sqrt N) := by
  classical
  unfold calcFrc at h
  simp only at h
  split at h
  swap
  · cases h
  generalize hnb : nbins.getD (max n m / 8) = nb at h
  split at h
  · cases h
  rename_i hl hn0
  have hpos : 0 < nb := Nat.pos_of_ne_zero hn0
  set top := frcRange n m (limit = "corner") d0 d1 with htop
  simp only [Except.ok.injEq] at h
  subst h
  simp only [List.length_map, List.length_range] at hN hb ⊢
  have hnr : (nb : ℝ) ≠ 0 := by exact_mod_cast hn0
  refine ⟨fun ht => ?_, fun ht => ?_, ?_⟩
  · simp only [List.getElem_map, List.getElem_range, binEdge, histEdges, if_neg (Ne.symm ht)]
    ring
  · simp only [List.getElem_map, List.getElem_range, binEdge, histEdges, if_pos ht.symm]
    field_simp
    ring
  · simp only [List.getElem_map, List.getElem_range]
    have hc : ringCount n m nb top d0 d1 b = N := by
      unfold ringCount
      rw [ringSum_eq, sum_const, smul_eq_mul, mul_one, hN, Nat.card_eq_fintype_card, Fintype.card_subtype]
      congr 1
      apply filter_congr
      intro p _
      exact (frc_rings_disjoint hpos _ h0 h1 p.1 p.2).1 b hb
    rw [hc]
    rfl

/-- Non-vacuity: a ring with power. The only pixel of a 1×1 image. -/
example : frcValue (n := 1) (m := 1) 1 true 1 1 (fun _ _ => 2) (fun _ _ => 2) 0 = some 1 := by
  rcases frc_self (n := 1) (m := 1) 1 true 1 1 (fun _ _ => 2) 0 with h | h
  · exfalso
    have hz' : ∀ i j, ringRadius (n := 1) (m := 1) 1 1 i j = 0 := by
      intro i j
      have hv : ∀ i : ZMod 1, i.val = 0 := fun i => by rw [Subsingleton.elim i 0]; rfl
      simp [ringRadius, shiftedFreq, hv, -ZMod.natCast_val]
    have hz := hz' default default
    have hrange : frcRange 1 1 true 1 1 = 0 := by
      unfold frcRange
      simp only [if_true]
      apply le_antisymm
      · apply sup'_le
        rintro ⟨i, j⟩ -
        rw [Subsingleton.elim i default, Subsingleton.elim j default, hz]
      · have := le_sup' (fun p : ZMod 1 × ZMod 1 => ringRadius (n := 1) (m := 1) 1 1 p.1 p.2)
          (mem_univ (default, default))
        rwa [hz] at this
    have hb : histBin 1 0 0 = some 0 := by
      unfold histBin histEdges
      norm_num
    have hf : fft2 (fun _ _ => 2 : Wave 1 1) = fun _ _ => 2 := by
      funext k l
      rw [fft2_eq, Fintype.sum_unique, Fintype.sum_unique]
      have : ∀ a : ZMod 1, (stdAddChar a : ℂ) = 1 := fun a => by
        rw [Subsingleton.elim a 0]; simp
      simp [this]
    unfold frcValue at h
    simp only [hf, hrange] at h
    have hr : ringSum (n := 1) (m := 1) 1 0 1 1 (fun i j => ‖fftshift2 (fun _ _ => (2 : ℂ)) i j‖ ^ 2) 0 = 4 := by
      unfold ringSum
      rw [Fintype.sum_unique, Fintype.sum_unique, hz', if_pos hb]
      simp [fftshift2]; norm_num
    rw [hr, if_neg (by norm_num)] at h
    exact absurd h (by simp)
  · exact h

end Cdtools
