/-
C70: `calc_generalized_frc`, and the SSNR that `standardize_reconstruction_set` / `_pair` derive from the FRC.
-/
import Verif.Model.ReconSets
import Verif.Props.Frc
import Verif.Props.Fidelity
import Mathlib.Topology.Algebra.Order.Field
import Mathlib.Analysis.SpecialFunctions.Sqrt

set_option linter.unusedSectionVars false

namespace Cdtools
open Finset ZMod Matrix

variable {n m k l : ℕ} [NeZero n] [NeZero m]

/-! ### Lemmas -/

/-- The fidelity of a stack with itself is the square of its power. -/
theorem fidelity_self (la : LinAlg) {x : ℕ} (hx : 0 < x) (F : Matrix (Fin k) (Fin x) ℂ) :
    Real.sqrt (calcFidelity la F F) = totalPower F := by
  have h1 := (generalized_rms_zero_iff la hx F F).2 rfl
  have h2 := generalized_rms_nonneg la false F F
  unfold generalizedRms at h1
  rw [Real.sqrt_eq_zero h2, generalizedRmsSq_eq, div_eq_zero_iff] at h1
  rcases h1 with h1 | h1
  · linarith
  · exact absurd h1 (by exact_mod_cast hx.ne')

theorem pixels_pos : 0 < n * m := Nat.mul_pos (NeZero.pos n) (NeZero.pos m)

theorem genFrcValue_eq (la : LinAlg) (nbins : ℕ) (corner : Bool) (d0 d1 : ℝ) (F1 : Fin k → Wave n m)
    (F2 : Fin l → Wave n m) (b : ℕ) :
    let M1 := maskedSpectrum nbins (frcRange n m corner d0 d1) d0 d1 F1 b
    let M2 := maskedSpectrum nbins (frcRange n m corner d0 d1) d0 d1 F2 b
    genFrcValue la nbins corner d0 d1 F1 F2 b = if totalPower M1 * totalPower M2 = 0 then none
      else some (Real.sqrt (calcFidelity la M1 M2) / Real.sqrt (totalPower M1 * totalPower M2)) := by
  intro M1 M2
  unfold genFrcValue
  simp only
  rw [fidelity_self la pixels_pos, fidelity_self la pixels_pos]
  have hnn : 0 ≤ totalPower M1 * totalPower M2 := mul_nonneg (totalPower_nonneg _) (totalPower_nonneg _)
  by_cases h : totalPower M1 * totalPower M2 = 0
  · rw [if_pos h, if_pos (by rw [show totalPower (maskedSpectrum nbins (frcRange n m corner d0 d1) d0 d1 F1 b) *
      totalPower (maskedSpectrum nbins (frcRange n m corner d0 d1) d0 d1 F2 b) = 0 from h, Real.sqrt_zero])]
  · rw [if_neg h, if_neg (by rwa [Real.sqrt_eq_zero hnn])]

/-! ### C70: range, mixing, equal stacks -/

/-- **C70** (range): every value of the generalized FRC lies between 0 and 1. -/
theorem gen_frc_range (la : LinAlg) {nbins : ℕ} {corner : Bool} {d0 d1 : ℝ} {F1 : Fin k → Wave n m}
    {F2 : Fin l → Wave n m} {b : ℕ} {v : ℝ} (h : genFrcValue la nbins corner d0 d1 F1 F2 b = some v) :
    0 ≤ v ∧ v ≤ 1 := by
  rw [genFrcValue_eq] at h
  split at h
  · exact (nomatch h)
  · rename_i hne
    obtain rfl := Option.some.inj h
    refine ⟨by positivity, ?_⟩
    have hpos := lt_of_le_of_ne (mul_nonneg (totalPower_nonneg _) (totalPower_nonneg _)) (Ne.symm hne)
    rw [div_le_one (Real.sqrt_pos.2 hpos)]
    exact Real.sqrt_le_sqrt (fidelity_range la _ _).2

/-- **C70** (equal stacks): the generalized FRC of a stack with itself is 1 on every ring with spectral power. -/
theorem gen_frc_self (la : LinAlg) (nbins : ℕ) (corner : Bool) (d0 d1 : ℝ) (F : Fin k → Wave n m) (b : ℕ) :
    genFrcValue la nbins corner d0 d1 F F b = none ∨ genFrcValue la nbins corner d0 d1 F F b = some 1 := by
  rw [genFrcValue_eq]
  split
  · exact Or.inl rfl
  · rename_i hne
    right
    rw [fidelity_self la pixels_pos, Real.sqrt_mul_self (totalPower_nonneg _), div_self (mul_ne_zero_iff.1 hne).1]

theorem maskedSpectrum_mix {k' : ℕ} (W : Matrix (Fin k') (Fin k) ℂ) (nbins : ℕ) (top d0 d1 : ℝ) (F : Fin k → Wave n m)
    (b : ℕ) : maskedSpectrum nbins top d0 d1 (fun a => fun i j => ∑ c, W a c * F c i j) b =
      W * maskedSpectrum nbins top d0 d1 F b := by
  ext a x
  rw [mul_apply]
  simp only [maskedSpectrum, flatten2, of_apply, fftshift2]
  have : ∀ u v, fft2 (fun i j => ∑ c, W a c * F c i j) u v = ∑ c, W a c * fft2 (F c) u v := by
    intro u v
    simp only [fft2_eq, mul_sum]
    have e : ∀ i : ZMod n, (∑ j : ZMod m, ∑ c : Fin k, (stdAddChar (-(i * u)) * stdAddChar (-(j * v)) : ℂ) *
        (W a c * F c i j)) = ∑ c : Fin k, ∑ j : ZMod m, (stdAddChar (-(i * u)) * stdAddChar (-(j * v)) : ℂ) *
        (W a c * F c i j) := fun i => sum_comm
    simp only [e]
    rw [sum_comm]
    exact sum_congr rfl fun c _ => sum_congr rfl fun i _ => sum_congr rfl fun j _ => by ring
  rw [this, sum_mul]
  exact sum_congr rfl fun c _ => by ring

theorem totalPower_mix {k' x : ℕ} (W : Matrix (Fin k') (Fin k) ℂ) (hW : Wᴴ * W = 1) (F : Matrix (Fin k) (Fin x) ℂ) :
    totalPower (W * F) = totalPower F := by
  have : (totalPower (W * F) : ℂ) = totalPower F := by
    rw [totalPower_trace, totalPower_trace, conjTranspose_mul, Matrix.mul_assoc, ← Matrix.mul_assoc Wᴴ, hW,
      Matrix.one_mul]
  exact_mod_cast this

/-- **C70** (incoherent modes): mixing the modes of either stack by a matrix with orthonormal columns (a unitary, or the
addition of zero modes), which describes the same partially coherent field, does not change the generalized FRC; nor
does the implementation of the SVD. -/
theorem gen_frc_mode_mixing (la la' : LinAlg) {k' l' : ℕ} (W1 : Matrix (Fin k') (Fin k) ℂ) (h1 : W1ᴴ * W1 = 1)
    (W2 : Matrix (Fin l') (Fin l) ℂ) (h2 : W2ᴴ * W2 = 1) (nbins : ℕ) (corner : Bool) (d0 d1 : ℝ)
    (F1 : Fin k → Wave n m) (F2 : Fin l → Wave n m) (b : ℕ) :
    genFrcValue la' nbins corner d0 d1 (fun a => fun i j => ∑ c, W1 a c * F1 c i j)
      (fun a => fun i j => ∑ c, W2 a c * F2 c i j) b = genFrcValue la nbins corner d0 d1 F1 F2 b := by
  rw [genFrcValue_eq, genFrcValue_eq]
  simp only [maskedSpectrum_mix]
  rw [totalPower_mix _ h1, totalPower_mix _ h2, fidelity_invariant la' la (densityMatrix_mix W1 h1 _)
    (densityMatrix_mix W2 h2 _)]

/-! ### C70: agreement with calc_frc -/

theorem sum_flat {α : Type} [AddCommMonoid α] (f : ZMod n → ZMod m → α) :
    ∑ x : Fin (n * m), f ((flat n m).symm x).1 ((flat n m).symm x).2 = ∑ i, ∑ j, f i j := by
  rw [← sum_product', univ_product_univ, ← Equiv.sum_comp (flat n m).symm]

/-- The ring mask and the histogram agree away from the outermost edge. -/
theorem genMask_eq {nbins : ℕ} (hn : 0 < nbins) (corner : Bool) {d0 d1 : ℝ} (h0 : 0 < d0) (h1 : 0 < d1) {b : ℕ}
    (hb : b < nbins) (i : ZMod n) (j : ZMod m)
    (hout : b + 1 < nbins ∨ ringRadius d0 d1 i j ≠ binEdge nbins (frcRange n m corner d0 d1) nbins) :
    genMask nbins (frcRange n m corner d0 d1) d0 d1 b i j =
      if histBin nbins (frcRange n m corner d0 d1) (ringRadius d0 d1 i j) = some b then 1 else 0 := by
  have hiff := (frc_rings_disjoint (n := n) (m := m) hn corner h0 h1 i j).1 b hb
  unfold genMask
  by_cases h : InRing nbins (frcRange n m corner d0 d1) d0 d1 b i j
  · rw [if_pos (hiff.2 h), if_pos]
    rcases h.2 with h2 | ⟨h2, h3⟩
    · exact ⟨h2, h.1⟩
    · rcases hout with ho | ho
      · omega
      · exact absurd h3 ho
  · rw [if_neg fun hh => h (hiff.1 hh), if_neg]
    rintro ⟨h2, h3⟩
    exact h ⟨h3, Or.inl h2⟩

/-- **C70** (one mode each, what holds): for single modes the generalized FRC is the modulus of the ordinary FRC, on
every ring but the last, and on the last ring too if no frequency lies exactly on its outer edge. Missing: the
outermost frequencies (`gen_frc_last_ring_violated`). -/
theorem gen_frc_single_partial (la : LinAlg) {nbins : ℕ} (hn : 0 < nbins) (corner : Bool) {d0 d1 : ℝ} (h0 : 0 < d0)
    (h1 : 0 < d1) (im1 im2 : Wave n m) {b : ℕ} (hb : b < nbins)
    (hout : b + 1 < nbins ∨ ∀ (i : ZMod n) (j : ZMod m),
      ringRadius d0 d1 i j ≠ binEdge nbins (frcRange n m corner d0 d1) nbins) :
    genFrcValue la nbins corner d0 d1 (fun _ : Fin 1 => im1) (fun _ : Fin 1 => im2) b =
      (frcValue nbins corner d0 d1 im1 im2 b).map fun z => ‖z‖ := by
  set top := frcRange n m corner d0 d1 with htop
  have hmask : ∀ i j, genMask nbins top d0 d1 b i j =
      if histBin nbins top (ringRadius d0 d1 i j) = some b then 1 else 0 := fun i j =>
    genMask_eq hn corner h0 h1 hb i j (hout.imp id fun h => h i j)
  let vec : Wave n m → Fin (n * m) → ℂ := fun im x =>
    fftshift2 (fft2 im) ((flat n m).symm x).1 ((flat n m).symm x).2 *
      genMask nbins top d0 d1 b ((flat n m).symm x).1 ((flat n m).symm x).2
  have hM : ∀ im : Wave n m, maskedSpectrum nbins top d0 d1 (fun _ : Fin 1 => im) b = single (vec im) := fun im => rfl
  have hpow : ∀ im : Wave n m, totalPower (single (vec im)) =
      ringSum nbins top d0 d1 (fun i j => ‖fftshift2 (fft2 im) i j‖ ^ 2) b := by
    intro im
    unfold totalPower ringSum
    simp only [univ_unique, sum_singleton, single, of_apply, vec]
    rw [sum_flat fun i j => ‖fftshift2 (fft2 im) i j * genMask nbins top d0 d1 b i j‖ ^ 2]
    refine sum_congr rfl fun i _ => sum_congr rfl fun j _ => ?_
    rw [hmask]
    split <;> simp
  have hov : ∑ x, vec im1 x * (starRingEnd ℂ) (vec im2 x) = ringSum nbins top d0 d1
      (fun i j => fftshift2 (fft2 im1) i j * (starRingEnd ℂ) (fftshift2 (fft2 im2) i j)) b := by
    unfold ringSum
    simp only [vec]
    rw [sum_flat fun i j => fftshift2 (fft2 im1) i j * genMask nbins top d0 d1 b i j *
      (starRingEnd ℂ) (fftshift2 (fft2 im2) i j * genMask nbins top d0 d1 b i j)]
    refine sum_congr rfl fun i _ => sum_congr rfl fun j _ => ?_
    rw [hmask]
    split <;> simp
  rw [genFrcValue_eq]
  simp only [← htop, hM]
  rw [hpow, hpow, fidelity_single, hov, Real.sqrt_sq (norm_nonneg _)]
  unfold frcValue
  simp only [← htop]
  split
  · rfl
  · simp only [Option.map_some, norm_div, Complex.norm_real, Real.norm_eq_abs, abs_of_nonneg (Real.sqrt_nonneg _)]

theorem binEdge_mono {nbins : ℕ} {top : ℝ} (ht : 0 ≤ top) {b c : ℕ} (h : b ≤ c) :
    binEdge nbins top b ≤ binEdge nbins top c := by
  unfold binEdge
  have := histEdges_lt ht
  have hbc : (b : ℝ) ≤ c := by exact_mod_cast h
  simp only
  have h2 : 0 ≤ (histEdges top).2 - (histEdges top).1 := by linarith
  gcongr

/-- **C70 is violated** at the outer edge: the corner frequency (which always exists) is counted in the last ring of
the pixel counts, hence in the threshold, and in `calc_frc`, but no ring of the generalized FRC uses it. -/
theorem gen_frc_last_ring_violated {nbins : ℕ} (hn : 0 < nbins) {d0 d1 : ℝ} (h0 : 0 < d0) (h1 : 0 < d1)
    (hpos : 0 < frcRange n m true d0 d1) :
    ∃ (i : ZMod n) (j : ZMod m), histBin nbins (frcRange n m true d0 d1) (ringRadius d0 d1 i j) = some (nbins - 1) ∧
      ∀ b < nbins, genMask nbins (frcRange n m true d0 d1) d0 d1 b i j = 0 := by
  have hnr : (nbins : ℝ) ≠ 0 := by exact_mod_cast hn.ne'
  have hedge : binEdge nbins (frcRange n m true d0 d1) nbins = frcRange n m true d0 d1 := by
    unfold binEdge histEdges
    rw [if_neg hpos.ne]
    field_simp
    ring
  obtain ⟨p, -, hp⟩ := exists_mem_eq_sup' (univ_nonempty (α := ZMod n × ZMod m))
    (fun p : ZMod n × ZMod m => ringRadius d0 d1 p.1 p.2)
  have hr : ringRadius d0 d1 p.1 p.2 = frcRange n m true d0 d1 := by
    unfold frcRange
    rw [if_pos rfl, hp]
  refine ⟨p.1, p.2, ?_, fun b hb => ?_⟩
  · rw [histBin_iff hn (frcRange_nonneg true h0 h1) _ _ (by omega)]
    refine ⟨?_, Or.inr ⟨by omega, by rw [hr, hedge]⟩⟩
    rw [hr]
    conv_rhs => rw [← hedge]
    exact binEdge_mono (frcRange_nonneg true h0 h1) (by omega)
  · unfold genMask
    rw [if_neg]
    rintro ⟨h, -⟩
    have := binEdge_mono (nbins := nbins) (frcRange_nonneg (n := n) (m := m) true h0 h1) (show b + 1 ≤ nbins by omega)
    rw [hedge] at this
    rw [hr] at h
    linarith

/-- Non-vacuity: the range is positive for an image of 2 × 1 pixels. -/
example : 0 < frcRange 2 1 true 1 1 := by
  have h : ringRadius (n := 2) (m := 1) 1 1 0 0 = 1 / 2 := by
    unfold ringRadius shiftedFreq
    have e : ((((0 : ZMod 2).val : ℝ) - (2 / 2 : ℕ)) / ((2 : ℕ) * 1)) ^ 2 + ((((0 : ZMod 1).val : ℝ) - (1 / 2 : ℕ)) / ((1 : ℕ) * 1)) ^ 2 =
        (1 / 2) ^ 2 := by
      simp; norm_num
    rw [e, Real.sqrt_sq (by norm_num)]
  unfold frcRange
  rw [if_pos rfl]
  have := le_sup' (fun p : ZMod 2 × ZMod 1 => ringRadius (n := 2) (m := 1) 1 1 p.1 p.2) (mem_univ (0, 0))
  rw [h] at this
  linarith

/-! ### C70: the call, the thresholds -/

/-- **C70** (the call): without `nbins` the function always raises; so do zero bins and an unknown limit; otherwise
there is one value per ring. -/
theorem gen_frc_result (la : LinAlg) (nbins : Option ℕ) (limit : String) (snr d0 d1 : ℝ) (F1 : Fin k → Wave n m)
    (F2 : Fin l → Wave n m) :
    (nbins = none → calcGeneralizedFrc la nbins limit snr d0 d1 F1 F2 = .error "TypeError") ∧
    (nbins = some 0 → calcGeneralizedFrc la nbins limit snr d0 d1 F1 F2 = .error "ValueError") ∧
    (nbins.isSome → limit ≠ "side" → limit ≠ "corner" →
      calcGeneralizedFrc la nbins limit snr d0 d1 F1 F2 = .error "ValueError") ∧
    ∀ nb, 0 < nb → nbins = some nb → limit = "side" ∨ limit = "corner" →
      ∃ rows, calcGeneralizedFrc la nbins limit snr d0 d1 F1 F2 = .ok rows ∧ rows.length = nb ∧
        ∀ b (hb : b < rows.length), rows[b].1 = binEdge nb (frcRange n m (limit = "corner") d0 d1) b ∧
          rows[b].2.1 = genFrcValue la nb (limit = "corner") d0 d1 F1 F2 b := by
  refine ⟨?_, ?_, ?_, ?_⟩
  · rintro rfl; rfl
  · rintro rfl
    simp only [calcGeneralizedFrc, if_true, ite_self]
  · intro hs h1 h2
    obtain ⟨nb, rfl⟩ := Option.isSome_iff_exists.1 hs
    simp only [calcGeneralizedFrc]
    rw [if_neg (by tauto)]
  · rintro nb hnb rfl hl
    simp only [calcGeneralizedFrc]
    rw [if_pos hl, if_neg hnb.ne']
    refine ⟨_, rfl, by simp, fun b hb => ?_⟩
    simp

/-- **C70** (edges and thresholds): ring `b` of `nb` begins at the fraction `b / nb` of the frequency range (if that is not
zero), and its threshold depends on the given SNR and the number of pixels between the edges of the ring by the formula
shown. -/
theorem gen_frc_thresholds (la : LinAlg) (nbins : Option ℕ) (limit : String) (snr : ℝ) {d0 d1 : ℝ} (h0 : 0 < d0)
    (h1 : 0 < d1) (F1 : Fin k → Wave n m) (F2 : Fin l → Wave n m) (rows : List (ℝ × Option ℝ × ℝ))
    (h : calcGeneralizedFrc la nbins limit snr d0 d1 F1 F2 = .ok rows) (b : ℕ) (hb : b < rows.length) (N : ℕ)
    (hN : N = Nat.card {p : ZMod n × ZMod m //
      InRing rows.length (frcRange n m (limit = "corner") d0 d1) d0 d1 b p.1 p.2}) :
    (frcRange n m (limit = "corner") d0 d1 ≠ 0 →
      rows[b].1 = b / rows.length * frcRange n m (limit = "corner") d0 d1) ∧
    rows[b].2.2 = (snr / 2 + (2 * (snr / 2) + 1) / Real.sqrt N) /
      (1 + snr / 2 + 2 * Real.sqrt (snr / 2) / Real.sqrt N) := by
  classical
  cases nbins with
  | none => cases h
  | some nb =>
    simp only [calcGeneralizedFrc] at h
    split at h
    swap
    · cases h
    split at h
    · cases h
    rename_i hl hn0
    have hpos : 0 < nb := Nat.pos_of_ne_zero hn0
    simp only [Except.ok.injEq] at h
    subst h
    simp only [List.length_map, List.length_range] at hN hb ⊢
    refine ⟨fun ht => ?_, ?_⟩
    · simp only [List.getElem_map, List.getElem_range, binEdge, histEdges, if_neg (Ne.symm ht)]
      ring
    · simp only [List.getElem_map, List.getElem_range]
      have hc : ringCount n m nb (frcRange n m (limit = "corner") d0 d1) d0 d1 b = N := by
        unfold ringCount
        rw [ringSum_eq, sum_const, smul_eq_mul, mul_one, hN, Nat.card_eq_fintype_card, Fintype.card_subtype]
        congr 1
        apply filter_congr
        intro p _
        exact (frc_rings_disjoint hpos _ h0 h1 p.1 p.2).1 b hb
      rw [hc]
      rfl

/-- **C70, documentation**: the comment in the code says that this function matches the choices of the non-generalized
version; its threshold does not. For the default SNR of 1 the two thresholds differ on every non-empty ring. -/
theorem gen_frc_threshold_violated {npix : ℕ} (hn : 0 < npix) : genThreshold 1 npix ≠ frcThreshold 1 npix := by
  unfold genThreshold frcThreshold
  simp only
  have h1 : 0 < Real.sqrt (npix : ℝ) := Real.sqrt_pos.2 (by exact_mod_cast hn)
  have h2 : 0 ≤ Real.sqrt (1 / 2 : ℝ) := Real.sqrt_nonneg _
  have h3 : Real.sqrt (1 / 2 : ℝ) ^ 2 = 1 / 2 := Real.sq_sqrt (by norm_num)
  generalize Real.sqrt (npix : ℝ) = r at *
  generalize Real.sqrt (1 / 2 : ℝ) = q at *
  intro h
  have hd : (1 + 1 / 2 + 2 * q / r : ℝ) ≠ 0 := by positivity
  rw [div_left_inj' hd] at h
  have h4 : (2 * (1 / 2) + 1) / r = (2 * q + 1) / r := by linarith
  rw [div_left_inj' h1.ne'] at h4
  have : q = 1 / 2 := by linarith
  rw [this] at h3
  norm_num at h3

/-! ### The spectral signal-to-noise ratio -/

/-- **C70** (threshold and SSNR): as the number of pixels of a ring grows, the FRC threshold for a combined SNR `snr`
tends to `(snr/2) / (1 + snr/2)`; -/
theorem frc_threshold_limit (snr : ℝ) (hs : 0 ≤ snr) :
    Filter.Tendsto (frcThreshold snr) Filter.atTop (nhds (snr / 2 / (1 + snr / 2))) := by
  unfold frcThreshold
  have hsq : Filter.Tendsto (fun k : ℕ => Real.sqrt (k : ℝ)) Filter.atTop Filter.atTop :=
    Real.tendsto_sqrt_atTop.comp tendsto_natCast_atTop_atTop
  have hz : ∀ c : ℝ, Filter.Tendsto (fun k : ℕ => c / Real.sqrt (k : ℝ)) Filter.atTop (nhds 0) :=
    fun c => Filter.Tendsto.const_div_atTop hsq c
  have h1 := (tendsto_const_nhds (x := snr / 2)).add (hz (2 * Real.sqrt (snr / 2) + 1))
  have h2 := (tendsto_const_nhds (x := 1 + snr / 2)).add (hz (2 * Real.sqrt (snr / 2)))
  have := h1.div h2 (by positivity)
  simp only [add_zero] at this
  exact this

/-- … and that is the FRC value for which `standardize_reconstruction_set` reports the SSNR `snr`, and
`standardize_reconstruction_pair` half of it. Both are non-negative, and undefined (division by zero) only for a
perfect correlation. -/
theorem ssnr_matches_threshold {v : ℂ} (hv : ‖v‖ < 1) (snr : ℝ) (hs : 0 ≤ snr) :
    (ssnrSet v = some snr ↔ ‖v‖ = snr / 2 / (1 + snr / 2)) ∧
    (ssnrPair v = some (snr / 2) ↔ ‖v‖ = snr / 2 / (1 + snr / 2)) ∧
    ∃ s, ssnrSet v = some s ∧ ssnrPair v = some (s / 2) ∧ 0 ≤ s := by
  have h0 := norm_nonneg v
  have h1 : 1 - ‖v‖ ≠ 0 := by linarith
  have h2 : (1 + snr / 2 : ℝ) ≠ 0 := by positivity
  unfold ssnrSet ssnrPair
  rw [if_neg h1, if_neg h1, Option.some.injEq, Option.some.injEq, div_eq_iff h1, div_eq_iff h1, eq_div_iff h2]
  refine ⟨⟨fun h => by linarith, fun h => by linarith⟩, ⟨fun h => by linarith, fun h => by linarith⟩, _, rfl, ?_, ?_⟩
  · congr 1; ring
  · have : 0 < 1 - ‖v‖ := by linarith
    positivity

end Cdtools
