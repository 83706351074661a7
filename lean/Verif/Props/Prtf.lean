/-
C69: `calc_deconvolved_cross_correlation` and `calc_consistency_prtf`.
-/
import Verif.Model.ReconSets
import Verif.Props.ImageProc
import Verif.Props.Frc

set_option linter.unusedSectionVars false

namespace Cdtools
open Finset ZMod

variable {n m : ℕ} [NeZero n] [NeZero m]

/-! ### The deconvolved cross-correlation -/

/-- **C69** (defined): the result is NaN exactly when a Fourier coefficient of one of the images vanishes. -/
theorem deconvolved_nan_iff (im1 im2 : Wave n m) :
    deconvolvedCorrelation im1 im2 = none ↔ ∃ k l, fft2 im1 k l = 0 ∨ fft2 im2 k l = 0 := by
  unfold deconvolvedCorrelation phaseCorrelation
  have e : (∃ k l, fft2 im1 k l * (starRingEnd ℂ) (fft2 im2 k l) = 0) ↔ ∃ k l, fft2 im1 k l = 0 ∨ fft2 im2 k l = 0 := by
    simp [mul_eq_zero]
  rw [← e]
  by_cases h : ∃ k l, fft2 im1 k l * (starRingEnd ℂ) (fft2 im2 k l) = 0
  · rw [if_pos h]; exact ⟨fun _ => h, fun _ => rfl⟩
  · rw [if_neg h]; exact ⟨fun h' => (nomatch h'), fun h' => absurd h' h⟩

theorem deconvolved_some {im1 im2 cor : Wave n m} (h : deconvolvedCorrelation im1 im2 = some cor) :
    (∀ k l, fft2 im1 k l * (starRingEnd ℂ) (fft2 im2 k l) ≠ 0) ∧
    ∀ k l, fft2 cor k l = fft2 im1 k l * (starRingEnd ℂ) (fft2 im2 k l) /
      (‖fft2 im1 k l * (starRingEnd ℂ) (fft2 im2 k l)‖ : ℂ) := by
  unfold deconvolvedCorrelation phaseCorrelation at h
  by_cases hz : ∃ k l, fft2 im1 k l * (starRingEnd ℂ) (fft2 im2 k l) = 0
  · rw [if_pos hz] at h; exact (nomatch h)
  · rw [if_neg hz, Option.some.injEq] at h
    refine ⟨fun k l hkl => hz ⟨k, l, hkl⟩, fun k l => ?_⟩
    rw [← h, fft2_ifft2]

/-- **C69** (total power): the squared moduli of the kernel add up to 1, whatever the images; in particular no value
exceeds 1. -/
theorem deconvolved_power {im1 im2 cor : Wave n m} (h : deconvolvedCorrelation im1 im2 = some cor) :
    ∑ i, ∑ j, ‖cor i j‖ ^ 2 = 1 ∧ ∀ i j, ‖cor i j‖ ≤ 1 := by
  obtain ⟨h0, h1⟩ := deconvolved_some h
  have hp := fft2_parseval_norm cor
  have hone : ∀ k l, ‖fft2 cor k l‖ ^ 2 = 1 := by
    intro k l
    rw [h1, norm_div, Complex.norm_real, norm_norm, div_self (norm_ne_zero_iff.2 (h0 k l)), one_pow]
  simp only [hone, sum_const, card_univ, ZMod.card, nsmul_eq_mul, mul_one] at hp
  have hpos : (0 : ℝ) < n * m := by
    have := Nat.pos_of_ne_zero (NeZero.ne n); have := Nat.pos_of_ne_zero (NeZero.ne m); positivity
  have hs : ∑ i, ∑ j, ‖cor i j‖ ^ 2 = 1 := by
    have : (n * m : ℝ) * ∑ i, ∑ j, ‖cor i j‖ ^ 2 = (n * m) * 1 := by rw [← hp, mul_one]
    exact mul_left_cancel₀ hpos.ne' this
  refine ⟨hs, fun i j => ?_⟩
  have h2 : ‖cor i j‖ ^ 2 ≤ 1 := by
    rw [← hs]
    exact (single_le_sum (f := fun j => ‖cor i j‖ ^ 2) (fun _ _ => by positivity) (mem_univ j)).trans
      (single_le_sum (f := fun i => ∑ j, ‖cor i j‖ ^ 2) (fun _ _ => sum_nonneg fun _ _ => by positivity) (mem_univ i))
  have := norm_nonneg (cor i j)
  nlinarith

/-- **C69** (alignment): for an image and its copy rolled by `(s₀, s₁)` and multiplied by a constant, the kernel is
a single peak at `(s₀, s₁)`. -/
theorem deconvolved_roll (w : Wave n m) (s0 : ZMod n) (s1 : ZMod m) (c : ℂ) (hc : c ≠ 0) (hw : ∀ k l, fft2 w k l ≠ 0) :
    deconvolvedCorrelation (fun i j => c * w (i - s0) (j - s1)) w =
      some fun i j => if i = s0 ∧ j = s1 then c / ‖c‖ else 0 :=
  phaseCorrelation_roll w s0 s1 c hc hw

/-- **C69** (symmetry): exchanging the images reflects the kernel through the origin and conjugates it. -/
theorem deconvolved_swap {im1 im2 cor : Wave n m} (h : deconvolvedCorrelation im1 im2 = some cor) :
    deconvolvedCorrelation im2 im1 = some fun i j => (starRingEnd ℂ) (cor (-i) (-j)) := by
  obtain ⟨h0, h1⟩ := deconvolved_some h
  cases h2 : deconvolvedCorrelation im2 im1 with
  | none =>
    obtain ⟨k, l, hkl⟩ := (deconvolved_nan_iff im2 im1).1 h2
    have := h0 k l
    rcases hkl with hkl | hkl <;> simp [hkl] at this
  | some cor' =>
    obtain ⟨h0', h1'⟩ := deconvolved_some h2
    congr 1
    apply fft2_inj
    intro k l
    have hconj : ∀ a : ZMod n, (starRingEnd ℂ) (stdAddChar a : ℂ) = stdAddChar (-a) := by
      intro a
      rw [AddChar.map_neg_eq_inv, stdAddChar_apply, ← Circle.coe_inv, Circle.coe_inv_eq_conj]
    have hconj' : ∀ a : ZMod m, (starRingEnd ℂ) (stdAddChar a : ℂ) = stdAddChar (-a) := by
      intro a
      rw [AddChar.map_neg_eq_inv, stdAddChar_apply, ← Circle.coe_inv, Circle.coe_inv_eq_conj]
    have hrefl : fft2 (fun i j => (starRingEnd ℂ) (cor (-i) (-j))) k l = (starRingEnd ℂ) (fft2 cor k l) := by
      rw [fft2_eq, fft2_eq, map_sum, ← Equiv.sum_comp (Equiv.neg (ZMod n))]
      refine sum_congr rfl fun i _ => ?_
      rw [map_sum, ← Equiv.sum_comp (Equiv.neg (ZMod m))]
      refine sum_congr rfl fun j _ => ?_
      simp only [Equiv.neg_apply, neg_neg, map_mul, hconj, hconj', neg_mul]
    rw [hrefl, h1, h1', map_div₀, map_mul, Complex.conj_conj, Complex.conj_ofReal]
    rw [mul_comm (fft2 im2 k l), norm_mul, norm_mul, Complex.norm_conj, Complex.norm_conj, mul_comm ‖fft2 im1 k l‖]

/-! ### The consistency PRTF -/

open Classical in
/-- The intensity of an image in the frequency ring `b`: the sum of the squared moduli of the (centred) Fourier
coefficients whose spatial frequency lies in the ring. -/
noncomputable def ringIntensity (nbins : ℕ) (d0 d1 : ℝ) (im : Wave n m) (b : ℕ) : ℝ :=
  ∑ p ∈ (univ : Finset (ZMod n × ZMod m)).filter
    (fun p => InRing nbins (frcRange n m true d0 d1) d0 d1 b p.1 p.2), ‖fftshift2 (fft2 im) p.1 p.2‖ ^ 2

theorem ringIntensity_eq {nbins : ℕ} (hn : 0 < nbins) {d0 d1 : ℝ} (h0 : 0 < d0) (h1 : 0 < d1) (im : Wave n m) {b : ℕ}
    (hb : b < nbins) : ringSum nbins (frcRange n m true d0 d1) d0 d1 (fun i j => ‖fftshift2 (fft2 im) i j‖ ^ 2) b =
      ringIntensity nbins d0 d1 im b := by
  unfold ringIntensity
  rw [ringSum_eq]
  refine sum_congr ?_ fun _ _ => rfl
  ext p
  simp only [mem_filter, mem_univ, true_and]
  exact (frc_rings_disjoint hn true h0 h1 p.1 p.2).1 b hb

theorem ringIntensity_nonneg (nbins : ℕ) (d0 d1 : ℝ) (im : Wave n m) (b : ℕ) : 0 ≤ ringIntensity nbins d0 d1 im b :=
  sum_nonneg fun _ _ => by positivity

theorem ringIntensity_scale (nbins : ℕ) (d0 d1 : ℝ) (im : Wave n m) (c : ℂ) (b : ℕ) :
    ringIntensity nbins d0 d1 (fun i j => c * im i j) b = ‖c‖ ^ 2 * ringIntensity nbins d0 d1 im b := by
  unfold ringIntensity
  rw [mul_sum]
  refine sum_congr rfl fun p _ => ?_
  have : ∀ k l, fft2 (fun i j => c * im i j) k l = c * fft2 im k l := by
    intro k l
    simp only [fft2_eq, mul_sum]
    exact sum_congr rfl fun i _ => sum_congr rfl fun j _ => by ring
  simp only [fftshift2, this, norm_mul, mul_pow]

theorem mapM_some {α β : Type} (f : α → Option β) (g : α → β) (l : List α) (h : ∀ x ∈ l, f x = some (g x)) :
    l.mapM f = some (l.map g) := by
  induction l with
  | nil => rfl
  | cons a l ih =>
    rw [List.mapM_cons, h a (by simp), ih fun x hx => h x (by simp [hx])]
    rfl

/-- **C69** (PRTF): for a non-empty list of objects and a positive number of bins, the PRTF of ring `b` is the mean,
over the objects, of the ratio between the intensities of the synthesized and of the single reconstruction in that
ring, provided none of the latter vanishes; each value comes with the lower edge of its ring. (By
`frc_rings_disjoint` and `frc_rings_cover` every frequency is in exactly one ring.) -/
theorem prtf_value (nbins : Option ℕ) {d0 d1 : ℝ} (h0 : 0 < d0) (h1 : 0 < d1) (synth : Wave n m) (objs : List (Wave n m))
    (hobjs : objs ≠ []) (hn : 0 < nbins.getD (max n m / 4)) :
    ∃ out, calcPrtf nbins d0 d1 synth objs = .ok out ∧ out.length = nbins.getD (max n m / 4) ∧
      ∀ b < nbins.getD (max n m / 4), ∃ v, out[b]? =
          some (binEdge (nbins.getD (max n m / 4)) (frcRange n m true d0 d1) b, v) ∧
        ((∀ o ∈ objs, ringIntensity (nbins.getD (max n m / 4)) d0 d1 o b ≠ 0) →
          v = some ((objs.map fun o => ringIntensity (nbins.getD (max n m / 4)) d0 d1 synth b /
            ringIntensity (nbins.getD (max n m / 4)) d0 d1 o b).sum / objs.length)) := by
  generalize hnb : nbins.getD (max n m / 4) = nb at hn ⊢
  refine ⟨_, by unfold calcPrtf; simp only [hnb]; rw [if_neg hobjs, if_neg (by omega)], by simp, fun b hb => ?_⟩
  refine ⟨(objs.mapM fun o => prtfRatio nb d0 d1 synth o b).map fun rs => rs.sum / rs.length, ?_, fun hne => ?_⟩
  · simp [hb]
  · have : (objs.mapM fun o => prtfRatio nb d0 d1 synth o b) = some (objs.map fun o =>
        ringIntensity nb d0 d1 synth b / ringIntensity nb d0 d1 o b) := by
      refine mapM_some _ _ _ fun o ho => ?_
      unfold prtfRatio
      simp only [ringIntensity_eq hn h0 h1 _ hb]
      rw [if_neg (hne o ho)]
    rw [this]
    simp

/-- **C69** (errors): no objects, or too small an image for the default number of bins. -/
theorem prtf_errors (nbins : Option ℕ) (d0 d1 : ℝ) (synth : Wave n m) (objs : List (Wave n m)) :
    calcPrtf nbins d0 d1 synth [] = .error "IndexError" ∧
    (objs ≠ [] → nbins.getD (max n m / 4) = 0 → calcPrtf nbins d0 d1 synth objs = .error "ValueError") := by
  refine ⟨by simp [calcPrtf], fun h h' => ?_⟩
  unfold calcPrtf
  rw [if_neg h, if_pos h']

/-- **C69** (perfect consistency): if every object is the synthesized one times a constant of modulus `ρ`, the PRTF is
`1 / ρ²` in every ring that has any intensity; it is 1 when they only differ by phases. -/
theorem prtf_proportional {nb : ℕ} (hn : 0 < nb) {d0 d1 : ℝ} (h0 : 0 < d0) (h1 : 0 < d1) (synth : Wave n m)
    (cs : List ℂ) (hcs : cs ≠ []) {ρ : ℝ} (hρ : 0 < ρ) (hc : ∀ c ∈ cs, ‖c‖ = ρ) (b : ℕ) (hb : b < nb)
    (hpos : ringIntensity nb d0 d1 synth b ≠ 0) :
    ∃ out, calcPrtf (some nb) d0 d1 synth (cs.map fun c => fun i j => c * synth i j) = .ok out ∧
      out[b]? = some (binEdge nb (frcRange n m true d0 d1) b, some (1 / ρ ^ 2)) := by
  obtain ⟨out, ho, -, hv⟩ := prtf_value (some nb) h0 h1 synth (cs.map fun c => fun i j => c * synth i j)
    (by simpa using hcs) hn
  obtain ⟨v, hv1, hv2⟩ := hv b hb
  refine ⟨out, ho, ?_⟩
  simp only [Option.getD_some] at hv1 hv2
  have hρ2 : ρ ^ 2 ≠ 0 := by positivity
  have hne : ∀ c ∈ cs, ringIntensity nb d0 d1 (fun i j => c * synth i j) b = ρ ^ 2 * ringIntensity nb d0 d1 synth b := by
    intro c hcm; rw [ringIntensity_scale, hc c hcm]
  have := hv2 (by
    intro o ho
    obtain ⟨c, hcm, rfl⟩ := List.mem_map.1 ho
    rw [hne c hcm]
    exact mul_ne_zero hρ2 hpos)
  rw [hv1, this]
  congr 3
  rw [List.map_map, List.length_map]
  have e : cs.map ((fun o : Wave n m => ringIntensity nb d0 d1 synth b / ringIntensity nb d0 d1 o b) ∘
      fun c => (fun i j => c * synth i j : Wave n m)) = cs.map fun _ => 1 / ρ ^ 2 := by
    refine List.map_congr_left fun c hcm => ?_
    simp only [Function.comp_apply]
    rw [hne c hcm]
    field_simp
  rw [e, List.map_const', List.sum_replicate, nsmul_eq_mul]
  have hl : (cs.length : ℝ) ≠ 0 := by
    have : cs.length ≠ 0 := by simpa using hcs
    exact_mod_cast this
  field_simp

theorem fftshift2_sum (L : List (Wave n m)) (i : ZMod n) (j : ZMod m) :
    fftshift2 (fft2 fun x y => (L.map fun o => o x y).sum) i j = (L.map fun o => fftshift2 (fft2 o) i j).sum := by
  induction L with
  | nil => simp [fftshift2, fft2_eq]
  | cons o L ih =>
    simp only [List.map_cons, List.sum_cons, ← ih]
    simp only [fftshift2, fft2_eq, ← sum_add_distrib, mul_add]

theorem list_norm_sum_sq (L : List ℂ) : ‖L.sum‖ ^ 2 ≤ L.length * (L.map fun z => ‖z‖ ^ 2).sum := by
  have h1 : ‖L.sum‖ ≤ (L.map fun z => ‖z‖).sum := by
    induction L with
    | nil => simp
    | cons a L ih => simp only [List.sum_cons, List.map_cons]; exact (norm_add_le _ _).trans (by linarith)
  have h2 : ∀ M : List ℝ, M.sum ^ 2 ≤ M.length * (M.map fun z => z ^ 2).sum := by
    intro M
    have := sum_mul_sq_le_sq_mul_sq (univ : Finset (Fin M.length)) (fun _ => (1 : ℝ)) fun i => M.get i
    simp only [one_mul, one_pow, sum_const, card_univ, Fintype.card_fin, nsmul_eq_mul, mul_one] at this
    have e1 : ∑ i : Fin M.length, M.get i = M.sum := by
      rw [← List.sum_ofFn, List.ofFn_get]
    have e2 : ∑ i : Fin M.length, M.get i ^ 2 = (M.map fun z => z ^ 2).sum := by
      rw [← List.sum_ofFn]
      congr 1
      conv_rhs => rw [← List.ofFn_get M]
      rw [List.map_ofFn]
      rfl
    rw [e1, e2] at this
    exact this
  have h3 := h2 (L.map fun z => ‖z‖)
  rw [List.length_map, List.map_map] at h3
  refine (pow_le_pow_left₀ (norm_nonneg _) h1 2).trans ?_
  exact h3

/-- **C69** (bound, what holds): when the synthesized object is the mean of the objects and the objects have equal,
non-vanishing intensities in a ring, the PRTF of that ring is between 0 and 1. Missing: objects of different
intensities (`prtf_bound_violated`). -/
theorem prtf_bound_partial {nb : ℕ} (hn : 0 < nb) {d0 d1 : ℝ} (h0 : 0 < d0) (h1 : 0 < d1) (objs : List (Wave n m))
    (hobjs : objs ≠ []) (b : ℕ) (hb : b < nb) {I : ℝ} (hI : 0 < I) (heq : ∀ o ∈ objs, ringIntensity nb d0 d1 o b = I) :
    ∃ out v e, calcPrtf (some nb) d0 d1 (fun i j => (objs.map fun o => o i j).sum / objs.length) objs = .ok out ∧
      out[b]? = some (e, some v) ∧ 0 ≤ v ∧ v ≤ 1 := by
  set synth : Wave n m := fun i j => (objs.map fun o => o i j).sum / objs.length with hsynth
  obtain ⟨out, ho, -, hv⟩ := prtf_value (some nb) h0 h1 synth objs hobjs hn
  obtain ⟨v, hv1, hv2⟩ := hv b hb
  simp only [Option.getD_some] at hv1 hv2
  have hv3 := hv2 fun o hom => by rw [heq o hom]; exact hI.ne'
  have hl : (0 : ℝ) < objs.length := by
    have : 0 < objs.length := List.length_pos_iff.2 hobjs
    exact_mod_cast this
  have e : (objs.map fun o => ringIntensity nb d0 d1 synth b / ringIntensity nb d0 d1 o b) =
      objs.map fun _ => ringIntensity nb d0 d1 synth b / I :=
    List.map_congr_left fun o hom => by rw [heq o hom]
  rw [e, List.map_const', List.sum_replicate, nsmul_eq_mul, mul_div_cancel_left₀ _ hl.ne'] at hv3
  refine ⟨out, _, _, ho, by rw [hv1, hv3], div_nonneg (ringIntensity_nonneg _ _ _ _ _) hI.le, ?_⟩
  rw [div_le_one hI]
  -- |mean|² ≤ mean of |·|², summed over the ring
  have hpt : ∀ p : ZMod n × ZMod m, ‖fftshift2 (fft2 synth) p.1 p.2‖ ^ 2 ≤
      (objs.map fun o => ‖fftshift2 (fft2 o) p.1 p.2‖ ^ 2).sum / objs.length := by
    intro p
    have hs : fftshift2 (fft2 synth) p.1 p.2 = (objs.map fun o => fftshift2 (fft2 o) p.1 p.2).sum / objs.length := by
      rw [← fftshift2_sum]
      simp only [hsynth, fftshift2, fft2_eq, sum_div]
      exact sum_congr rfl fun i _ => sum_congr rfl fun j _ => by rw [mul_div_assoc]
    rw [hs, norm_div, div_pow, Complex.norm_natCast]
    have := list_norm_sum_sq (objs.map fun o => fftshift2 (fft2 o) p.1 p.2)
    rw [List.length_map, List.map_map] at this
    rw [div_le_div_iff₀ (by positivity) hl]
    have h2 : ((fun z : ℂ => ‖z‖ ^ 2) ∘ fun o : Wave n m => fftshift2 (fft2 o) p.1 p.2) =
      fun o => ‖fftshift2 (fft2 o) p.1 p.2‖ ^ 2 := rfl
    rw [h2] at this
    nlinarith
  have hsum : ringIntensity nb d0 d1 synth b ≤ (objs.map fun o => ringIntensity nb d0 d1 o b).sum / objs.length := by
    have hswap : ∀ (F : Finset (ZMod n × ZMod m)) (L : List (Wave n m)),
        ∑ p ∈ F, (L.map fun o => ‖fftshift2 (fft2 o) p.1 p.2‖ ^ 2).sum =
          (L.map fun o => ∑ p ∈ F, ‖fftshift2 (fft2 o) p.1 p.2‖ ^ 2).sum := by
      intro F L
      induction L with
      | nil => simp
      | cons o L ih => simp only [List.map_cons, List.sum_cons, sum_add_distrib, ih]
    unfold ringIntensity
    refine (sum_le_sum fun p _ => hpt p).trans (le_of_eq ?_)
    rw [← sum_div, hswap]
  refine hsum.trans (le_of_eq ?_)
  have e2 : (objs.map fun o => ringIntensity nb d0 d1 o b) = objs.map fun _ => I :=
    List.map_congr_left heq
  rw [e2, List.map_const', List.sum_replicate, nsmul_eq_mul, mul_div_cancel_left₀ _ hl.ne']

theorem ringIntensity_pixel (w : Wave 1 1) : ringIntensity 1 1 1 w 0 = ‖w 0 0‖ ^ 2 := by
  have hr : ∀ i j : ZMod 1, ringRadius (1 : ℝ) 1 i j = 0 := by
    intro i j
    have hi : i = 0 := Subsingleton.elim _ _
    have hj : j = 0 := Subsingleton.elim _ _
    subst hi hj
    simp [ringRadius, shiftedFreq]
  have ht : frcRange 1 1 true (1 : ℝ) 1 = 0 := by
    unfold frcRange
    simp [hr]
  have hin : ∀ p : ZMod 1 × ZMod 1, InRing 1 (frcRange 1 1 true (1 : ℝ) 1) 1 1 0 p.1 p.2 := by
    intro p
    unfold InRing
    rw [hr, ht]
    simp [binEdge, histEdges]
    norm_num
  unfold ringIntensity
  simp only [hin, filter_true]
  rw [Fintype.sum_eq_single ((0 : ZMod 1), (0 : ZMod 1)) (fun p hp => absurd (Subsingleton.elim _ _) hp)]
  congr 2
  rw [fftshift2, fft2_eq, Fintype.sum_eq_single 0 (fun i hi => absurd (Subsingleton.elim _ _) hi),
    Fintype.sum_eq_single 0 (fun i hi => absurd (Subsingleton.elim _ _) hi)]
  simp

/-- **C69, limits**: the consistency PRTF is not bounded by 1. Two reconstructions of one pixel with the values 1 and 3,
synthesized to their mean, have the PRTF `(4/1 + 4/9) / 2 > 2`. -/
theorem prtf_bound_violated :
    ∃ out e v, calcPrtf (some 1) 1 1 (fun _ _ => ((1 : ℂ) + 3) / 2 : Wave 1 1) [fun _ _ => 1, fun _ _ => 3] = .ok out ∧
      out[0]? = some (e, some v) ∧ 2 < v := by
  obtain ⟨out, ho, -, hv⟩ := prtf_value (some 1) one_pos one_pos (fun _ _ => ((1 : ℂ) + 3) / 2 : Wave 1 1)
    [fun _ _ => 1, fun _ _ => 3] (by simp) (by simp)
  obtain ⟨v, hv1, hv2⟩ := hv 0 (by simp)
  simp only [Option.getD_some, ringIntensity_pixel] at hv1 hv2
  have := hv2 (by intro o ho; simp at ho; rcases ho with rfl | rfl <;> simp)
  refine ⟨out, _, _, ho, by rw [hv1, this], ?_⟩
  norm_num

/-- Non-vacuity of `prtf_bound_partial` and `prtf_proportional`: one-pixel images 1 and -1. -/
example : ∀ o ∈ ([fun _ _ => 1, fun _ _ => -1] : List (Wave 1 1)), ringIntensity 1 1 1 o 0 = 1 := by
  intro o ho
  simp at ho
  rcases ho with rfl | rfl <;> simp [ringIntensity_pixel]

end Cdtools
