/-
C99: the guess of `RPI_spectral_init`.
-/
import Verif.Model.SpectralGuess
import Verif.Props.SpectralInit

set_option linter.unusedSectionVars false

namespace Cdtools
open Finset ZMod

variable {n m : ℕ} [NeZero n] [NeZero m] {a b : ℕ} [NeZero a] [NeZero b]

/-! ### Specification: what an eigensolver returns -/

/-- `z` is an eigenvector with eigenvalue `e` of the operator. -/
def SpecEigen (probe : Wave n m) (P : RealIm n m) (e : ℂ) (z : Wave a b) : Prop := z ≠ 0 ∧ ∀ i j, specOp probe P z i j = e * z i j

theorem inner2_self (z : Wave n m) : inner2 z z = ((∑ i, ∑ j, ‖z i j‖ ^ 2 : ℝ) : ℂ) := by
  unfold inner2
  push_cast
  refine sum_congr rfl fun i _ => sum_congr rfl fun j _ => ?_
  rw [Complex.mul_conj, Complex.normSq_eq_norm_sq]
  push_cast
  rfl

theorem inner2_self_pos (z : Wave n m) (hz : z ≠ 0) : 0 < ∑ i, ∑ j, ‖z i j‖ ^ 2 := by
  by_contra h
  have h0 : ∑ i, ∑ j, ‖z i j‖ ^ 2 = 0 := le_antisymm (not_lt.1 h) (by positivity)
  apply hz
  funext i j
  have h1 := (sum_eq_zero_iff_of_nonneg (fun i _ => sum_nonneg fun j _ => sq_nonneg ‖z i j‖)).1 h0 i (mem_univ i)
  have h2 := (sum_eq_zero_iff_of_nonneg (fun j _ => sq_nonneg ‖z i j‖)).1 h1 j (mem_univ j)
  simpa using h2

theorem inner2_smul_right (e : ℂ) (v w u : Wave n m) (h : ∀ i j, u i j = e * w i j) : inner2 v u = (starRingEnd ℂ) e * inner2 v w := by
  unfold inner2
  rw [mul_sum]
  refine sum_congr rfl fun i _ => ?_
  rw [mul_sum]
  refine sum_congr rfl fun j _ => ?_
  rw [h, map_mul]
  ring

theorem inner2_conj (v w : Wave n m) : (starRingEnd ℂ) (inner2 v w) = inner2 w v := by
  unfold inner2
  simp only [map_sum, map_mul, Complex.conj_conj]
  exact sum_congr rfl fun i _ => sum_congr rfl fun j _ => mul_comm _ _

/-- The operator is the one of a weighted intensity: `⟨x, Op z⟩ = Σ (A†x) conj(A†z) P / |vec|`. -/
theorem specOp_inner (ha : a ≤ n) (hb : b ≤ m) (probe : Wave n m) (P : RealIm n m) (x z : Wave a b) :
    inner2 x (specOp probe P z) =
      ∑ k, ∑ l, spectralForward probe x k l * (starRingEnd ℂ) (spectralForward probe z k l) * ((P k l / ‖specVec a b probe k l‖ : ℝ) : ℂ) := by
  unfold specOp
  rw [← spectral_operators_adjoint ha hb]
  unfold inner2 specY
  refine sum_congr rfl fun k _ => sum_congr rfl fun l _ => ?_
  rw [map_div₀, map_mul, Complex.conj_ofReal, Complex.conj_ofReal]
  push_cast
  ring

theorem specPattern_nonneg (pattern : RealIm n m) (background mask : Option (RealIm n m)) (k l) : 0 ≤ specPattern pattern background mask k l :=
  abs_nonneg _

/-- **C99** (eigenvalues): every eigenvalue of the operator is real and not negative, for all probes, objects sizes and corrected patterns. -/
theorem spectral_eigenvalue_nonneg (ha : a ≤ n) (hb : b ≤ m) (probe : Wave n m) (pattern : RealIm n m) (background mask : Option (RealIm n m))
    (e : ℂ) (z : Wave a b) (h : SpecEigen probe (specPattern pattern background mask) e z) : ∃ r : ℝ, 0 ≤ r ∧ e = r := by
  obtain ⟨hz, he⟩ := h
  set P := specPattern pattern background mask with hP
  have h1 := specOp_inner ha hb probe P z z
  rw [inner2_smul_right e z z _ he, inner2_self] at h1
  set S := ∑ k, ∑ l, ‖spectralForward probe z k l‖ ^ 2 * (P k l / ‖specVec a b probe k l‖) with hS
  have h2 : ∑ k, ∑ l, spectralForward probe z k l * (starRingEnd ℂ) (spectralForward probe z k l) * ((P k l / ‖specVec a b probe k l‖ : ℝ) : ℂ) =
      ((S : ℝ) : ℂ) := by
    rw [hS]
    push_cast
    refine sum_congr rfl fun k _ => sum_congr rfl fun l _ => ?_
    rw [Complex.mul_conj, Complex.normSq_eq_norm_sq]
    push_cast
    rfl
  rw [h2] at h1
  have hS0 : 0 ≤ S := sum_nonneg fun k _ => sum_nonneg fun l _ =>
    mul_nonneg (sq_nonneg _) (div_nonneg (specPattern_nonneg _ _ _ k l) (norm_nonneg _))
  have hN := inner2_self_pos z hz
  set N := ∑ i, ∑ j, ‖z i j‖ ^ 2
  refine ⟨S / N, div_nonneg hS0 hN.le, ?_⟩
  have hN0 : (N : ℂ) ≠ 0 := by exact_mod_cast hN.ne'
  have h3 : (starRingEnd ℂ) e = ((S / N : ℝ) : ℂ) := by
    push_cast
    rw [eq_div_iff hN0]; exact h1
  have h4 := congrArg (starRingEnd ℂ) h3
  rwa [Complex.conj_conj, Complex.conj_ofReal] at h4

/-- **C99** (orthogonal modes): modes for different eigenvalues are orthogonal. -/
theorem spectral_modes_orthogonal (ha : a ≤ n) (hb : b ≤ m) (probe : Wave n m) (pattern : RealIm n m) (background mask : Option (RealIm n m))
    (e e' : ℂ) (z z' : Wave a b) (h : SpecEigen probe (specPattern pattern background mask) e z)
    (h' : SpecEigen probe (specPattern pattern background mask) e' z') (hne : e ≠ e') : inner2 z z' = 0 := by
  obtain ⟨r, -, hr⟩ := spectral_eigenvalue_nonneg ha hb probe pattern background mask e z h
  obtain ⟨r', -, hr'⟩ := spectral_eigenvalue_nonneg ha hb probe pattern background mask e' z' h'
  set P := specPattern pattern background mask with hP
  have h1 := specOp_inner ha hb probe P z z'
  have h2 := specOp_inner ha hb probe P z' z
  rw [inner2_smul_right e' z z' _ h'.2] at h1
  rw [inner2_smul_right e z' z _ h.2] at h2
  have h3 := congrArg (starRingEnd ℂ) h2
  rw [map_mul, Complex.conj_conj, inner2_conj] at h3
  have h4 : (starRingEnd ℂ) (∑ k, ∑ l, spectralForward probe z' k l * (starRingEnd ℂ) (spectralForward probe z k l) *
      ((P k l / ‖specVec a b probe k l‖ : ℝ) : ℂ)) =
      ∑ k, ∑ l, spectralForward probe z k l * (starRingEnd ℂ) (spectralForward probe z' k l) * ((P k l / ‖specVec a b probe k l‖ : ℝ) : ℂ) := by
    simp only [map_sum, map_mul, Complex.conj_conj, Complex.conj_ofReal]
    exact sum_congr rfl fun k _ => sum_congr rfl fun l _ => by ring
  rw [h4, ← h1] at h3
  have h5 : (e - e') * inner2 z z' = 0 := by
    have : (starRingEnd ℂ) e' = e' := by rw [hr', Complex.conj_ofReal]
    rw [this] at h3
    rw [sub_mul, h3, sub_self]
  rcases mul_eq_zero.1 h5 with h6 | h6
  · exact absurd (sub_eq_zero.1 h6) hne
  · exact h6

/-- **C99** (masked pixels): two patterns that agree on the pixels of the mask have the same eigenvectors and eigenvalues, and give the same guess from them. -/
theorem spectral_guess_masked {r : ℕ} (probe : Wave n m) (p p' M : RealIm n m) (background : Option (RealIm n m))
    (h : ∀ k l, M k l ≠ 0 → p k l = p' k l) (e : Fin r → ℂ) (z : Fin r → Wave a b) :
    (∀ μ, SpecEigen probe (specPattern p background (some M)) (e μ) (z μ) ↔ SpecEigen probe (specPattern p' background (some M)) (e μ) (z μ)) ∧
      specGuess probe (specPattern p background (some M)) e z = specGuess probe (specPattern p' background (some M)) e z := by
  have : specPattern p background (some M) = specPattern p' background (some M) := by
    funext k l
    unfold specPattern
    dsimp only
    by_cases hM : M k l = 0
    · simp [hM]
    · cases background <;> simp [h k l hM]
  rw [this]
  exact ⟨fun _ => Iff.rfl, rfl⟩

theorem spectralBackward_smul (probe : Wave n m) (c : ℂ) (y : Wave n m) :
    (spectralBackward probe (fun k l => c * y k l) : Wave a b) = fun i j => c * spectralBackward probe y i j := by
  have hi : ∀ (c : ℂ) (y : Wave n m), inverseFarField (fun k l => c * y k l) = fun i j => c * inverseFarField y i j := by
    intro c y
    exact inverseFarField_scale c y
  have hf : ∀ (c : ℂ) (y : Wave n m), farField (fun k l => c * y k l) = fun i j => c * farField y i j := by
    intro c y
    exact farField_scale c y
  have hi' : ∀ (c : ℂ) (y : Wave a b), inverseFarField (fun k l => c * y k l) = fun i j => c * inverseFarField y i j := by
    intro c y
    exact inverseFarField_scale c y
  unfold spectralBackward
  dsimp only
  rw [hi]
  have e : (fun i j => (starRingEnd ℂ) (probe i j) * (c * inverseFarField y i j)) = fun i j => c * ((starRingEnd ℂ) (probe i j) * inverseFarField y i j) := by
    funext i j; ring
  rw [e, hf]
  exact hi' c _

theorem specPattern_scale (c : ℝ) (hc : 0 < c) (pattern : RealIm n m) (background mask : Option (RealIm n m)) :
    specPattern (fun k l => c * pattern k l) (background.map fun B k l => c * B k l) mask = fun k l => c * specPattern pattern background mask k l := by
  funext k l
  unfold specPattern
  cases background <;> cases mask <;> simp only [Option.map_none, Option.map_some, ← mul_sub, mul_assoc, abs_mul, abs_of_pos hc]

theorem specOp_scale (probe : Wave n m) (c : ℝ) (P : RealIm n m) (z : Wave a b) :
    specOp probe (fun k l => c * P k l) z = fun i j => (c : ℂ) * specOp probe P z i j := by
  unfold specOp
  rw [← spectralBackward_smul]
  congr 1
  funext k l
  unfold specY
  push_cast
  ring

/-- **C99** (violated): more light gives a *weaker* guess. If pattern and background are multiplied by `c > 0`, the eigenvectors stay, the eigenvalues are multiplied by `c`,
and the guess is divided by `√c` — it should be multiplied, because the light in the far field is linear in the object. -/
theorem spectral_scale_violated {r : ℕ} (probe : Wave n m) (c : ℝ) (hc : 0 < c) (pattern : RealIm n m) (background mask : Option (RealIm n m))
    (e : Fin r → ℂ) (z : Fin r → Wave a b) (he : ∀ μ, SpecEigen probe (specPattern pattern background mask) (e μ) (z μ)) :
    let P' := specPattern (fun k l => c * pattern k l) (background.map fun B k l => c * B k l) mask
    (∀ μ, SpecEigen probe P' (c * e μ) (z μ)) ∧
      ∀ μ i j, specGuess probe P' (fun μ => c * e μ) z μ i j = ((1 / Real.sqrt c : ℝ) : ℂ) * specGuess probe (specPattern pattern background mask) e z μ i j := by
  dsimp only
  rw [specPattern_scale c hc]
  constructor
  · intro μ
    refine ⟨(he μ).1, fun i j => ?_⟩
    rw [specOp_scale]
    dsimp only
    rw [(he μ).2]
    ring
  · intro μ i j
    unfold specGuess
    have h1 : ∑ k, ∑ l, c * specPattern pattern background mask k l = c * ∑ k, ∑ l, specPattern pattern background mask k l := by
      simp only [← mul_sum]
    have h2 : ∑ ν, ((c : ℂ) * e ν) ^ 2 = (c : ℂ) ^ 2 * ∑ ν, e ν ^ 2 := by
      rw [mul_sum]; exact sum_congr rfl fun _ _ => by ring
    rw [h1, h2, mul_div_assoc, Real.sqrt_mul hc.le]
    have hc0 : (c : ℂ) ≠ 0 := by exact_mod_cast hc.ne'
    have hs : ((Real.sqrt c : ℝ) : ℂ) * (Real.sqrt c : ℝ) = c := by
      rw [← Complex.ofReal_mul, Real.mul_self_sqrt hc.le]
    have hs0 : ((Real.sqrt c : ℝ) : ℂ) ≠ 0 := by
      intro h0; rw [h0, mul_zero] at hs; exact hc0 hs.symm
    push_cast
    generalize ((Real.sqrt c : ℝ) : ℂ) = s at hs hs0
    rw [← hs]
    by_cases hz : ∑ ν, e ν ^ 2 = 0
    · rw [hz]; simp
    · field_simp

/-- **C99** (relative weights): the modes of the guess are the eigenvectors with weights in the ratio of their eigenvalues. -/
theorem spectral_guess_weights {r : ℕ} (probe : Wave n m) (P : RealIm n m) (e : Fin r → ℂ) (z : Fin r → Wave a b) :
    ∃ g : ℂ, ∀ μ i j, specGuess probe P e z μ i j = g * e μ * z μ i j := by
  refine ⟨(Real.sqrt ((∑ k, ∑ l, P k l) / ∑ k, ∑ l, ‖probe k l‖ ^ 2) : ℝ) / ∑ ν, e ν ^ 2, fun μ i j => ?_⟩
  unfold specGuess
  ring

/-- A probe of one bright pixel in the center. -/
noncomputable def pixelProbe : Wave n m := fun i j => if i = ((n / 2 : ℕ) : ZMod n) ∧ j = ((m / 2 : ℕ) : ZMod m) then 1 else 0

theorem farField_pixelProbe : farField (pixelProbe : Wave n m) = fun _ _ => 1 / ((Real.sqrt (n * m) : ℝ) : ℂ) := by
  funext k l
  unfold farField
  have hδ : ifftshift2 (pixelProbe : Wave n m) = fun i j => if i = 0 ∧ j = 0 then 1 else 0 := by
    funext i j
    unfold ifftshift2 pixelProbe
    simp
  rw [hδ]
  unfold fftshift2
  simp only [fft2_eq]
  congr 1
  rw [sum_eq_single 0, sum_eq_single 0] <;> simp +contextual

/-- Full-size objects: the operators are plain products in real space. -/
theorem spectralForward_full (probe z : Wave n m) : spectralForward probe z = farField fun i j => probe i j * z i j := by
  unfold spectralForward
  have e : (fun (k : ZMod n) (l : ZMod m) => if (n - n) / 2 ≤ k.val ∧ k.val < (n - n) / 2 + n ∧ (m - m) / 2 ≤ l.val ∧ l.val < (m - m) / 2 + m then
      farField z ((k.val - (n - n) / 2 : ℕ) : ZMod n) ((l.val - (m - m) / 2 : ℕ) : ZMod m) else 0) = farField z := by
    funext k l
    rw [if_pos ⟨by simp, by simpa using ZMod.val_lt k, by simp, by simpa using ZMod.val_lt l⟩]
    simp
  dsimp only
  rw [e, far_field_unitary.1]

theorem spectralBackward_full (probe y : Wave n m) :
    (spectralBackward probe y : Wave n m) = fun i j => (starRingEnd ℂ) (probe i j) * inverseFarField y i j := by
  unfold spectralBackward
  have e : ∀ w : Wave n m, (fun (k : ZMod n) (l : ZMod m) => w (((n - n) / 2 + k.val : ℕ) : ZMod n) (((m - m) / 2 + l.val : ℕ) : ZMod m)) = w := by
    intro w; funext k l; simp
  dsimp only
  rw [e, far_field_unitary.1]

/-- A case with an eigenvector, of any size: the bright pixel with a flat pattern has eigenvalue `√(nm)`, and `vec` has no zero. -/
theorem spectral_example : SpecEigen (pixelProbe : Wave n m) (specPattern (fun _ _ => 1) none none) ((Real.sqrt (n * m) : ℝ) : ℂ) (pixelProbe : Wave n m) ∧
    ∀ k l, specVec n m (pixelProbe : Wave n m) k l ≠ 0 := by
  have hs : 0 < Real.sqrt (n * m) := Real.sqrt_pos.2 size_pos
  have hs0 : ((Real.sqrt (n * m) : ℝ) : ℂ) ≠ 0 := by exact_mod_cast hs.ne'
  have hpp : (fun i j => (pixelProbe : Wave n m) i j * (pixelProbe : Wave n m) i j) = pixelProbe := by
    funext i j; unfold pixelProbe; split <;> simp
  have hp1 : (fun i j => (pixelProbe : Wave n m) i j * 1) = pixelProbe := by funext i j; simp
  have hcp : (fun i j => (starRingEnd ℂ) ((pixelProbe : Wave n m) i j) * (pixelProbe : Wave n m) i j) = pixelProbe := by
    funext i j; unfold pixelProbe; split <;> simp
  have hb : (spectralBackward pixelProbe (farField (pixelProbe : Wave n m)) : Wave n m) = pixelProbe := by
    rw [spectralBackward_full, far_field_unitary.1, hcp]
  have hv : specVec n m (pixelProbe : Wave n m) = farField pixelProbe := by
    unfold specVec
    rw [spectralForward_full pixelProbe (fun _ _ => 1), hp1, hb, spectralForward_full, hpp]
  have hvv : ∀ k l, specVec n m (pixelProbe : Wave n m) k l = 1 / ((Real.sqrt (n * m) : ℝ) : ℂ) := by
    intro k l; rw [hv, farField_pixelProbe]
  constructor
  · constructor
    · intro h
      have := congrFun (congrFun h ((n / 2 : ℕ) : ZMod n)) ((m / 2 : ℕ) : ZMod m)
      simp [pixelProbe] at this
    · intro i j
      have hY : specY n m (pixelProbe : Wave n m) (specPattern (fun _ _ => 1) none none) (spectralForward pixelProbe (pixelProbe : Wave n m)) =
          fun k l => ((Real.sqrt (n * m) : ℝ) : ℂ) * farField (pixelProbe : Wave n m) k l := by
        funext k l
        unfold specY
        rw [hvv, spectralForward_full, hpp]
        simp only [specPattern, abs_one, Complex.ofReal_one, mul_one, norm_div, norm_one, Complex.norm_real, Real.norm_eq_abs, abs_of_pos hs]
        push_cast
        field_simp
      unfold specOp
      rw [hY, spectralBackward_smul, hb]
  · intro k l
    rw [hvv]
    exact one_div_ne_zero hs0

end Cdtools
