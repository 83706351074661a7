/-
C43 (translations_to_pixel / pixel_to_translations), C46 (exit_wave_geometry) and C58
(project_translations_to_sample).
-/
import Verif.Model.Interactions
import Mathlib.Tactic.Linarith
import Mathlib.Tactic.Ring
import Mathlib.Tactic.FieldSimp
import Mathlib.LinearAlgebra.Matrix.Determinant.Basic
import Mathlib.LinearAlgebra.Matrix.ToLinearEquiv

set_option linter.unusedSectionVars false
set_option linter.unusedSimpArgs false

namespace Cdtools
open Matrix

/-- The first and second basis vector. -/
def col (B : Matrix (Fin 3) (Fin 2) ℝ) (j : Fin 2) : Vec3 := fun i => B i j

/-- The basis vectors span a plane that is not parallel to the direction `v`. -/
def Transverse (B : Matrix (Fin 3) (Fin 2) ℝ) (v : Vec3) : Prop :=
  ((col B 0).cross (col B 1)).dot v ≠ 0

theorem gram_det (B : Matrix (Fin 3) (Fin 2) ℝ) :
    (B.transpose * B).det =
      ((col B 0).cross (col B 1)).dot ((col B 0).cross (col B 1)) := by
  rw [det_fin_two]
  simp only [mul_apply, transpose_apply, Fin.sum_univ_three, Vec3.dot, Vec3.cross, col]
  simp
  ring

theorem dot_self_pos {v w : Vec3} (h : v.dot w ≠ 0) : v.dot v ≠ 0 := by
  intro h0
  apply h
  simp only [Vec3.dot] at h0 ⊢
  have a : v 0 = 0 := by nlinarith [mul_self_nonneg (v 0), mul_self_nonneg (v 1), mul_self_nonneg (v 2)]
  have b : v 1 = 0 := by nlinarith [mul_self_nonneg (v 0), mul_self_nonneg (v 1), mul_self_nonneg (v 2)]
  have c : v 2 = 0 := by nlinarith [mul_self_nonneg (v 0), mul_self_nonneg (v 1), mul_self_nonneg (v 2)]
  rw [a, b, c]; ring

theorem gram_unit {B : Matrix (Fin 3) (Fin 2) ℝ} {v : Vec3} (h : Transverse B v) :
    IsUnit (B.transpose * B).det := by
  rw [isUnit_iff_ne_zero, gram_det]
  exact dot_self_pos h

/-- The matrix `projection_2` is its own inverse. -/
theorem projection2_inv (nrm : Fin 3 → ℝ) (h : nrm 2 ≠ 0) :
    (projection2 nrm)⁻¹ = projection2 nrm := by
  apply inv_eq_right_inv
  ext i j
  fin_cases i <;> fin_cases j <;>
    simp [projection2, mul_apply, Fin.sum_univ_three, h, div_self h] <;> field_simp <;> ring

/-- The lift of a translation into the sample plane through the origin with normal `nrm`, along the
beam. -/
noncomputable def lift (nrm t : Fin 3 → ℝ) : Fin 3 → ℝ :=
  ![t 0, t 1, -(nrm 0 * t 0 + nrm 1 * t 1) / nrm 2]

theorem pixelProjection_mulVec (B : Matrix (Fin 3) (Fin 2) ℝ) (nrm t : Fin 3 → ℝ) (h : nrm 2 ≠ 0) :
    (pixelProjection B nrm).mulVec t = (pinvTall B).mulVec (lift nrm t) := by
  unfold pixelProjection
  rw [← mulVec_mulVec, projection2_inv nrm h, ← mulVec_mulVec]
  congr 1
  funext i
  fin_cases i <;>
    simp [projection1, projection2, mulVec, dotProduct, Fin.sum_univ_three, lift] <;> field_simp <;>
    ring

theorem lift_dot (nrm t : Fin 3 → ℝ) (h : nrm 2 ≠ 0) : Vec3.dot nrm (lift nrm t) = 0 := by
  simp [Vec3.dot, lift]
  field_simp
  ring

/-- `pinvTall B` solves least squares: applied to a vector of the plane it gives the coordinates. -/
theorem pinvTall_mulVec_mulVec {B : Matrix (Fin 3) (Fin 2) ℝ} (h : IsUnit (B.transpose * B).det)
    (p : Fin 2 → ℝ) : (pinvTall B).mulVec (B.mulVec p) = p := by
  unfold pinvTall
  rw [mulVec_mulVec, Matrix.mul_assoc, nonsing_inv_mul _ h, one_mulVec]

/-- The pixel projection is injective on translations of the `xy` plane. -/
theorem pixelProjection_inj {B : Matrix (Fin 3) (Fin 2) ℝ} {nrm : Fin 3 → ℝ} (hz : nrm 2 ≠ 0)
    (hT : Transverse B nrm) {s t : Fin 3 → ℝ} (hs : s 2 = t 2)
    (h : (pixelProjection B nrm).mulVec s = (pixelProjection B nrm).mulVec t) : s = t := by
  rw [pixelProjection_mulVec B nrm s hz, pixelProjection_mulVec B nrm t hz] at h
  have h1 : (B.transpose).mulVec (lift nrm s) = (B.transpose).mulVec (lift nrm t) := by
    have := congrArg (fun v => (B.transpose * B).mulVec v) h
    simp only [pinvTall] at this
    rw [mulVec_mulVec, mulVec_mulVec, ← Matrix.mul_assoc, mul_nonsing_inv _ (gram_unit hT),
      Matrix.one_mul] at this
    exact this
  have e0 := congrFun h1 0
  have e1 := congrFun h1 1
  simp only [mulVec, dotProduct, Fin.sum_univ_three, transpose_apply, lift] at e0 e1
  simp at e0 e1
  unfold Transverse at hT
  simp [Vec3.dot, Vec3.cross, col] at hT
  have hx : s 0 - t 0 = 0 ∧ s 1 - t 1 = 0 := by
    set x := s 0 - t 0 with hx
    set y := s 1 - t 1 with hy
    have d0 : (B 0 0 * nrm 2 - B 2 0 * nrm 0) * x + (B 1 0 * nrm 2 - B 2 0 * nrm 1) * y = 0 := by
      field_simp at e0
      rw [hx, hy]; linarith
    have d1 : (B 0 1 * nrm 2 - B 2 1 * nrm 0) * x + (B 1 1 * nrm 2 - B 2 1 * nrm 1) * y = 0 := by
      field_simp at e1
      rw [hx, hy]; linarith
    set D := (B 1 0 * B 2 1 - B 2 0 * B 1 1) * nrm 0 + (B 2 0 * B 0 1 - B 0 0 * B 2 1) * nrm 1 +
      (B 0 0 * B 1 1 - B 1 0 * B 0 1) * nrm 2 with hD
    have kx : nrm 2 * D * x = 0 := by
      rw [hD]
      linear_combination (B 1 1 * nrm 2 - B 2 1 * nrm 1) * d0 - (B 1 0 * nrm 2 - B 2 0 * nrm 1) * d1
    have ky : nrm 2 * D * y = 0 := by
      rw [hD]
      linear_combination (B 0 0 * nrm 2 - B 2 0 * nrm 0) * d1 - (B 0 1 * nrm 2 - B 2 1 * nrm 0) * d0
    have hDz : nrm 2 * D ≠ 0 := mul_ne_zero hz hT
    exact ⟨(mul_eq_zero.1 kx).resolve_left hDz, (mul_eq_zero.1 ky).resolve_left hDz⟩
  funext i
  fin_cases i
  · exact sub_eq_zero.1 hx.1
  · exact sub_eq_zero.1 hx.2
  · exact hs

theorem pixelProjection_third (B : Matrix (Fin 3) (Fin 2) ℝ) (nrm : Fin 3 → ℝ) (i : Fin 2) :
    pixelProjection B nrm i 2 = 0 := by
  unfold pixelProjection
  rw [← Matrix.mul_assoc, mul_apply, Fin.sum_univ_three]
  simp [projection1]

/-- The rows of the pixel projection are independent. -/
theorem pixelProjection_gram {B : Matrix (Fin 3) (Fin 2) ℝ} {nrm : Fin 3 → ℝ} (hz : nrm 2 ≠ 0)
    (hT : Transverse B nrm) :
    IsUnit (pixelProjection B nrm * (pixelProjection B nrm).transpose).det := by
  set M := pixelProjection B nrm with hM
  have h3 := pixelProjection_third B nrm
  rw [← hM] at h3
  have hA : M 0 0 * M 1 1 - M 0 1 * M 1 0 ≠ 0 := by
    intro h0
    have hker : ∀ x y : ℝ, M.mulVec ![x, y, 0] = 0 → x = 0 ∧ y = 0 := by
      intro x y hxy
      have := pixelProjection_inj hz hT (s := ![x, y, 0]) (t := 0) (by simp)
        (by rw [← hM, hxy, mulVec_zero])
      have a := congrFun this 0
      have b := congrFun this 1
      simp at a b
      exact ⟨a, b⟩
    have k1 := hker (M 1 1) (-M 1 0) (by
      funext i
      fin_cases i
      · simp [mulVec, dotProduct, Fin.sum_univ_three]; linarith
      · simp [mulVec, dotProduct, Fin.sum_univ_three]; ring)
    have k2 := hker (M 0 1) (-M 0 0) (by
      funext i
      fin_cases i
      · simp [mulVec, dotProduct, Fin.sum_univ_three]; ring
      · simp [mulVec, dotProduct, Fin.sum_univ_three]; linarith)
    have hz0 : ∀ x y : ℝ, M.mulVec ![x, y, 0] = 0 := by
      intro x y
      funext i
      have a1 : M 1 0 = 0 := by linarith [k1.2]
      have a2 : M 0 0 = 0 := by linarith [k2.2]
      fin_cases i <;> simp [mulVec, dotProduct, Fin.sum_univ_three, k1.1, k2.1, a1, a2]
    exact one_ne_zero (hker 1 0 (hz0 1 0)).1
  rw [isUnit_iff_ne_zero, det_fin_two]
  simp only [mul_apply, transpose_apply, Fin.sum_univ_three, h3, mul_zero, add_zero]
  have : (M 0 0 * M 0 0 + M 0 1 * M 0 1) * (M 1 0 * M 1 0 + M 1 1 * M 1 1) -
      (M 0 0 * M 1 0 + M 0 1 * M 1 1) * (M 1 0 * M 0 0 + M 1 1 * M 0 1) =
      (M 0 0 * M 1 1 - M 0 1 * M 1 0) ^ 2 := by ring
  rw [this]
  exact pow_ne_zero 2 hA

/-- **C43.** For every surface normal with a component along the beam and every probe basis whose
plane does not contain the surface normal: converting pixels to translations and back returns the
pixels; converting translations to pixels and back returns the translation with its component along
the beam set to zero; both conversions are linear. -/
theorem translations_pixels_inverse (B : Matrix (Fin 3) (Fin 2) ℝ) (nrm : Fin 3 → ℝ)
    (hz : nrm 2 ≠ 0) (hT : Transverse B nrm) :
    (∀ p, translationsToPixel B nrm (pixelToTranslations B nrm p) = p) ∧
    (∀ t, pixelToTranslations B nrm (translationsToPixel B nrm t) = ![t 0, t 1, 0]) ∧
    (∀ (c : ℝ) (s t : Fin 3 → ℝ), translationsToPixel B nrm (s + c • t) =
      translationsToPixel B nrm s + c • translationsToPixel B nrm t) ∧
    (∀ (c : ℝ) (p q : Fin 2 → ℝ), pixelToTranslations B nrm (p + c • q) =
      pixelToTranslations B nrm p + c • pixelToTranslations B nrm q) := by
  have hg := pixelProjection_gram hz hT
  have h1 : ∀ p, translationsToPixel B nrm (pixelToTranslations B nrm p) = p := by
    intro p
    unfold translationsToPixel pixelToTranslations pinvWide
    rw [mulVec_mulVec, ← Matrix.mul_assoc, mul_nonsing_inv _ hg, one_mulVec]
  refine ⟨h1, fun t => ?_, fun c s t => ?_, fun c p q => ?_⟩
  · have h2 : pixelToTranslations B nrm (translationsToPixel B nrm t) 2 = 0 := by
      unfold pixelToTranslations pinvWide
      rw [← mulVec_mulVec]
      simp only [mulVec, dotProduct, Fin.sum_univ_two, transpose_apply, pixelProjection_third]
      ring
    have h3 : translationsToPixel B nrm t = translationsToPixel B nrm ![t 0, t 1, 0] := by
      unfold translationsToPixel
      rw [pixelProjection_mulVec _ _ _ hz, pixelProjection_mulVec _ _ _ hz]
      congr 1
    apply pixelProjection_inj hz hT
    · rw [h2]; simp
    · have := h1 (translationsToPixel B nrm t)
      rw [h3] at this ⊢
      exact this
  · simp [translationsToPixel, mulVec_add, mulVec_smul]
  · simp [pixelToTranslations, mulVec_add, mulVec_smul]

/-- **C43**, in the default geometry: if the sample is perpendicular to the beam and so is the probe
basis, the pixel coordinates of a translation are its coordinates in the basis. -/
theorem translations_to_pixel_coordinates (B : Matrix (Fin 3) (Fin 2) ℝ) (h0 : B 2 0 = 0)
    (h1 : B 2 1 = 0) (hT : Transverse B ![0, 0, 1]) (t : Fin 3 → ℝ) (ht : t 2 = 0) :
    B.mulVec (translationsToPixel B ![0, 0, 1] t) = t := by
  set p := translationsToPixel B ![0, 0, 1] t with hp
  have hz : (![0, 0, 1] : Fin 3 → ℝ) 2 ≠ 0 := by simp
  apply pixelProjection_inj hz hT
  · rw [ht]
    simp [mulVec, dotProduct, Fin.sum_univ_two, h0, h1]
  · have : lift ![0, 0, 1] (B.mulVec p) = B.mulVec p := by
      funext i
      fin_cases i <;> simp [lift, mulVec, dotProduct, Fin.sum_univ_two, h0, h1]
    rw [pixelProjection_mulVec _ _ _ hz, this, pinvTall_mulVec_mulVec (gram_unit hT)]
    rfl

/-- Non-vacuity: the usual basis `(0, -dy, 0), (-dx, 0, 0)` with the default normal. -/
example (dx dy : ℝ) (hx : 0 < dx) (hy : 0 < dy) :
    Transverse !![0, -dx; -dy, 0; 0, 0] ![0, 0, 1] ∧ (![0, 0, 1] : Fin 3 → ℝ) 2 ≠ 0 := by
  refine ⟨?_, by simp⟩
  unfold Transverse
  simp [Vec3.dot, Vec3.cross, col]
  exact ⟨hy.ne', hx.ne'⟩

/-! ### C46 -/

/-- **C46.** For every detector basis of independent vectors, positive shape, wavelength and
distance: the exit-wave basis vector `a` and the extent of the detector along axis `b` (shape times
basis vector) have dot product `wavelength * distance` if `a = b` and zero otherwise; and the
exit-wave basis lies in the plane of the detector. -/
theorem exit_wave_geometry_reciprocal (B : Matrix (Fin 3) (Fin 2) ℝ) (shape : Fin 2 → ℕ)
    (wl z : ℝ) (os : ℕ) (hB : Transverse B ((col B 0).cross (col B 1)))
    (hs : ∀ j, shape j ≠ 0) (a b : Fin 2) :
    Vec3.dot (col (exitWaveGeometry B shape wl z os) a) (fun i => (shape b : ℝ) * col B b i) =
      (if a = b then wl * z else 0) ∧
    Vec3.dot (col (exitWaveGeometry B shape wl z os) a) ((col B 0).cross (col B 1)) = 0 := by
  set S : Matrix (Fin 3) (Fin 2) ℝ := Matrix.of fun i j => B i j * (shape j : ℝ) with hS
  have hcross : (col S 0).cross (col S 1) =
      fun i => (shape 0 : ℝ) * shape 1 * (col B 0).cross (col B 1) i := by
    funext i
    fin_cases i <;> simp [Vec3.cross, col, hS] <;> ring
  have hT : Transverse S ((col B 0).cross (col B 1)) := by
    unfold Transverse at hB ⊢
    rw [hcross]
    have : Vec3.dot (fun i => (shape 0 : ℝ) * shape 1 * (col B 0).cross (col B 1) i)
        ((col B 0).cross (col B 1)) =
        (shape 0 : ℝ) * shape 1 * ((col B 0).cross (col B 1)).dot ((col B 0).cross (col B 1)) := by
      simp only [Vec3.dot]; ring
    rw [this]
    have h0 : (shape 0 : ℝ) ≠ 0 := by exact_mod_cast hs 0
    have h1 : (shape 1 : ℝ) ≠ 0 := by exact_mod_cast hs 1
    exact mul_ne_zero (mul_ne_zero h0 h1) hB
  have hinv : pinvTall S * S = 1 := by
    unfold pinvTall
    rw [Matrix.mul_assoc, nonsing_inv_mul _ (gram_unit hT)]
  have hcol : col (exitWaveGeometry B shape wl z os) a = fun i => wl * z * pinvTall S a i := by
    funext i
    simp [col, exitWaveGeometry, hS]
  constructor
  · have h := congrFun (congrFun hinv a) b
    rw [mul_apply, Fin.sum_univ_three] at h
    rw [hcol]
    have he : Vec3.dot (fun i => wl * z * pinvTall S a i) (fun i => (shape b : ℝ) * col B b i) =
        wl * z * (pinvTall S a 0 * S 0 b + pinvTall S a 1 * S 1 b + pinvTall S a 2 * S 2 b) := by
      simp only [Vec3.dot, col, hS, Matrix.of_apply]; ring
    rw [he, h, Matrix.one_apply]
    split <;> simp
  · rw [hcol]
    have hp : ∀ i, pinvTall S a i =
        (S.transpose * S)⁻¹ a 0 * S i 0 + (S.transpose * S)⁻¹ a 1 * S i 1 := by
      intro i
      simp [pinvTall, mul_apply, Fin.sum_univ_two]
    simp only [Vec3.dot, hp]
    simp [hS, col, Vec3.cross]
    ring

/-- **C46 is violated** in one respect: the documented parameter `oversampling` ("the amount to
multiply the exit wave shape by") has no effect. -/
theorem exit_wave_oversampling_ignored_violated (B : Matrix (Fin 3) (Fin 2) ℝ) (shape : Fin 2 → ℕ)
    (wl z : ℝ) (os os' : ℕ) :
    exitWaveGeometry B shape wl z os = exitWaveGeometry B shape wl z os' := rfl

/-- Non-vacuity. -/
example (dx dy : ℝ) (hx : 0 < dx) (hy : 0 < dy) :
    Transverse !![0, -dx; -dy, 0; 0, 0]
      ((col !![0, -dx; -dy, 0; 0, 0] 0).cross (col !![0, -dx; -dy, 0; 0, 0] 1)) := by
  unfold Transverse
  simp [Vec3.dot, Vec3.cross, col]
  exact ⟨hy.ne', hx.ne'⟩

/-! ### C58 -/

/-- **C58.** For every sample basis whose plane is not parallel to the beam and every translation `t`,
the pixel position `p` and the propagation distance `d` returned by
`project_translations_to_sample` are the only ones with `basis · p = t + d ẑ`: propagating from the
translated probe by `d` along the beam meets the sample plane at pixel `p`. -/
theorem project_translations_meet_sample (B : Matrix (Fin 3) (Fin 2) ℝ)
    (hT : Transverse B ![0, 0, 1]) (t : Fin 3 → ℝ) :
    B.mulVec (projectToSample B t).1 = t + (projectToSample B t).2 • ![0, 0, 1] ∧
    ∀ (p : Fin 2 → ℝ) (d : ℝ), B.mulVec p = t + d • ![0, 0, 1] →
      p = (projectToSample B t).1 ∧ d = (projectToSample B t).2 := by
  have hc2 : ((col B 0).cross (col B 1)) 2 ≠ 0 := by
    unfold Transverse at hT
    simpa [Vec3.dot] using hT
  have hgram := gram_unit hT
  set C := (col B 0).cross (col B 1) with hC
  set nrm := sampleNormal B with hn
  have hCC : 0 < C.dot C := by
    have h0 := dot_self_pos (v := C) (w := ![0, 0, 1]) hT
    have : 0 ≤ C.dot C := by
      simp only [Vec3.dot]
      nlinarith [mul_self_nonneg (C 0), mul_self_nonneg (C 1), mul_self_nonneg (C 2)]
    exact lt_of_le_of_ne this (Ne.symm h0)
  have hswap : Vec3.cross (fun i => B i 1) (fun i => B i 0) = fun i => -C i := by
    funext i
    rw [hC]
    fin_cases i <;> simp [Vec3.cross, col] <;> ring
  have hdd : Vec3.dot (fun i => -C i) (fun i => -C i) = C.dot C := by
    simp only [Vec3.dot]; ring
  have hnrm : ∀ i, nrm i = -C i / Real.sqrt (C.dot C) := by
    intro i
    rw [hn, sampleNormal, hswap]
    simp only [Vec3.unit, hdd]
  have hsq : Real.sqrt (C.dot C) ≠ 0 := (Real.sqrt_pos.2 hCC).ne'
  have hn2 : nrm 2 ≠ 0 := by
    rw [hnrm]; exact div_ne_zero (neg_ne_zero.2 hc2) hsq
  -- the lifted point solves the projector's normal equations
  set top : Matrix (Fin 3) (Fin 3) ℝ :=
    1 - Matrix.of fun i j => (![0, 0, 1] : Fin 3 → ℝ) i * (![0, 0, 1] : Fin 3 → ℝ) j with htop
  set gram : Matrix (Fin 3) (Fin 3) ℝ :=
    top.transpose * top + Matrix.of fun i j => nrm i * nrm j with hgr
  have htopv : ∀ v : Fin 3 → ℝ, top.mulVec v = ![v 0, v 1, 0] := by
    intro v
    funext i
    fin_cases i <;> simp [htop, mulVec, dotProduct, Fin.sum_univ_three, Matrix.one_apply]
  have htopT : top.transpose = top := by
    ext i j
    fin_cases i <;> fin_cases j <;> simp [htop, Matrix.one_apply]
  have hgv : ∀ v : Fin 3 → ℝ, gram.mulVec v =
      fun i => (![v 0, v 1, 0] : Fin 3 → ℝ) i + nrm i * Vec3.dot nrm v := by
    intro v
    rw [hgr, add_mulVec, ← mulVec_mulVec, htopT, htopv, htopv]
    funext i
    simp only [Pi.add_apply, mulVec, dotProduct, Matrix.of_apply, Fin.sum_univ_three, Vec3.dot]
    fin_cases i <;> simp <;> ring
  have hgdet : IsUnit gram.det := by
    rw [isUnit_iff_ne_zero]
    intro h0
    obtain ⟨v, hv, hv0⟩ := Matrix.exists_mulVec_eq_zero_iff.2 h0
    rw [hgv] at hv0
    have e2 := congrFun hv0 2
    have e0 := congrFun hv0 0
    have e1 := congrFun hv0 1
    simp at e0 e1 e2
    have hd := e2.resolve_left hn2
    rw [hd] at e0 e1
    simp at e0 e1
    have hv2 : v 2 = 0 := by
      simp only [Vec3.dot, e0, e1] at hd
      simp at hd
      exact hd.resolve_left hn2
    apply hv
    funext i
    fin_cases i
    · exact e0
    · exact e1
    · exact hv2
  have hproj : (sampleProjector B).mulVec t = lift nrm t := by
    have hgl : gram.mulVec (lift nrm t) = top.transpose.mulVec t := by
      rw [hgv, lift_dot nrm t hn2, htopT, htopv]
      funext i
      fin_cases i <;> simp [lift]
    change (gram⁻¹ * top.transpose).mulVec t = _
    rw [← mulVec_mulVec, ← hgl, mulVec_mulVec, nonsing_inv_mul _ hgdet, one_mulVec]
  -- a vector orthogonal to the normal is in the range of the basis
  have hrange : ∀ v : Fin 3 → ℝ, Vec3.dot C v = 0 → B.mulVec ((pinvTall B).mulVec v) = v := by
    intro v hv
    have hmul : ∀ w : Fin 3 → ℝ, B.transpose.mulVec w = 0 → Vec3.dot C w = 0 → w = 0 := by
      intro w h1 h2
      have a := congrFun h1 0
      have b := congrFun h1 1
      simp only [mulVec, dotProduct, Fin.sum_univ_three, transpose_apply, Pi.zero_apply] at a b
      have hC0 : C 0 = B 1 0 * B 2 1 - B 2 0 * B 1 1 := by rw [hC]; simp [Vec3.cross, col]
      have hC1 : C 1 = B 2 0 * B 0 1 - B 0 0 * B 2 1 := by rw [hC]; simp [Vec3.cross, col]
      have hC2 : C 2 = B 0 0 * B 1 1 - B 1 0 * B 0 1 := by rw [hC]; simp [Vec3.cross, col]
      simp only [Vec3.dot] at h2 hCC
      have k0 : (C 0 * C 0 + C 1 * C 1 + C 2 * C 2) * w 0 = 0 := by
        rw [hC0, hC1, hC2] at h2 ⊢
        linear_combination (B 1 0 * B 2 1 - B 2 0 * B 1 1) * h2 +
          ((B 1 1 * (B 0 0 * B 1 1 - B 1 0 * B 0 1)) - B 2 1 * (B 2 0 * B 0 1 - B 0 0 * B 2 1)) * a +
          (B 2 0 * (B 2 0 * B 0 1 - B 0 0 * B 2 1) - B 1 0 * (B 0 0 * B 1 1 - B 1 0 * B 0 1)) * b
      have k1 : (C 0 * C 0 + C 1 * C 1 + C 2 * C 2) * w 1 = 0 := by
        rw [hC0, hC1, hC2] at h2 ⊢
        linear_combination (B 2 0 * B 0 1 - B 0 0 * B 2 1) * h2 +
          (B 2 1 * (B 1 0 * B 2 1 - B 2 0 * B 1 1) - B 0 1 * (B 0 0 * B 1 1 - B 1 0 * B 0 1)) * a +
          (B 0 0 * (B 0 0 * B 1 1 - B 1 0 * B 0 1) - B 2 0 * (B 1 0 * B 2 1 - B 2 0 * B 1 1)) * b
      have k2 : (C 0 * C 0 + C 1 * C 1 + C 2 * C 2) * w 2 = 0 := by
        rw [hC0, hC1, hC2] at h2 ⊢
        linear_combination (B 0 0 * B 1 1 - B 1 0 * B 0 1) * h2 +
          (B 0 1 * (B 2 0 * B 0 1 - B 0 0 * B 2 1) - B 1 1 * (B 1 0 * B 2 1 - B 2 0 * B 1 1)) * a +
          (B 1 0 * (B 1 0 * B 2 1 - B 2 0 * B 1 1) - B 0 0 * (B 2 0 * B 0 1 - B 0 0 * B 2 1)) * b
      funext i
      fin_cases i
      · exact (mul_eq_zero.1 k0).resolve_left hCC.ne'
      · exact (mul_eq_zero.1 k1).resolve_left hCC.ne'
      · exact (mul_eq_zero.1 k2).resolve_left hCC.ne'
    have hBt : B.transpose.mulVec (B.mulVec ((pinvTall B).mulVec v)) = B.transpose.mulVec v := by
      unfold pinvTall
      rw [mulVec_mulVec, mulVec_mulVec, ← Matrix.mul_assoc, mul_nonsing_inv _ hgram, Matrix.one_mul]
    have hCB : ∀ p : Fin 2 → ℝ, Vec3.dot C (B.mulVec p) = 0 := by
      intro p
      rw [hC]
      simp [Vec3.dot, Vec3.cross, col, mulVec, dotProduct, Fin.sum_univ_two]
      ring
    have hz := hmul (B.mulVec ((pinvTall B).mulVec v) - v)
      (by rw [mulVec_sub, hBt, sub_self])
      (by
        have h1 := hCB ((pinvTall B).mulVec v)
        simp only [Vec3.dot, Pi.sub_apply] at h1 hv ⊢
        linarith)
    exact sub_eq_zero.1 hz
  have hpar : ∀ v : Fin 3 → ℝ, Vec3.dot nrm v = 0 → Vec3.dot C v = 0 := by
    intro v hv
    have : Vec3.dot nrm v = -(Vec3.dot C v) / Real.sqrt (C.dot C) := by
      simp only [Vec3.dot, hnrm]
      field_simp
      ring
    rw [this, div_eq_zero_iff] at hv
    exact neg_eq_zero.1 (hv.resolve_right hsq)
  have hmain : B.mulVec (projectToSample B t).1 = t + (projectToSample B t).2 • ![0, 0, 1] := by
    simp only [projectToSample]
    rw [← mulVec_mulVec, hproj, hrange _ (hpar _ (lift_dot nrm t hn2))]
    funext i
    fin_cases i <;> simp [lift]
  refine ⟨hmain, fun p d h => ?_⟩
  have hCB : ∀ p : Fin 2 → ℝ, Vec3.dot C (B.mulVec p) = 0 := by
    intro p
    rw [hC]
    simp [Vec3.dot, Vec3.cross, col, mulVec, dotProduct, Fin.sum_univ_two]
    ring
  have h1 := hCB p
  have h2 := hCB (projectToSample B t).1
  rw [h] at h1
  rw [hmain] at h2
  simp [Vec3.dot] at h1 h2
  have hd : d = (projectToSample B t).2 := by
    have : C 2 * (d - (projectToSample B t).2) = 0 := by linarith
    exact sub_eq_zero.1 ((mul_eq_zero.1 this).resolve_left hc2)
  refine ⟨?_, hd⟩
  rw [← pinvTall_mulVec_mulVec hgram p, h, hd, ← hmain, pinvTall_mulVec_mulVec hgram]

/-- Non-vacuity: a sample plane tilted by 45 degrees. -/
example : Transverse !![0, -1; -1, 0; 0, 1] ![0, 0, 1] := by
  unfold Transverse
  simp [Vec3.dot, Vec3.cross, col]

end Cdtools
