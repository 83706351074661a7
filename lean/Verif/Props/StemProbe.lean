/-
C92 (STEM style probe guess) and C93 (near-field geometry and its probe guess).
-/
import Mathlib.Geometry.Euclidean.Angle.Unoriented.Basic
import Mathlib.Analysis.InnerProductSpace.PiL2
import Verif.Model.StemProbe
import Verif.Lemmas.Fourier
import Verif.Props.Propagators
import Verif.Props.Centering
import Verif.Props.Upsample

set_option linter.unusedSectionVars false

namespace Cdtools
open Finset

variable {n m a b : ℕ} [NeZero n] [NeZero m] [NeZero a] [NeZero b]

/-! ### Specification -/

/-- Where the fractional pixel `(k, l)` is, seen from the sample, if the beam hits the pixel `c`: pixels are `1 / os` of detector pixels. -/
noncomputable def pixelPosition (D : StemData a b) (os : ℝ) (c : ℝ × ℝ) (k l : ℝ) : EuclideanSpace ℝ (Fin 3) :=
  WithLp.toLp 2 ![0, 0, D.distance] + ((k - c.1) / os) • WithLp.toLp 2 (basisCol D.basis 0) +
    ((l - c.2) / os) • WithLp.toLp 2 (basisCol D.basis 1)

/-- The pixel `(k, l)` lies in the cone of `semiangle` mrad around the beam. -/
def InCone (D : StemData a b) (os : ℝ) (c : ℝ × ℝ) (semiangle : ℝ) (k l : ℝ) : Prop :=
  pixelPosition D os c k l ≠ 0 ∧
    InnerProductGeometry.angle (WithLp.toLp 2 ![0, 0, 1] : EuclideanSpace ℝ (Fin 3)) (pixelPosition D os c k l) < semiangle / 1000

theorem ray_eq (D : StemData a b) (os : ℝ) (c : ℝ × ℝ) (k l : ℝ) :
    pixelPosition D os c k l = WithLp.toLp 2 (D.ray os c k l) := by
  ext e
  unfold pixelPosition StemData.ray basisCol
  fin_cases e <;> simp <;> ring

theorem angle_toLp (v : Vec3) :
    InnerProductGeometry.angle (WithLp.toLp 2 ![0, 0, 1] : EuclideanSpace ℝ (Fin 3)) (WithLp.toLp 2 v) * 1000 = stemAngle v := by
  unfold InnerProductGeometry.angle stemAngle
  have h1 : ‖(WithLp.toLp 2 ![0, 0, 1] : EuclideanSpace ℝ (Fin 3))‖ = 1 := by
    rw [EuclideanSpace.norm_eq]
    simp [Fin.sum_univ_three]
  have h2 : ‖(WithLp.toLp 2 v : EuclideanSpace ℝ (Fin 3))‖ = Real.sqrt (v.dot v) := by
    rw [EuclideanSpace.norm_eq]
    congr 1
    simp [Fin.sum_univ_three, Vec3.dot]
    ring
  have h3 : inner ℝ (WithLp.toLp 2 ![0, 0, 1] : EuclideanSpace ℝ (Fin 3)) (WithLp.toLp 2 v) = v 2 := by
    rw [PiLp.inner_apply]
    simp [Fin.sum_univ_three]
  rw [h1, h2, h3, one_mul]

theorem inAperture_iff (D : StemData a b) (os : ℝ) (c : ℝ × ℝ) (semiangle : ℝ) (k : ZMod n) (l : ZMod m) :
    D.inAperture os c semiangle k l ↔ InCone D os c semiangle k.val l.val := by
  unfold StemData.inAperture InCone
  rw [ray_eq]
  have h := angle_toLp (D.ray os c k.val l.val)
  constructor
  · rintro ⟨h1, h2⟩
    refine ⟨fun e => h1 ?_, by linarith⟩
    have := congrArg WithLp.ofLp e
    simpa using this
  · rintro ⟨h1, h2⟩
    refine ⟨fun e => h1 (by rw [e]; rfl), by linarith⟩

/-! ### C92 -/

open Classical in
theorem probeFft_eq (D : StemData a b) (os semiangle : ℝ) (c : ℝ × ℝ) (hc : centroid D.meanIm = some c) :
    (D.probeFft os semiangle : Except String (Wave n m)) =
      (let count : ℝ := ∑ k : ZMod n, ∑ l : ZMod m, if InCone D os c semiangle k.val l.val then 1 else 0
       let diff : ℝ := (∑ i, ∑ j, D.meanIm i j) / (a * b)
       if count = 0 ∨ diff < 0 then .error "NaN"
       else .ok fun k l => if InCone D os c semiangle k.val l.val then (Real.sqrt (diff / (count / (n * m))) : ℂ) else 0) := by
  unfold StemData.probeFft
  rw [hc]
  dsimp only
  have hcount : (∑ k : ZMod n, ∑ l : ZMod m, ‖(if D.inAperture os c semiangle k l then (1 : ℂ) else 0)‖ ^ 2) =
      ∑ k : ZMod n, ∑ l : ZMod m, if InCone D os c semiangle k.val l.val then (1 : ℝ) else 0 := by
    refine sum_congr rfl fun k _ => sum_congr rfl fun l _ => ?_
    rw [inAperture_iff]
    split <;> simp
  rw [hcount]
  have hnm := (size_pos (n := n) (m := m)).ne'
  have : ∀ x : ℝ, x / ((n : ℝ) * m) = 0 ↔ x = 0 := fun x => by rw [div_eq_zero_iff]; simp [hnm]
  simp only [this]
  split
  · rfl
  · refine congrArg _ ?_
    funext k l
    rw [inAperture_iff]
    split <;> simp

open Classical in
/-- The far field with the model's mean pattern. The far field of the guess is a uniform aperture: the same real amplitude for all pixels in the cone of the given angle
around the centroid of the data, zero for all others; the mean intensity of the guess in the far field is that of the data. -/
theorem stem_far_field_aux (D : StemData a b) (os semiangle : ℝ) (w : Wave n m) (h : D.probe os semiangle none = .ok w) :
    ∃ c, centroid D.meanIm = some c ∧ (∃ s : ℝ, 0 ≤ s ∧ ∀ k l, farField w k l = if InCone D os c semiangle k.val l.val then (s : ℂ) else 0) ∧
      (∑ k, ∑ l, ‖farField w k l‖ ^ 2) / (n * m) = (∑ i, ∑ j, D.meanIm i j) / (a * b) := by
  unfold StemData.probe at h
  cases hc : centroid D.meanIm with
  | none => rw [show (D.probeFft os semiangle : Except String (Wave n m)) = .error "NaN" by unfold StemData.probeFft; rw [hc]] at h; cases h
  | some c =>
    rw [probeFft_eq D os semiangle c hc] at h
    dsimp only at h
    set count : ℝ := ∑ k : ZMod n, ∑ l : ZMod m, if InCone D os c semiangle k.val l.val then 1 else 0 with hcount
    set diff : ℝ := (∑ i, ∑ j, D.meanIm i j) / (a * b) with hdiff
    by_cases hb : count = 0 ∨ diff < 0
    · rw [if_pos hb] at h; cases h
    · rw [if_neg hb] at h
      rw [not_or, not_lt] at hb
      obtain ⟨hb1, hb2⟩ := hb
      injection h with h
      have hf : farField w = fun (k : ZMod n) (l : ZMod m) => if InCone D os c semiangle k.val l.val then
          (Real.sqrt (diff / (count / (n * m))) : ℂ) else 0 := by
        rw [← h, far_field_unitary.2.1]
      have hc0 : 0 ≤ count := sum_nonneg fun _ _ => sum_nonneg fun _ _ => by split <;> norm_num
      have hnm := size_pos (n := n) (m := m)
      refine ⟨c, rfl, ⟨_, Real.sqrt_nonneg _, fun k l => by rw [hf]⟩, ?_⟩
      have hs : ∀ (k : ZMod n) (l : ZMod m), ‖farField w k l‖ ^ 2 =
          (diff / (count / (n * m))) * if InCone D os c semiangle k.val l.val then 1 else 0 := by
        intro k l
        rw [hf]
        dsimp only
        split
        · rw [Complex.norm_real, Real.norm_eq_abs, sq_abs, Real.sq_sqrt (by positivity), mul_one]
        · simp
      simp only [hs, ← mul_sum]
      rw [← hcount, div_div_eq_mul_div, div_mul_cancel₀ _ hb1, mul_div_assoc, div_self hnm.ne', mul_one]

open Classical in
/-- **C92**: the far field of the guess is a uniform aperture: the same real amplitude for all pixels in the cone of the given angle
around the centroid of the mean of the patterns, zero for all others; the mean intensity of the guess in the far field is that of the data,
over all pixels and patterns. -/
theorem stem_probe_far_field (D : StemData a b) (os semiangle : ℝ) (w : Wave n m) (h : D.probe os semiangle none = .ok w) :
    ∃ c, centroid (fun i j => (D.patterns.map fun p => p i j).sum / D.patterns.length) = some c ∧
      (∃ s : ℝ, 0 ≤ s ∧ ∀ k l, farField w k l = if InCone D os c semiangle k.val l.val then (s : ℂ) else 0) ∧
      (∑ k, ∑ l, ‖farField w k l‖ ^ 2) / (n * m) = (D.patterns.map fun p => ∑ i, ∑ j, p i j).sum / (D.patterns.length * (a * b)) := by
  obtain ⟨c, hc, hs, hm⟩ := stem_far_field_aux D os semiangle w h
  refine ⟨c, hc, hs, hm.trans ?_⟩
  have e : ∑ i, ∑ j, D.meanIm i j = (D.patterns.map fun p => ∑ i, ∑ j, p i j).sum / D.patterns.length := by
    unfold StemData.meanIm
    rw [sum_congr rfl fun i _ => (sum_div _ _ _).symm, ← sum_div]
    refine congrArg (· / _) ?_
    generalize D.patterns = ps
    induction ps with
    | nil => simp
    | cons p ps ih => simp only [List.map_cons, List.sum_cons, sum_add_distrib, ih]
  rw [e, div_div]

/-- **C92** (when there is a guess): for data whose total is positive the guess exists if a pixel lies in the cone. -/
theorem stem_probe_exists (D : StemData a b) (os semiangle : ℝ) (z : Option ℝ) (c : ℝ × ℝ) (hc : centroid D.meanIm = some c)
    (hpos : 0 ≤ ∑ i, ∑ j, D.meanIm i j) (k : ZMod n) (l : ZMod m) (hk : InCone D os c semiangle k.val l.val) :
    ∃ w : Wave n m, D.probe os semiangle z = .ok w := by
  classical
  unfold StemData.probe
  rw [probeFft_eq D os semiangle c hc]
  dsimp only
  rw [if_neg]
  · exact ⟨_, rfl⟩
  · rw [not_or, not_lt]
    constructor
    · refine (lt_of_lt_of_le one_pos ?_).ne'
      calc (1 : ℝ) = if InCone D os c semiangle k.val l.val then 1 else 0 := by rw [if_pos hk]
        _ ≤ ∑ l : ZMod m, if InCone D os c semiangle k.val l.val then (1 : ℝ) else 0 :=
          single_le_sum (f := fun l : ZMod m => if InCone D os c semiangle k.val l.val then (1 : ℝ) else 0)
            (fun _ _ => by split <;> norm_num) (mem_univ l)
        _ ≤ _ := single_le_sum (f := fun k : ZMod n => ∑ l : ZMod m, if InCone D os c semiangle k.val l.val then (1 : ℝ) else 0)
            (fun _ _ => sum_nonneg fun _ _ => by split <;> norm_num) (mem_univ k)
    · positivity

/-- **C92** (violated): if no pixel centre lies in the cone (a small angle, a beam between pixels or beside the array) the guess is NaN
everywhere instead of a point or an error. -/
theorem stem_probe_empty_violated (D : StemData a b) (os semiangle : ℝ) (z : Option ℝ) (c : ℝ × ℝ) (hc : centroid D.meanIm = some c)
    (hk : ∀ (k : ZMod n) (l : ZMod m), ¬ InCone D os c semiangle k.val l.val) :
    (D.probe os semiangle z : Except String (Wave n m)) = .error "NaN" := by
  classical
  unfold StemData.probe
  rw [probeFft_eq D os semiangle c hc]
  dsimp only
  rw [if_pos]
  · rfl
  · left
    exact sum_eq_zero fun k _ => sum_eq_zero fun l _ => if_neg (hk k l)

/-- **C92**: on a detector perpendicular to the beam the aperture is the disc of radius `distance * tan(semiangle)` around the centroid. -/
theorem stem_disc (D : StemData a b) (h0 : D.basis 2 0 = 0) (h1 : D.basis 2 1 = 0) (hd : 0 < D.distance) (os semiangle : ℝ)
    (hs0 : 0 < semiangle) (hs1 : semiangle / 1000 < Real.pi / 2) (c : ℝ × ℝ) (k l : ℝ) :
    InCone D os c semiangle k l ↔
      Real.sqrt ((D.basis 0 0 * ((k - c.1) / os) + D.basis 0 1 * ((l - c.2) / os)) ^ 2 +
        (D.basis 1 0 * ((k - c.1) / os) + D.basis 1 1 * ((l - c.2) / os)) ^ 2) < D.distance * Real.tan (semiangle / 1000) := by
  unfold InCone
  rw [ray_eq]
  have hang := angle_toLp (D.ray os c k l)
  set v := D.ray os c k l with hv
  set r2 := (D.basis 0 0 * ((k - c.1) / os) + D.basis 0 1 * ((l - c.2) / os)) ^ 2 +
        (D.basis 1 0 * ((k - c.1) / os) + D.basis 1 1 * ((l - c.2) / os)) ^ 2 with hr2
  have hr : 0 ≤ r2 := by positivity
  have hv2 : v 2 = D.distance := by simp [hv, StemData.ray, h0, h1]
  have hvv : v.dot v = r2 + D.distance ^ 2 := by
    unfold Vec3.dot
    rw [hv2, hr2, hv]
    simp [StemData.ray]
    ring
  have hne : (WithLp.toLp 2 v : EuclideanSpace ℝ (Fin 3)) ≠ 0 := by
    intro e
    have := congrArg (fun x : EuclideanSpace ℝ (Fin 3) => x 2) e
    simp [hv2] at this
    exact hd.ne' this
  have hα0 : 0 < semiangle / 1000 := by positivity
  set α := semiangle / 1000
  have hcos : 0 < Real.cos α := Real.cos_pos_of_mem_Ioo ⟨by linarith, hs1⟩
  have hsin : 0 < Real.sin α := Real.sin_pos_of_pos_of_lt_pi hα0 (by linarith)
  have hroot : 0 < Real.sqrt (r2 + D.distance ^ 2) := Real.sqrt_pos.2 (by positivity)
  have e1 : InnerProductGeometry.angle (WithLp.toLp 2 ![0, 0, 1] : EuclideanSpace ℝ (Fin 3)) (WithLp.toLp 2 v) =
      Real.arccos (D.distance / Real.sqrt (r2 + D.distance ^ 2)) := by
    unfold stemAngle at hang
    rw [hv2, hvv] at hang
    linarith
  rw [e1]
  have hle1 : D.distance / Real.sqrt (r2 + D.distance ^ 2) ≤ 1 := by
    rw [div_le_one hroot]
    exact Real.le_sqrt_of_sq_le (by linarith)
  have hge : -1 ≤ D.distance / Real.sqrt (r2 + D.distance ^ 2) := le_trans (by norm_num) (div_nonneg hd.le hroot.le)
  have hA : Real.arccos (D.distance / Real.sqrt (r2 + D.distance ^ 2)) < α ↔
      Real.cos α < D.distance / Real.sqrt (r2 + D.distance ^ 2) := by
    have := Real.strictAntiOn_cos.lt_iff_gt ⟨hα0.le, by linarith [Real.pi_pos]⟩
      ⟨Real.arccos_nonneg (D.distance / Real.sqrt (r2 + D.distance ^ 2)), Real.arccos_le_pi _⟩
    rw [Real.cos_arccos hge hle1] at this
    exact this.symm
  have hB : Real.cos α < D.distance / Real.sqrt (r2 + D.distance ^ 2) ↔ Real.sqrt r2 < D.distance * Real.tan α := by
    rw [lt_div_iff₀ hroot, Real.tan_eq_sin_div_cos, ← mul_div_assoc, lt_div_iff₀ hcos]
    have hsc := Real.sin_sq_add_cos_sq α
    have hq1 := Real.sq_sqrt (by positivity : 0 ≤ r2 + D.distance ^ 2)
    have hq2 := Real.sq_sqrt hr
    have e1 := pow_lt_pow_iff_left₀ (by positivity : 0 ≤ Real.cos α * Real.sqrt (r2 + D.distance ^ 2)) hd.le two_ne_zero
    have e2 := pow_lt_pow_iff_left₀ (by positivity : 0 ≤ Real.sqrt r2 * Real.cos α) (by positivity : 0 ≤ D.distance * Real.sin α) two_ne_zero
    rw [← e1, ← e2, mul_pow, mul_pow, mul_pow, hq1, hq2]
    have : Real.sin α ^ 2 = 1 - Real.cos α ^ 2 := by linarith
    rw [this]
    constructor <;> intro h <;> nlinarith
  rw [hA, hB]
  exact and_iff_right hne

/-! #### Centroid -/

theorem inCone_symm (D : StemData a b) (h0 : D.basis 2 0 = 0) (h1 : D.basis 2 1 = 0) (hd : 0 < D.distance) (os semiangle : ℝ)
    (hs0 : 0 < semiangle) (hs1 : semiangle / 1000 < Real.pi / 2) (c : ℝ × ℝ) (k l : ℝ) :
    InCone D os c semiangle (2 * c.1 - k) (2 * c.2 - l) ↔ InCone D os c semiangle k l := by
  rw [stem_disc D h0 h1 hd os semiangle hs0 hs1, stem_disc D h0 h1 hd os semiangle hs0 hs1]
  have : ∀ x y : ℝ, (x * ((2 * c.1 - k - c.1) / os) + y * ((2 * c.2 - l - c.2) / os)) ^ 2 =
      (x * ((k - c.1) / os) + y * ((l - c.2) / os)) ^ 2 := by intro x y; ring
  rw [this, this]

/-- **C92** (centroid, what holds): on a detector perpendicular to the beam, if the aperture is not cut off by the array and the
centroid of the data is a pixel or half way between pixels, the centroid of the guess in the far field is that of the data.
Missing: other centroids (`stem_centroid_violated`). -/
theorem stem_centroid_partial (D : StemData a b) (h0 : D.basis 2 0 = 0) (h1 : D.basis 2 1 = 0) (hd : 0 < D.distance) (os semiangle : ℝ)
    (hs0 : 0 < semiangle) (hs1 : semiangle / 1000 < Real.pi / 2) (w : Wave n m) (h : D.probe os semiangle none = .ok w)
    (N0 N1 : ℕ) (hc : centroid D.meanIm = some ((N0 : ℝ) / 2, (N1 : ℝ) / 2))
    (hin : ∀ (k : ZMod n) (l : ZMod m), InCone D os ((N0 : ℝ) / 2, (N1 : ℝ) / 2) semiangle k.val l.val →
      k.val ≤ N0 ∧ N0 - k.val < n ∧ l.val ≤ N1 ∧ N1 - l.val < m) :
    centroid (fun k l => ‖farField w k l‖ ^ 2) = centroid D.meanIm := by
  classical
  obtain ⟨c, hc', ⟨s, hs, hf⟩, hmean⟩ := stem_far_field_aux D os semiangle w h
  rw [hc] at hc'
  injection hc' with hc'
  subst hc'
  have htot : ∑ i, ∑ j, D.meanIm i j ≠ 0 := by
    intro e
    unfold centroid at hc
    dsimp only at hc
    rw [if_pos e] at hc
    cases hc
  have hnm := size_pos (n := n) (m := m)
  have hab := size_pos (n := a) (m := b)
  have hsum : ∑ k, ∑ l, ‖farField w k l‖ ^ 2 ≠ 0 := by
    intro e
    rw [e, zero_div, eq_comm, div_eq_zero_iff] at hmean
    exact hmean.elim htot hab.ne'
  set f : ZMod n → ZMod m → ℝ := fun k l => ‖farField w k l‖ ^ 2 with hfdef
  have hval : ∀ (N : ℕ) (x : ℕ) [NeZero x] (k : ZMod x), k.val ≤ N → N - k.val < x → ((N : ZMod x) - k).val = N - k.val := by
    intro N x _ k e1 e2
    have : (N : ZMod x) - k = ((N - k.val : ℕ) : ZMod x) := by
      rw [Nat.cast_sub e1, ZMod.natCast_zmod_val]
    rw [this, ZMod.val_cast_of_lt e2]
  have hS : ∀ (k : ZMod n) (l : ZMod m), InCone D os ((N0 : ℝ) / 2, (N1 : ℝ) / 2) semiangle k.val l.val →
      InCone D os ((N0 : ℝ) / 2, (N1 : ℝ) / 2) semiangle ((N0 : ZMod n) - k).val ((N1 : ZMod m) - l).val := by
    intro k l hk
    obtain ⟨e1, e2, e3, e4⟩ := hin k l hk
    rw [hval N0 n k e1 e2, hval N1 m l e3 e4, Nat.cast_sub e1, Nat.cast_sub e3]
    have := (inCone_symm D h0 h1 hd os semiangle hs0 hs1 ((N0 : ℝ) / 2, (N1 : ℝ) / 2) k.val l.val).2 hk
    dsimp only at this
    rw [mul_div_cancel₀ _ two_ne_zero, mul_div_cancel₀ _ two_ne_zero] at this
    exact this
  have hfsym : ∀ k l, f ((N0 : ZMod n) - k) ((N1 : ZMod m) - l) = f k l := by
    intro k l
    simp only [hfdef, hf]
    by_cases hk : InCone D os ((N0 : ℝ) / 2, (N1 : ℝ) / 2) semiangle k.val l.val
    · rw [if_pos hk, if_pos (hS k l hk)]
    · rw [if_neg hk, if_neg]
      intro hk'
      have := hS _ _ hk'
      rw [sub_sub_cancel, sub_sub_cancel] at this
      exact hk this
  have hf0 : ∀ (k : ZMod n) (l : ZMod m), ¬ InCone D os ((N0 : ℝ) / 2, (N1 : ℝ) / 2) semiangle k.val l.val → f k l = 0 := by
    intro k l hk
    simp only [hfdef, hf]
    rw [if_neg hk]
    simp
  have refl : ∀ g : ZMod n → ZMod m → ℝ, ∑ k, ∑ l, g k l = ∑ k, ∑ l, g ((N0 : ZMod n) - k) ((N1 : ZMod m) - l) := by
    intro g
    rw [← Equiv.sum_comp (Equiv.subLeft (N0 : ZMod n)) fun k => ∑ l, g k l]
    refine sum_congr rfl fun k _ => ?_
    rw [← Equiv.sum_comp (Equiv.subLeft (N1 : ZMod m)) fun l => g _ l]
    rfl
  have hx : ∑ k, ∑ l, (k.val : ℝ) * f k l = (N0 : ℝ) / 2 * ∑ k, ∑ l, f k l := by
    have e := refl fun k l => (k.val : ℝ) * f k l
    have e2 : ∑ k, ∑ l, ((((N0 : ZMod n) - k).val : ℝ) * f ((N0 : ZMod n) - k) ((N1 : ZMod m) - l)) =
        N0 * ∑ k, ∑ l, f k l - ∑ k, ∑ l, (k.val : ℝ) * f k l := by
      rw [mul_sum, ← sum_sub_distrib]
      refine sum_congr rfl fun k _ => ?_
      rw [mul_sum, ← sum_sub_distrib]
      refine sum_congr rfl fun l _ => ?_
      rw [hfsym]
      by_cases hk : InCone D os ((N0 : ℝ) / 2, (N1 : ℝ) / 2) semiangle k.val l.val
      · obtain ⟨e1, e2, -, -⟩ := hin k l hk
        rw [hval N0 n k e1 e2, Nat.cast_sub e1]
        ring
      · rw [hf0 k l hk]; ring
    rw [e2] at e
    linarith
  have hy : ∑ k, ∑ l, (l.val : ℝ) * f k l = (N1 : ℝ) / 2 * ∑ k, ∑ l, f k l := by
    have e := refl fun k l => (l.val : ℝ) * f k l
    have e2 : ∑ k : ZMod n, ∑ l, ((((N1 : ZMod m) - l).val : ℝ) * f ((N0 : ZMod n) - k) ((N1 : ZMod m) - l)) =
        N1 * ∑ k, ∑ l, f k l - ∑ k, ∑ l, (l.val : ℝ) * f k l := by
      rw [mul_sum, ← sum_sub_distrib]
      refine sum_congr rfl fun k _ => ?_
      rw [mul_sum, ← sum_sub_distrib]
      refine sum_congr rfl fun l _ => ?_
      rw [hfsym]
      by_cases hk : InCone D os ((N0 : ℝ) / 2, (N1 : ℝ) / 2) semiangle k.val l.val
      · obtain ⟨-, -, e1, e2⟩ := hin k l hk
        rw [hval N1 m l e1 e2, Nat.cast_sub e1]
        ring
      · rw [hf0 k l hk]; ring
    rw [e2] at e
    linarith
  rw [hc, centroid_eq hsum]
  refine congrArg some (Prod.ext ?_ ?_)
  · dsimp only
    rw [hx, mul_div_assoc, div_self hsum, mul_one]
  · dsimp only
    rw [hy, mul_div_assoc, div_self hsum, mul_one]

/-! #### A dataset with square pixels -/

/-- A detector perpendicular to the beam with square pixels of size `s`. -/
def squareData (s distance wavelength : ℝ) (patterns : List (RealIm a b)) : StemData a b :=
  ⟨!![0, -s; -s, 0; 0, 0], distance, wavelength, patterns⟩

theorem squareData_disc (s distance wavelength : ℝ) (patterns : List (RealIm a b)) (hs : 0 < s) (hd : 0 < distance) (os : ℝ) (hos : 0 < os)
    (α : ℝ) (h0 : 0 < α) (h1 : α < Real.pi / 2) (c : ℝ × ℝ) (k l : ℝ) :
    InCone (squareData s distance wavelength patterns) os c (1000 * α) k l ↔
      s / os * Real.sqrt ((k - c.1) ^ 2 + (l - c.2) ^ 2) < distance * Real.tan α := by
  rw [stem_disc _ (by simp [squareData]) (by simp [squareData]) hd os _ (by positivity) (by rw [mul_div_cancel_left₀ _ (by norm_num)]; exact h1)]
  rw [mul_div_cancel_left₀ _ (by norm_num : (1000 : ℝ) ≠ 0)]
  have : ((squareData s distance wavelength patterns).basis 0 0 * ((k - c.1) / os) + (squareData s distance wavelength patterns).basis 0 1 * ((l - c.2) / os)) ^ 2 +
      ((squareData s distance wavelength patterns).basis 1 0 * ((k - c.1) / os) + (squareData s distance wavelength patterns).basis 1 1 * ((l - c.2) / os)) ^ 2 =
      (s / os) ^ 2 * ((k - c.1) ^ 2 + (l - c.2) ^ 2) := by
    simp [squareData]
    ring
  rw [this, Real.sqrt_mul (by positivity), Real.sqrt_sq (by positivity)]
  rfl

theorem far_from_pixel (i j p q : ℕ) (h : ¬ (i = p ∧ j = q)) : 1 ≤ Real.sqrt (((i : ℝ) - p) ^ 2 + ((j : ℝ) - q) ^ 2) := by
  apply Real.le_sqrt_of_sq_le
  have key : ∀ x y : ℕ, x ≠ y → (1 : ℝ) ≤ ((x : ℝ) - y) ^ 2 := by
    intro x y hxy
    have : (1 : ℤ) ≤ ((x : ℤ) - y) ^ 2 := by
      have : (x : ℤ) - y ≠ 0 := by omega
      have := pow_pos (abs_pos.2 this) 2
      rw [sq_abs] at this
      omega
    exact_mod_cast this
  rw [one_pow]
  rcases Classical.em (i = p) with e | e
  · have e2 : j ≠ q := fun e2 => h ⟨e, e2⟩
    have := key j q e2
    nlinarith [sq_nonneg ((i : ℝ) - p)]
  · have := key i p e
    nlinarith [sq_nonneg ((j : ℝ) - q)]

/-- **C92** (violated, oversampling): the centre of the aperture is in pixels of the detector, not of the finer grid. If all light of the
data falls on the pixel `(p, q)` and the cone is narrower than a fine pixel, all light of the guess is in the fine pixel with the
same numbers, which belongs to detector pixel `(p // os, q // os)`. -/
theorem stem_oversampling_violated (s distance wavelength : ℝ) (hs : 0 < s) (hd : 0 < distance) (patterns : List (RealIm a b)) (os : ℕ) (hos : 2 ≤ os)
    [NeZero (os * a)] [NeZero (os * b)] (p : ZMod a) (q : ZMod b)
    (hdark : ∀ i j, ¬ (i = p ∧ j = q) → (squareData s distance wavelength patterns).meanIm i j = 0)
    (hlight : 0 < (squareData s distance wavelength patterns).meanIm p q)
    (α : ℝ) (h0 : 0 < α) (h1 : α < Real.pi / 2) (hα : distance * Real.tan α ≤ s / os) :
    ∃ w : Wave (os * a) (os * b), (squareData s distance wavelength patterns).probe os (1000 * α) none = .ok w ∧
      (∀ k l, farField w k l ≠ 0 ↔ k.val = p.val ∧ l.val = q.val) ∧
      (p.val ≠ 0 → ∀ k l, farField w k l ≠ 0 → k.val / os ≠ p.val) := by
  classical
  set D := squareData s distance wavelength patterns with hD
  have hosr : (0 : ℝ) < os := by exact_mod_cast (by omega : 0 < os)
  have hone : ∀ g : ZMod a → ZMod b → ℝ, ∑ i, ∑ j, g i j * D.meanIm i j = g p q * D.meanIm p q := by
    intro g
    rw [sum_eq_single p, sum_eq_single q]
    · intro j _ hj
      rw [hdark p j fun e => hj e.2, mul_zero]
    · simp
    · intro i _ hi
      exact sum_eq_zero fun j _ => by rw [hdark i j fun e => hi e.1, mul_zero]
    · simp
  have htot : ∑ i, ∑ j, D.meanIm i j = D.meanIm p q := by
    have := hone fun _ _ => 1
    simpa using this
  have hc : centroid D.meanIm = some ((p.val : ℝ), (q.val : ℝ)) := by
    rw [centroid_eq (by rw [htot]; exact hlight.ne')]
    rw [htot, hone fun i _ => (i.val : ℝ), hone fun _ j => (j.val : ℝ), mul_div_assoc, mul_div_assoc, div_self hlight.ne', mul_one, mul_one]
  have hcone : ∀ (k : ZMod (os * a)) (l : ZMod (os * b)), InCone D os ((p.val : ℝ), (q.val : ℝ)) (1000 * α) k.val l.val ↔
      k.val = p.val ∧ l.val = q.val := by
    intro k l
    rw [hD, squareData_disc s distance wavelength patterns hs hd os hosr α h0 h1]
    dsimp only
    constructor
    · intro hlt
      by_contra hne
      have := far_from_pixel _ _ _ _ hne
      have : s / os ≤ s / os * Real.sqrt (((k.val : ℝ) - p.val) ^ 2 + ((l.val : ℝ) - q.val) ^ 2) :=
        le_mul_of_one_le_right (by positivity) this
      linarith
    · rintro ⟨e1, e2⟩
      rw [e1, e2]
      simp only [sub_self, ne_eq, OfNat.ofNat_ne_zero, not_false_eq_true, zero_pow, add_zero, Real.sqrt_zero, mul_zero]
      exact mul_pos hd (Real.tan_pos_of_pos_of_lt_pi_div_two h0 h1)
  have hp : p.val < os * a := lt_of_lt_of_le (ZMod.val_lt p) (Nat.le_mul_of_pos_left _ (by omega))
  have hq : q.val < os * b := lt_of_lt_of_le (ZMod.val_lt q) (Nat.le_mul_of_pos_left _ (by omega))
  obtain ⟨w, hw⟩ := stem_probe_exists (n := os * a) (m := os * b) D os (1000 * α) none _ hc (by rw [htot]; exact hlight.le)
    ((p.val : ℕ) : ZMod (os * a)) ((q.val : ℕ) : ZMod (os * b))
    (by rw [hcone, ZMod.val_cast_of_lt hp, ZMod.val_cast_of_lt hq]; exact ⟨rfl, rfl⟩)
  obtain ⟨c, hc', ⟨A, hA, hf⟩, hmean⟩ := stem_far_field_aux D os (1000 * α) w hw
  rw [hc] at hc'
  injection hc' with hc'
  subst hc'
  have hA0 : (A : ℂ) ≠ 0 := by
    intro e
    have hz : ∀ k l, farField w k l = 0 := fun k l => by rw [hf, e]; simp
    simp only [hz, norm_zero, ne_eq, OfNat.ofNat_ne_zero, not_false_eq_true, zero_pow, sum_const_zero, zero_div] at hmean
    rw [htot, eq_comm, div_eq_zero_iff] at hmean
    exact hmean.elim hlight.ne' (size_pos (n := a) (m := b)).ne'
  have hiff : ∀ k l, farField w k l ≠ 0 ↔ k.val = p.val ∧ l.val = q.val := by
    intro k l
    rw [hf, ← hcone]
    split
    · rename_i hk; exact ⟨fun _ => hk, fun _ => hA0⟩
    · rename_i hk; exact ⟨fun e => absurd rfl e, fun e => absurd e hk⟩
  refine ⟨w, hw, hiff, fun hp0 k l hkl => ?_⟩
  rw [((hiff k l).1 hkl).1]
  exact (Nat.div_lt_self (Nat.pos_of_ne_zero hp0) (by omega)).ne

/-- **C92** (violated, centroid): with the centroid of the data at two fifths of a pixel and a narrow cone, the centroid of the guess is
another. -/
theorem stem_centroid_violated : ∃ (D : StemData 2 1) (semiangle : ℝ) (w : Wave 2 1), D.probe 1 semiangle none = .ok w ∧
    centroid D.meanIm = some (2 / 5, 0) ∧ centroid (fun k l => ‖farField w k l‖ ^ 2) = some (0, 0) := by
  classical
  set pat : RealIm 2 1 := fun i _ => if i = 0 then 3 else 2 with hpat
  set D : StemData 2 1 := squareData 1 1 1 [pat] with hD
  have hmean : D.meanIm = pat := by
    funext i j
    simp [StemData.meanIm, hD, squareData]
  have S : ∀ g : ZMod 2 → ZMod 1 → ℝ, ∑ k, ∑ l, g k l = g 0 0 + g 1 0 := by
    intro g
    have u1 : ∀ f : ZMod 1 → ℝ, ∑ l, f l = f 0 := fun f => Fintype.sum_unique f
    simp only [u1]
    exact Fin.sum_univ_two fun k : ZMod 2 => g k 0
  have v0 : (0 : ZMod 2).val = 0 := rfl
  have v1 : (1 : ZMod 2).val = 1 := rfl
  have v2 : (0 : ZMod 1).val = 0 := rfl
  have p0 : pat 0 0 = 3 := rfl
  have p1 : pat 1 0 = 2 := rfl
  have hc : centroid D.meanIm = some (2 / 5, 0) := by
    rw [hmean, centroid_eq]
    · rw [S, S, S, p0, p1, v0, v1, v2]
      norm_num
    · rw [S, p0, p1]
      norm_num
  have hα0 : 0 < Real.arctan (1 / 2) := Real.arctan_pos.2 (by norm_num)
  have hcone := squareData_disc (a := 2) (b := 1) 1 1 1 [pat] one_pos one_pos 1 one_pos (Real.arctan (1 / 2)) hα0
    (Real.arctan_lt_pi_div_two _) (2 / 5, 0)
  rw [Real.tan_arctan] at hcone
  have q0 : Real.sqrt ((((0 : ℕ) : ℝ) - 2 / 5) ^ 2 + (((0 : ℕ) : ℝ) - 0) ^ 2) = 2 / 5 := by
    rw [show (((0 : ℕ) : ℝ) - 2 / 5) ^ 2 + (((0 : ℕ) : ℝ) - 0) ^ 2 = (2 / 5) ^ 2 by norm_num, Real.sqrt_sq (by norm_num)]
  have q1 : Real.sqrt ((((1 : ℕ) : ℝ) - 2 / 5) ^ 2 + (((0 : ℕ) : ℝ) - 0) ^ 2) = 3 / 5 := by
    rw [show (((1 : ℕ) : ℝ) - 2 / 5) ^ 2 + (((0 : ℕ) : ℝ) - 0) ^ 2 = (3 / 5) ^ 2 by norm_num, Real.sqrt_sq (by norm_num)]
  have h0 : InCone D 1 (2 / 5, 0) (1000 * Real.arctan (1 / 2)) ((0 : ZMod 2).val : ℝ) ((0 : ZMod 1).val : ℝ) := by
    rw [hD, hcone, v0, v2]
    dsimp only
    rw [q0]
    norm_num
  have h1 : ¬ InCone D 1 (2 / 5, 0) (1000 * Real.arctan (1 / 2)) ((1 : ZMod 2).val : ℝ) ((0 : ZMod 1).val : ℝ) := by
    rw [hD, hcone, v1, v2]
    dsimp only
    rw [q1]
    norm_num
  obtain ⟨w, hw⟩ := stem_probe_exists (n := 2) (m := 1) D 1 (1000 * Real.arctan (1 / 2)) none _ hc
    (by rw [hmean, S, p0, p1]; norm_num) 0 0 h0
  refine ⟨D, _, w, hw, hc, ?_⟩
  obtain ⟨c, hc', ⟨A, hA, hf⟩, hme⟩ := stem_far_field_aux D 1 _ w hw
  rw [hc] at hc'
  injection hc' with hc'
  subst hc'
  have f0 : farField w 0 0 = A := by rw [hf, if_pos h0]
  have f1 : farField w 1 0 = 0 := by rw [hf, if_neg h1]
  have hA0 : A ≠ 0 := by
    intro e
    rw [hmean, S, S, f0, f1, p0, p1, e] at hme
    norm_num at hme
  rw [centroid_eq]
  · rw [S, S, S, f0, f1, v0, v1, v2]
    simp
  · rw [S, f0, f1]
    simp [hA0]

/-! #### Propagation of the guess -/

/-- Propagation multiplies the far field by the propagator, both centred. -/
theorem farField_nearField (P w : Wave n m) (k : ZMod n) (l : ZMod m) :
    farField (nearField P w) k l = P (k - ((n / 2 : ℕ) : ZMod n)) (l - ((m / 2 : ℕ) : ZMod m)) * farField w k l := by
  have hroll : ∀ (v : Wave n m) (k : ZMod n) (l : ZMod m), fft2 (ifftshift2 v) k l =
      ZMod.stdAddChar (((n / 2 : ℕ) : ZMod n) * k) * ZMod.stdAddChar (((m / 2 : ℕ) : ZMod m) * l) * fft2 v k l := by
    intro v k l
    have := fft2_roll v (-((n / 2 : ℕ) : ZMod n)) (-((m / 2 : ℕ) : ZMod m)) k l
    simp only [sub_neg_eq_add, neg_mul, neg_neg] at this
    exact this
  unfold farField fftshift2
  dsimp only
  rw [hroll, hroll]
  unfold nearField
  rw [fft2_ifft2]
  ring

theorem spacing_eq (D : StemData a b) (hw : 0 < D.wavelength) (hd : 0 < D.distance) (N : ℕ) (c : Fin 2) (hb : 0 < (basisCol D.basis c).dot (basisCol D.basis c)) :
    D.spacing N c = D.wavelength * D.distance / (N * Real.sqrt ((basisCol D.basis c).dot (basisCol D.basis c))) := by
  unfold StemData.spacing
  dsimp only
  set d := Real.sqrt ((basisCol D.basis c).dot (basisCol D.basis c)) with hdd
  have hd0 : 0 < d := Real.sqrt_pos.2 hb
  have hsq : (basisCol D.basis c).dot (basisCol D.basis c) = d ^ 2 := (Real.sq_sqrt hb.le).symm
  have : Vec3.dot (fun e => D.basis e c / d * D.wavelength * D.distance / (N * d)) (fun e => D.basis e c / d * D.wavelength * D.distance / (N * d)) =
      (D.wavelength * D.distance / (N * d)) ^ 2 := by
    have e : Vec3.dot (fun e => D.basis e c / d * D.wavelength * D.distance / (N * d)) (fun e => D.basis e c / d * D.wavelength * D.distance / (N * d)) =
        (basisCol D.basis c).dot (basisCol D.basis c) / d ^ 2 * (D.wavelength * D.distance / (N * d)) ^ 2 := by
      unfold Vec3.dot basisCol
      ring
    rw [e, hsq, div_self (by positivity), one_mul]
  rw [this, Real.sqrt_sq (by positivity)]

/-- **C92** (propagation): the guess propagated by any distance has in the far field the same intensities as the guess itself, at
every pixel whose frequency propagates, and never more at the others. -/
theorem stem_probe_propagated (D : StemData a b) (hw : 0 < D.wavelength) (hd : 0 < D.distance)
    (hb : ∀ c, 0 < (basisCol D.basis c).dot (basisCol D.basis c)) (os semiangle z : ℝ) (w : Wave n m)
    (h : D.probe os semiangle none = .ok w) :
    ∃ w', D.probe os semiangle (some z) = .ok w' ∧ ∀ k l, ‖farField w' k l‖ ≤ ‖farField w k l‖ ∧
      (Propagates n m (D.spacing n 0) (D.spacing m 1) D.wavelength (k - ((n / 2 : ℕ) : ZMod n)) (l - ((m / 2 : ℕ) : ZMod m)) →
        ‖farField w' k l‖ = ‖farField w k l‖) := by
  have hn : (0 : ℝ) < n := by exact_mod_cast Nat.pos_of_ne_zero (NeZero.ne n)
  have hm : (0 : ℝ) < m := by exact_mod_cast Nat.pos_of_ne_zero (NeZero.ne m)
  have h0 : 0 < D.spacing n 0 := by
    rw [spacing_eq D hw hd n 0 (hb 0)]
    exact div_pos (mul_pos hw hd) (mul_pos hn (Real.sqrt_pos.2 (hb 0)))
  have h1 : 0 < D.spacing m 1 := by
    rw [spacing_eq D hw hd m 1 (hb 1)]
    exact div_pos (mul_pos hw hd) (mul_pos hm (Real.sqrt_pos.2 (hb 1)))
  unfold StemData.probe at h ⊢
  cases hp : (D.probeFft os semiangle : Except String (Wave n m)) with
  | error e => rw [hp] at h; cases h
  | ok x =>
    rw [hp] at h
    injection h with h
    refine ⟨_, rfl, fun k l => ?_⟩
    dsimp only at h ⊢
    rw [h, farField_nearField, norm_mul]
    have g := angular_spectrum_group (n := n) (m := m) _ _ _ h0 h1 hw (k - ((n / 2 : ℕ) : ZMod n)) (l - ((m / 2 : ℕ) : ZMod m))
    dsimp only at g
    refine ⟨mul_le_of_le_one_left (norm_nonneg _) (g.2.2.2.2.1 z), fun hpr => ?_⟩
    rw [(g.2.2.1 hpr z).1, one_mul]

/-- **C92** (violated, oversampled propagation): the pixel size used for the propagation is that of the detector basis `b`, `λ d / (N |b|)`,
although the grid of the aperture has the basis `b / os`; for every oversampling but 1 it is not the pixel size of that grid. -/
theorem stem_spacing_violated (D : StemData a b) (hw : 0 < D.wavelength) (hd : 0 < D.distance) (N : ℕ) (hN : 0 < N) (c : Fin 2)
    (hb : 0 < (basisCol D.basis c).dot (basisCol D.basis c)) (os : ℝ) (hos : 0 < os) :
    D.spacing N c = D.wavelength * D.distance / (N * (Real.sqrt ((basisCol D.basis c).dot (basisCol D.basis c)) / os)) ↔ os = 1 := by
  rw [spacing_eq D hw hd N c hb]
  have h1 := Real.sqrt_pos.2 hb
  have h2 : (0 : ℝ) < N := by exact_mod_cast hN
  set d := Real.sqrt ((basisCol D.basis c).dot (basisCol D.basis c))
  have : D.wavelength * D.distance / (N * (d / os)) = os * (D.wavelength * D.distance / (N * d)) := by
    field_simp
  rw [this]
  have hpos : 0 < D.wavelength * D.distance / (N * d) := by positivity
  constructor
  · intro e
    have : (os - 1) * (D.wavelength * D.distance / (N * d)) = 0 := by linarith
    rcases mul_eq_zero.1 this with e | e
    · linarith
    · exact absurd e hpos.ne'
  · rintro rfl
    rw [one_mul]

end Cdtools

namespace Cdtools
open Finset

variable {n m a b : ℕ} [NeZero n] [NeZero m] [NeZero a] [NeZero b]

/-! ### C93 -/

/-- **C93** (geometry): without a focus (`propagation_distance` absent or zero) the sample pixels are `1 / os` of the detector pixels and the
light propagates by the distance. With a focus at distance `p` before the sample, the detector pixels are `M os` times the sample pixels with
the magnification `M = (p + d) / p`, and propagation by `z` without magnification is equivalent to the actual one: for all transverse
positions, the paraxial path from the focus over the sample point `x` to the detector point `X` is the path from the demagnified point `X / M`
at distance `z`, up to the curvature `X² / 2 (p + d)` of the detector plane (Fresnel scaling). -/
theorem near_geometry_fresnel (B : Matrix (Fin 3) (Fin 2) ℝ) (d : ℝ) (os : ℕ) (hos : 0 < os) :
    (∀ prop, prop = none ∨ prop = some 0 → ∃ G, nearGeometry B d prop os = .ok G ∧ G.z = d ∧ ∀ i c, B i c = os * G.basis i c) ∧
    (∀ p, p ≠ 0 → d ≠ 0 → p + d ≠ 0 → ∃ G, nearGeometry B d (some p) os = .ok G ∧ (∀ i c, B i c = os * ((p + d) / p) * G.basis i c) ∧
      G.z ≠ 0 ∧ ∀ x X : ℝ, x ^ 2 / (2 * p) + (X - x) ^ 2 / (2 * d) = X ^ 2 / (2 * (p + d)) + (x - X / ((p + d) / p)) ^ 2 / (2 * G.z)) := by
  have hos' : (os : ℝ) ≠ 0 := by exact_mod_cast hos.ne'
  constructor
  · rintro prop (rfl | rfl)
    · refine ⟨_, rfl, rfl, fun i c => ?_⟩
      simp only [Matrix.of_apply]
      field_simp
    · refine ⟨_, by unfold nearGeometry; dsimp only; rw [if_pos rfl], rfl, fun i c => ?_⟩
      simp only [Matrix.of_apply]
      field_simp
  · intro p hp hd hpd
    have hM : (p + d) / p ≠ 0 := div_ne_zero hpd hp
    refine ⟨_, by unfold nearGeometry; dsimp only; rw [if_neg hp, if_neg hM], fun i c => ?_, div_ne_zero hd hM, fun x X => ?_⟩
    · simp only [Matrix.of_apply]
      field_simp
    · dsimp only
      field_simp
      ring

/-- A frequency that reaches the detector: its in-plane wavenumber on the grid of `G` is at most the wavenumber. -/
def NearGeometry.Reaches (G : NearGeometry) (wavelength : ℝ) (n m : ℕ) (k : ZMod n) (l : ZMod m) : Prop :=
  let K := inPlaneK (basisCol G.basis 0) (basisCol G.basis 1) wavelength ![0, 0, 0] none (2 * Real.pi * fftfreq n k) (2 * Real.pi * fftfreq m l)
  K.dot K ≤ (2 * Real.pi / wavelength) ^ 2

theorem near_propagator_norm (G : NearGeometry) (wl : ℝ) (hw : 0 < wl) (k : ZMod n) (l : ZMod m) (h : G.Reaches wl n m k l) :
    ‖G.propagator wl n m k l‖ = 1 := by
  unfold NearGeometry.propagator
  rw [generalized_norm _ _ wl hw]
  have him : ∀ perp, (csqrt ((2 * Real.pi / wl) ^ 2 - (inPlaneK (basisCol G.basis 0) (basisCol G.basis 1) wl perp none (2 * Real.pi * fftfreq n k) (2 * Real.pi * fftfreq m l)).dot
      (inPlaneK (basisCol G.basis 0) (basisCol G.basis 1) wl perp none (2 * Real.pi * fftfreq n k) (2 * Real.pi * fftfreq m l)))).im = 0 := by
    intro perp
    have h' : 0 ≤ (2 * Real.pi / wl) ^ 2 - (inPlaneK (basisCol G.basis 0) (basisCol G.basis 1) wl perp none (2 * Real.pi * fftfreq n k) (2 * Real.pi * fftfreq m l)).dot
      (inPlaneK (basisCol G.basis 0) (basisCol G.basis 1) wl perp none (2 * Real.pi * fftfreq n k) (2 * Real.pi * fftfreq m l)) := sub_nonneg.2 h
    unfold csqrt
    rw [if_pos h']
    exact Complex.ofReal_im _
  rw [him]
  simp

/-- **C93** (initial probe without oversampling): if all frequencies reach the detector, the initial probe propagated by the model with
no sample gives at every detector pixel the mean of the unmasked data, less the background, but not below zero. -/
theorem near_initial_probe (G : NearGeometry) (wl : ℝ) (hw : 0 < wl) (hr : ∀ k l, G.Reaches wl n m k l) (mask : RealIm n m)
    (patterns : List (RealIm n m)) (hmask : ∀ i j, 0 ≤ mask i j) (hdata : ∀ p ∈ patterns, ∀ i j, 0 ≤ p i j) (background : Option (RealIm n m)) (i : ZMod n) (j : ZMod m) :
    ‖nearField (G.propagator wl n m) (sharpNearGuess (G.backward wl) mask patterns background) i j‖ ^ 2 =
      max ((patterns.map fun p => mask i j * p i j).sum / patterns.length - (background.getD fun _ _ => 0) i j) 0 := by
  have h := (near_field_unitary (G.propagator wl n m) (fun k l => near_propagator_norm G wl hw k l (hr k l))
    (fun k l => (Real.sqrt (sharpIntensities mask patterns background k l) : ℂ))).2.2
  have hg : sharpNearGuess (G.backward wl) mask patterns background =
      inverseNearField (G.propagator wl n m) fun k l => (Real.sqrt (sharpIntensities mask patterns background k l) : ℂ) := by
    unfold sharpNearGuess NearGeometry.backward nearField inverseNearField
    simp only [mul_comm]
  rw [hg, h]
  have hmean : 0 ≤ (patterns.map fun p => mask i j * p i j).sum / patterns.length := by
    apply div_nonneg _ (Nat.cast_nonneg _)
    apply List.sum_nonneg
    intro x hx
    obtain ⟨p, hp, rfl⟩ := List.mem_map.1 hx
    exact mul_nonneg (hmask i j) (hdata p hp i j)
  have hI : sharpIntensities mask patterns background i j =
      max ((patterns.map fun p => mask i j * p i j).sum / patterns.length - (background.getD fun _ _ => 0) i j) 0 := by
    unfold sharpIntensities
    cases background with
    | none => simp [max_eq_left hmean]
    | some b => rfl
  rw [Complex.norm_real, Real.norm_eq_abs, sq_abs, Real.sq_sqrt (by rw [hI]; exact le_max_right _ _), hI]

/-- The far field of an upsampled image: that of the image, padded. -/
theorem farField_upsample (u : ℕ) [NeZero u] [NeZero (u * n)] [NeZero (u * m)] (im : Wave n m) (k l : ℕ) (hk : k < n) (hl : l < m) :
    farField (fourierUpsample u false im) (((u - 1) * n / 2 + k : ℕ) : ZMod (u * n)) (((u - 1) * m / 2 + l : ℕ) : ZMod (u * m)) =
      farField im (k : ZMod n) (l : ZMod m) := by
  have hu := Nat.pos_of_ne_zero (NeZero.ne u)
  have l0 := left_le (n := n) hu
  have l1 := left_le (n := m) hu
  unfold fourierUpsample
  rw [far_field_unitary.2.1]
  rw [ZMod.val_cast_of_lt (by omega), ZMod.val_cast_of_lt (by omega), if_pos (by omega)]
  simp

theorem squareBasis_propagator (s : ℝ) (z : ℝ) (hz : 0 ≤ z) (wl : ℝ) (N M : ℕ) (k : ZMod N) (l : ZMod M) :
    (NearGeometry.mk !![0, -s; -s, 0; 0, 0] z).propagator wl N M k l = angularSpectrum N M s s wl z none k l := by
  unfold NearGeometry.propagator angularSpectrum
  dsimp only
  rw [if_neg (not_lt.2 hz)]
  have h0 : basisCol !![0, -s; -s, 0; 0, 0] 0 = ![0, -s, 0] := by
    funext i; fin_cases i <;> rfl
  have h1 : basisCol !![0, -s; -s, 0; 0, 0] 1 = ![-s, 0, 0] := by
    funext i; fin_cases i <;> rfl
  rw [h0, h1]

/-- **C93** (violated, oversampling): with oversampling the data are propagated back with the pixel size of the finer grid. For every
oversampling of at least 2, every even detector of square pixels of at least 4 x 4 and every wavelength small enough, there is a distance at which the
initial probe, propagated by the model to the detector, has the zero order of the measured amplitude, and the first order with
the opposite sign. -/
theorem near_oversampled_violated (os : ℕ) [NeZero os] (hos : 2 ≤ os) [NeZero (os * n)] [NeZero (os * m)] (hn : 4 ≤ n) (he : Even n) (hme : Even m)
    (s wl : ℝ) (hs : 0 < s) (hw : 0 < wl) (hsmall : os * wl ≤ n * s) :
    ∃ d : ℝ, 0 < d ∧ ∃ G, nearGeometry !![0, -s; -s, 0; 0, 0] d none os = .ok G ∧
      ∀ mask patterns background,
        let seen : Wave (os * n) (os * m) := nearField (G.propagator wl (os * n) (os * m)) (sharpNearOversampled os (G.backward wl) mask patterns background)
        let data : Wave n m := fun k l => (Real.sqrt (sharpIntensities mask patterns background k l) : ℂ)
        farField seen ((os * n / 2 : ℕ) : ZMod (os * n)) ((os * m / 2 : ℕ) : ZMod (os * m)) =
          farField data ((n / 2 : ℕ) : ZMod n) ((m / 2 : ℕ) : ZMod m) ∧
        farField seen ((os * n / 2 + 1 : ℕ) : ZMod (os * n)) ((os * m / 2 : ℕ) : ZMod (os * m)) =
          -farField data ((n / 2 + 1 : ℕ) : ZMod n) ((m / 2 : ℕ) : ZMod m) := by
  have hosr : (2 : ℝ) ≤ os := by exact_mod_cast hos
  have hos0 : (0 : ℝ) < os := by linarith
  have hnr : (0 : ℝ) < n := by exact_mod_cast (by omega : 0 < n)
  have hpi := Real.pi_pos
  set k0 : ℝ := 2 * Real.pi / wl with hk0
  have hk0p : 0 < k0 := by positivity
  set K : ℝ := 2 * Real.pi / (n * s) with hK
  have hKp : 0 < K := by positivity
  have hKk : os * K ≤ k0 := by
    rw [hK, hk0, ← mul_div_assoc, div_le_div_iff₀ (by positivity) hw]
    nlinarith
  have hKlt : K ^ 2 < (os * K) ^ 2 := by
    rw [mul_pow]
    have : (1 : ℝ) < (os : ℝ) ^ 2 := by nlinarith
    nlinarith [sq_nonneg K, pow_pos hKp 2]
  have hKle : (os * K) ^ 2 ≤ k0 ^ 2 := pow_le_pow_left₀ (by positivity) hKk 2
  set A : ℝ := Real.sqrt (k0 ^ 2 - K ^ 2) with hA
  set B : ℝ := Real.sqrt (k0 ^ 2 - (os * K) ^ 2) with hB
  have hAB : B < A := Real.sqrt_lt_sqrt (by linarith) (by linarith)
  set d : ℝ := Real.pi / (A - B) with hd
  have hdp : 0 < d := div_pos hpi (by linarith)
  refine ⟨d, hdp, ⟨!![0, -(s / os); -(s / os), 0; 0, 0], d⟩, ?_, fun mask patterns background => ?_⟩
  · unfold nearGeometry
    dsimp only
    congr 2
    ext i c
    fin_cases i <;> fin_cases c <;> simp [neg_div]
  set G : NearGeometry := ⟨!![0, -(s / os); -(s / os), 0; 0, 0], d⟩ with hG
  have hso : 0 < s / os := by positivity
  have hP : ∀ (N M : ℕ) [NeZero N] [NeZero M] (k : ZMod N) (l : ZMod M), transverse2 N M (s / os) (s / os) k l ≤ k0 ^ 2 →
      G.propagator wl N M k l = Complex.exp (Complex.I * (d : ℂ) * ((Real.sqrt (k0 ^ 2 - transverse2 N M (s / os) (s / os) k l) : ℂ) - (k0 : ℂ))) := by
    intro N M _ _ k l hle
    rw [hG, squareBasis_propagator _ _ hdp.le, angularSpectrum_eq _ _ _ _ hso hso hw]
    dsimp only
    rw [if_neg (not_lt.2 hdp.le), abs_of_pos hdp, ← hk0]
    unfold csqrt
    rw [if_pos (sub_nonneg.2 hle)]
  have hl0 := aligned_left (by omega : 0 < os) (Or.inl he : Aligned os n)
  have hl1 := aligned_left (by omega : 0 < os) (Or.inl hme : Aligned os m)
  have hf0 : ∀ (N : ℕ) [NeZero N], fftfreq N 0 = 0 := by
    intro N _
    unfold fftfreq
    rw [ZMod.val_zero, if_pos (by have := Nat.pos_of_ne_zero (NeZero.ne N); omega)]
    simp
  have hf1 : ∀ (N : ℕ), 3 ≤ N → fftfreq N 1 = 1 / N := by
    intro N hN
    unfold fftfreq
    haveI : Fact (1 < N) := ⟨by omega⟩
    rw [ZMod.val_one, if_pos (by omega)]
    simp
  have hNbig : 3 ≤ os * n := le_trans (by omega : 3 ≤ n) (Nat.le_mul_of_pos_left _ (by omega))
  have hT0 : ∀ (N M : ℕ) [NeZero N] [NeZero M], transverse2 N M (s / os) (s / os) 0 0 = 0 := by
    intro N M _ _
    unfold transverse2
    rw [hf0, hf0]
    simp
  have hTc : transverse2 n m (s / os) (s / os) 1 0 = (os * K) ^ 2 := by
    unfold transverse2
    rw [hf1 n (by omega), hf0, hK]
    field_simp
    ring
  have hTf : transverse2 (os * n) (os * m) (s / os) (s / os) 1 0 = K ^ 2 := by
    unfold transverse2
    rw [hf1 (os * n) hNbig, hf0, hK]
    push_cast
    field_simp
    ring
  have hz : ∀ (N M : ℕ) [NeZero N] [NeZero M], G.propagator wl N M 0 0 = 1 := by
    intro N M _ _
    rw [hP N M 0 0 (by rw [hT0]; positivity), hT0, sub_zero, Real.sqrt_sq hk0p.le]
    simp
  dsimp only
  set data : Wave n m := fun k l => (Real.sqrt (sharpIntensities mask patterns background k l) : ℂ) with hdata
  have hm0 : 0 < m := Nat.pos_of_ne_zero (NeZero.ne m)
  have chain : ∀ e : ℕ, n / 2 + e < n →
      farField (nearField (G.propagator wl (os * n) (os * m)) (sharpNearOversampled os (G.backward wl) mask patterns background))
        ((os * n / 2 + e : ℕ) : ZMod (os * n)) ((os * m / 2 : ℕ) : ZMod (os * m)) =
      G.propagator wl (os * n) (os * m) (e : ZMod (os * n)) 0 * ((starRingEnd ℂ) (G.propagator wl n m (e : ZMod n) 0) *
        farField data ((n / 2 + e : ℕ) : ZMod n) ((m / 2 : ℕ) : ZMod m)) := by
    intro e hlt
    rw [farField_nearField, sub_self]
    have e1 : ((os * n / 2 + e : ℕ) : ZMod (os * n)) - ((os * n / 2 : ℕ) : ZMod (os * n)) = (e : ZMod (os * n)) := by
      push_cast; ring
    rw [e1]
    congr 1
    unfold sharpNearOversampled
    have e2 : os * n / 2 + e = (os - 1) * n / 2 + (n / 2 + e) := by omega
    rw [e2, ← hl1, farField_upsample os _ _ _ hlt (by omega)]
    unfold sharpNearGuess NearGeometry.backward
    rw [farField_nearField, sub_self]
    have e3 : ((n / 2 + e : ℕ) : ZMod n) - ((n / 2 : ℕ) : ZMod n) = (e : ZMod n) := by
      push_cast; ring
    rw [e3]
  constructor
  · have := chain 0 (by omega)
    rw [Nat.add_zero, Nat.add_zero] at this
    rw [this, Nat.cast_zero, Nat.cast_zero, hz, hz]
    simp
  · rw [chain 1 (by omega), Nat.cast_one, Nat.cast_one, hP n m 1 0 (by rw [hTc]; exact hKle), hP (os * n) (os * m) 1 0 (by rw [hTf]; linarith), hTc, hTf,
      ← Complex.exp_conj, ← mul_assoc, ← Complex.exp_add, ← hA, ← hB]
    have hex : Complex.I * (d : ℂ) * ((A : ℂ) - (k0 : ℂ)) + (starRingEnd ℂ) (Complex.I * (d : ℂ) * ((B : ℂ) - (k0 : ℂ))) = Real.pi * Complex.I := by
      simp only [map_mul, map_sub, Complex.conj_I, Complex.conj_ofReal]
      have : d * (A - B) = Real.pi := div_mul_cancel₀ _ (by linarith)
      rw [← this]
      push_cast
      ring
    rw [hex, Complex.exp_pi_mul_I, neg_one_mul]

/-! ### Non-vacuity -/

/-- All light in one pixel of a 4 x 4 detector. -/
example : ∀ i j : ZMod 4, ¬ (i = 2 ∧ j = 1) → (squareData (a := 4) (b := 4) 1 1 1 [fun i j => if i = 2 ∧ j = 1 then 5 else 0]).meanIm i j = 0 := by
  intro i j h
  simp [StemData.meanIm, squareData, h]

/-- A centred 3 x 3 dataset with a disc of radius 1.2 pixels meets the hypotheses of `stem_centroid_partial`: there is a guess, its aperture is
not cut off (and has dark pixels, the corners). -/
example : ∃ (D : StemData 3 3) (w : Wave 3 3), D.probe 1 (1000 * Real.arctan 1.2) none = .ok w ∧
    centroid D.meanIm = some (((2 : ℕ) : ℝ) / 2, ((2 : ℕ) : ℝ) / 2) ∧
    (∀ k l : ZMod 3, InCone D 1 (((2 : ℕ) : ℝ) / 2, ((2 : ℕ) : ℝ) / 2) (1000 * Real.arctan 1.2) k.val l.val → k.val ≤ 2 ∧ 2 - k.val < 3 ∧ l.val ≤ 2 ∧ 2 - l.val < 3) ∧
    ¬ InCone D 1 (((2 : ℕ) : ℝ) / 2, ((2 : ℕ) : ℝ) / 2) (1000 * Real.arctan 1.2) ((0 : ZMod 3).val : ℝ) ((0 : ZMod 3).val : ℝ) := by
  set D : StemData 3 3 := squareData 1 1 1 [fun _ _ => 1] with hD
  have hmean : D.meanIm = fun _ _ => 1 := by
    funext i j
    simp [StemData.meanIm, hD, squareData]
  have S : ∀ g : ZMod 3 → ZMod 3 → ℝ, ∑ k, ∑ l, g k l = (g 0 0 + g 0 1 + g 0 2) + (g 1 0 + g 1 1 + g 1 2) + (g 2 0 + g 2 1 + g 2 2) := by
    intro g
    have u1 : ∀ f : ZMod 3 → ℝ, ∑ l, f l = f 0 + f 1 + f 2 := fun f => Fin.sum_univ_three f
    rw [u1, u1, u1, u1]
  have v0 : (0 : ZMod 3).val = 0 := rfl
  have v1 : (1 : ZMod 3).val = 1 := rfl
  have v2 : (2 : ZMod 3).val = 2 := rfl
  have hc : centroid D.meanIm = some (((2 : ℕ) : ℝ) / 2, ((2 : ℕ) : ℝ) / 2) := by
    rw [hmean, centroid_eq]
    · rw [S, S, S, v0, v1, v2]
      norm_num
    · rw [S]
      norm_num
  have hα0 : 0 < Real.arctan 1.2 := Real.arctan_pos.2 (by norm_num)
  have hcone := squareData_disc (a := 3) (b := 3) 1 1 1 [fun _ _ => 1] one_pos one_pos 1 one_pos (Real.arctan 1.2) hα0
    (Real.arctan_lt_pi_div_two _) (((2 : ℕ) : ℝ) / 2, ((2 : ℕ) : ℝ) / 2)
  rw [Real.tan_arctan] at hcone
  obtain ⟨w, hw⟩ := stem_probe_exists (n := 3) (m := 3) D 1 (1000 * Real.arctan 1.2) none _ hc
    (by rw [hmean, S]; norm_num) 1 1 (by rw [hD, hcone, v1]; norm_num)
  have hall : ∀ k l : ZMod 3, k.val ≤ 2 ∧ 2 - k.val < 3 ∧ l.val ≤ 2 ∧ 2 - l.val < 3 := by decide
  refine ⟨D, w, hw, hc, fun k l _ => hall k l, ?_⟩
  rw [hD, hcone, v0, not_lt]
  have : (1.2 : ℝ) ≤ Real.sqrt 2 := Real.le_sqrt_of_sq_le (by norm_num)
  norm_num at this ⊢
  exact this

example : (NearGeometry.mk !![0, -1; -1, 0; 0, 0] 1).Reaches 1 1 1 0 0 := by
  unfold NearGeometry.Reaches inPlaneK
  simp [Vec3.dot, fftfreq]
  positivity

end Cdtools
