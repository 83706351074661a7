/-
C89–C91: units and positions in plots, colors of complex numbers, and figures that are redrawn.
-/
import Verif.Model.Plotting
import Mathlib.Tactic.Ring
import Mathlib.Tactic.Linarith
import Mathlib.Tactic.Positivity
import Mathlib.Tactic.FieldSimp
import Mathlib.Tactic.NormNum
import Mathlib.Tactic.FinCases
import Mathlib.Tactic.IntervalCases
import Mathlib.LinearAlgebra.Matrix.ToLin

set_option linter.unusedSectionVars false
set_option linter.unusedSimpArgs false

namespace Cdtools.Plot
open Matrix

/-! ### C89: units -/

/-- The unit names and how many metres each of them is. -/
noncomputable def unitTable : List (String × ℝ) :=
  [("m", 1), ("cm", 1 / 10 ^ 2), ("mm", 1 / 10 ^ 3), ("um", 1 / 10 ^ 6), ("$\\mu$m", 1 / 10 ^ 6), ("nm", 1 / 10 ^ 9), ("a", 1 / 10 ^ 10), ("pm", 1 / 10 ^ 12)]

theorem lower_self {s : String} (h : s.toList.map Char.toLower = s.toList) (t : String)
    (ht : t.toList.map Char.toLower = s.toList) : t.toList.map Char.toLower = s.toList.map Char.toLower := by rw [h, ht]

/-- **C89** (units): for the units of the table, in upper or lower case, the factor times the length of the unit is one metre. -/
theorem units_factor (e : String × ℝ) (he : e ∈ unitTable) (s : String)
    (hs : s.toList.map Char.toLower = e.1.toList) : ∃ f, unitsFactor s = .ok f ∧ 0 < f ∧ f * e.2 = 1 := by
  unfold unitsFactor
  dsimp only
  rw [hs]
  simp only [unitTable, List.mem_cons, List.not_mem_nil, or_false] at he
  rcases he with rfl | rfl | rfl | rfl | rfl | rfl | rfl | rfl
  all_goals
    simp
    try norm_num

/-- **C89** (violated): for any other name the function raises UnboundLocalError instead of telling that the unit is unknown,
and so do the plots. -/
theorem units_unknown_violated (s : String) (hs : ∀ e ∈ unitTable, s.toList.map Char.toLower ≠ e.1.toList) :
    unitsFactor s = .error (.other 0) ∧ (∀ B V, Place.transform ⟨B, V, s⟩ = .error "UnboundLocalError") ∧
    (∀ F c i ts, plotTranslations F c i s ts = .error "UnboundLocalError") := by
  have h : unitsFactor s = .error (.other 0) := by
    unfold unitsFactor
    dsimp only
    simp only [unitTable, List.mem_cons, List.not_mem_nil, or_false, forall_eq_or_imp, forall_eq] at hs
    obtain ⟨h1, h2, h3, h4, h5, h6, h7, h8⟩ := hs
    rw [if_neg h1, if_neg h2, if_neg h3, if_neg (by rintro (h | h); exacts [h4 h, h5 h]), if_neg h6, if_neg h7, if_neg h8]
  refine ⟨h, fun B V => ?_, fun F c i ts => ?_⟩
  · unfold Place.transform; rw [h]
  · unfold plotTranslations; rw [h]

/-! ### C89: positions -/

theorem dot_self_pos {a : Vec3} (h : a ≠ 0) : 0 < a.dot a := by
  unfold Vec3.dot
  by_contra hc
  have h0 : a 0 = 0 := by nlinarith [mul_self_nonneg (a 0), mul_self_nonneg (a 1), mul_self_nonneg (a 2)]
  have h1 : a 1 = 0 := by nlinarith [mul_self_nonneg (a 0), mul_self_nonneg (a 1), mul_self_nonneg (a 2)]
  have h2 : a 2 = 0 := by nlinarith [mul_self_nonneg (a 0), mul_self_nonneg (a 1), mul_self_nonneg (a 2)]
  exact h (by funext i; fin_cases i <;> simp [h0, h1, h2])

theorem unit_scale (c : ℝ) (hc : 0 < c) (a : Vec3) : Vec3.unit (fun i => c * a i) = a.unit := by
  have e : Vec3.dot (fun i => c * a i) (fun i => c * a i) = c ^ 2 * a.dot a := by unfold Vec3.dot; ring
  funext i
  unfold Vec3.unit
  rw [e, Real.sqrt_mul (sq_nonneg c), Real.sqrt_sq hc.le, mul_div_mul_left _ _ hc.ne']

theorem unit_dot (a : Vec3) (h : a ≠ 0) : a.unit.dot a.unit = 1 := by
  have hp := dot_self_pos h
  have e : a.unit.dot a.unit = a.dot a / (Real.sqrt (a.dot a) * Real.sqrt (a.dot a)) := by
    unfold Vec3.unit Vec3.dot; ring
  rw [e, Real.mul_self_sqrt hp.le, div_self hp.ne']

theorem cross_ne_zero_left {a b : Vec3} (h : Vec3.cross a b ≠ 0) : a ≠ 0 := by
  rintro rfl; apply h; funext i; fin_cases i <;> simp [Vec3.cross]

theorem cross_ne_zero_right {a b : Vec3} (h : Vec3.cross a b ≠ 0) : b ≠ 0 := by
  rintro rfl; apply h; funext i; fin_cases i <;> simp [Vec3.cross]

/-- The part of `a` perpendicular to a unit vector `x`. -/
def perpPart (x a : Vec3) : Vec3 := fun i => a i - a.dot x * x i

/-- The axes of the plot. -/
theorem orthoView_eq (B : Matrix (Fin 3) (Fin 2) ℝ) (h : Vec3.cross (basisCol B 0) (basisCol B 1) ≠ 0) :
    orthoView B = ((perpPart (basisCol B 1).unit (basisCol B 0)).unit, (basisCol B 1).unit) ∧
    perpPart (basisCol B 1).unit (basisCol B 0) ≠ 0 := by
  have hb0 := cross_ne_zero_left h
  have hb1 := cross_ne_zero_right h
  set b0 := basisCol B 0 with hB0
  set x := (basisCol B 1).unit with hx
  have hxx : x.dot x = 1 := unit_dot _ hb1
  have h1 : 0 < Real.sqrt ((basisCol B 1).dot (basisCol B 1)) := Real.sqrt_pos.2 (dot_self_pos hb1)
  have hxb : ∀ i, basisCol B 1 i = Real.sqrt ((basisCol B 1).dot (basisCol B 1)) * x i := by
    intro i; rw [hx]; unfold Vec3.unit; field_simp
  have hc : Vec3.cross x b0 ≠ 0 := by
    intro hc
    apply h
    have e : ∀ i, Vec3.cross b0 (basisCol B 1) i = -(Real.sqrt ((basisCol B 1).dot (basisCol B 1)) * Vec3.cross x b0 i) := by
      intro i
      fin_cases i <;> simp [Vec3.cross] <;> simp only [hxb] <;> ring
    funext i
    rw [e, hc]; simp
  have hw : perpPart x b0 ≠ 0 := by
    intro hw
    apply hc
    have e : ∀ i, b0 i = b0.dot x * x i := fun i => by
      have := congrFun hw i
      simp only [perpPart, Pi.zero_apply] at this
      linarith
    funext i
    have e0 := e 0
    have e1 := e 1
    have e2 := e 2
    fin_cases i <;> simp [Vec3.cross]
    · linear_combination x 1 * e2 - x 2 * e1
    · linear_combination x 2 * e0 - x 0 * e2
    · linear_combination x 0 * e1 - x 1 * e0
  refine ⟨?_, hw⟩
  unfold orthoView
  dsimp only
  rw [← hB0, ← hx]
  refine Prod.ext ?_ rfl
  dsimp only
  have hs0 : 0 < Real.sqrt (b0.dot b0) := Real.sqrt_pos.2 (dot_self_pos hb0)
  have e1 : Vec3.cross x b0.unit = fun i => (1 / Real.sqrt (b0.dot b0)) * Vec3.cross x b0 i := by
    funext i
    fin_cases i <;> simp [Vec3.cross, Vec3.unit] <;> ring
  rw [e1, unit_scale _ (by positivity)]
  have hs1 : 0 < Real.sqrt ((Vec3.cross x b0).dot (Vec3.cross x b0)) := Real.sqrt_pos.2 (dot_self_pos hc)
  have e2 : Vec3.cross (Vec3.cross x b0).unit x =
      fun i => (1 / Real.sqrt ((Vec3.cross x b0).dot (Vec3.cross x b0))) * perpPart x b0 i := by
    have e3 : ∀ i, Vec3.cross (Vec3.cross x b0) x i = perpPart x b0 i := by
      intro i
      unfold perpPart
      have : b0 i = x.dot x * b0 i := by rw [hxx, one_mul]
      rw [this]
      fin_cases i <;> simp [Vec3.cross, Vec3.dot] <;> ring
    funext i
    rw [← e3 i]
    generalize Vec3.cross x b0 = y
    fin_cases i <;> simp [Vec3.cross, Vec3.unit] <;> ring
  rw [e2, unit_scale _ (by positivity)]

theorem transformMatrix_orthonormal (x y : Vec3) (B : Matrix (Fin 3) (Fin 2) ℝ) (hx : x.dot x = 1) (hy : y.dot y = 1)
    (hxy : x.dot y = 0) (row column : ℝ) :
    drawnAt (transformMatrix (y, x) B) row column =
      ![x.dot fun i => row * B i 0 + column * B i 1, y.dot fun i => row * B i 0 + column * B i 1] := by
  have hV : (flipped (y, x)).transpose * flipped (y, x) = 1 := by
    unfold Vec3.dot at hx hy hxy
    ext i j
    rw [Matrix.mul_apply, Fin.sum_univ_three]
    fin_cases i <;> fin_cases j <;> simp [flipped] <;> linarith
  unfold transformMatrix drawnAt
  dsimp only
  rw [hV, inv_one, one_mul]
  funext i
  rw [Matrix.mulVec, dotProduct, Fin.sum_univ_two]
  simp only [Matrix.mul_apply, Fin.sum_univ_three]
  fin_cases i <;> simp [flipped, Vec3.dot, basisCol] <;> ring

/-- **C89** (positions): for every image basis with independent columns and every known unit, an image is drawn to scale in its own
plane: there are perpendicular unit vectors, one along the columns of the image and the other on the side of its rows, such that
the point `(row, column)` of the image is drawn at the coordinates of its true position `row * b0 + column * b1`, in the unit
of the plot; hence all distances in the plot are the true distances. -/
theorem plot_positions (P : Place) (hv : P.view = none) (hb : Vec3.cross (basisCol P.basis 0) (basisCol P.basis 1) ≠ 0)
    (f : ℝ) (hf : unitsFactor P.units = .ok f) (hpos : 0 < f) :
    ∃ T, P.transform = .ok T ∧ ∃ x y : Vec3, x.dot x = 1 ∧ y.dot y = 1 ∧ x.dot y = 0 ∧
      (∃ c > 0, ∀ i, P.basis i 1 = c * x i) ∧ 0 < (y.dot fun i => P.basis i 0) ∧
      (∀ row column i, drawnAt T row column 0 * x i + drawnAt T row column 1 * y i =
        f * (row * P.basis i 0 + column * P.basis i 1)) ∧
      (∀ r c r' c', (drawnAt T r c 0 - drawnAt T r' c' 0) ^ 2 + (drawnAt T r c 1 - drawnAt T r' c' 1) ^ 2 =
        f ^ 2 * ∑ i, ((r - r') * P.basis i 0 + (c - c') * P.basis i 1) ^ 2) := by
  set B : Matrix (Fin 3) (Fin 2) ℝ := Matrix.of fun i c => P.basis i c * f with hB
  have hcB : Vec3.cross (basisCol B 0) (basisCol B 1) ≠ 0 := by
    intro h
    apply hb
    have e : ∀ i, Vec3.cross (basisCol B 0) (basisCol B 1) i = f ^ 2 * Vec3.cross (basisCol P.basis 0) (basisCol P.basis 1) i := by
      intro i
      fin_cases i <;> simp [Vec3.cross, basisCol, hB] <;> ring
    funext i
    have := e i
    rw [h] at this
    simpa [hpos.ne'] using this.symm
  obtain ⟨hview, hw⟩ := orthoView_eq B hcB
  have hb1 := cross_ne_zero_right hcB
  set x := (basisCol B 1).unit with hx
  set wv := perpPart x (basisCol B 0) with hwv
  set y := wv.unit with hy
  have hxx : x.dot x = 1 := unit_dot _ hb1
  have hyy : y.dot y = 1 := unit_dot _ hw
  have hn1 : 0 < Real.sqrt ((basisCol B 1).dot (basisCol B 1)) := Real.sqrt_pos.2 (dot_self_pos hb1)
  have hnw : 0 < Real.sqrt (wv.dot wv) := Real.sqrt_pos.2 (dot_self_pos hw)
  have hxb : ∀ i, B i 1 = Real.sqrt ((basisCol B 1).dot (basisCol B 1)) * x i := by
    intro i; rw [hx]; unfold Vec3.unit; field_simp; rfl
  have hyw : ∀ i, wv i = Real.sqrt (wv.dot wv) * y i := by
    intro i; rw [hy]; unfold Vec3.unit; field_simp
  have hxw : x.dot wv = 0 := by
    have : x.dot wv = (basisCol B 0).dot x * (1 - x.dot x) := by
      rw [hwv]; unfold perpPart Vec3.dot; ring
    rw [this, hxx]; ring
  have hxy : x.dot y = 0 := by
    have : x.dot wv = Real.sqrt (wv.dot wv) * x.dot y := by
      have h0 := hyw 0
      have h1 := hyw 1
      have h2 := hyw 2
      generalize Real.sqrt (wv.dot wv) = c at h0 h1 h2 ⊢
      unfold Vec3.dot
      linear_combination x 0 * h0 + x 1 * h1 + x 2 * h2
    rw [hxw] at this
    rcases mul_eq_zero.1 this.symm with h | h
    · exact absurd h hnw.ne'
    · exact h
  have hb0 : ∀ i, B i 0 = (basisCol B 0).dot x * x i + Real.sqrt (wv.dot wv) * y i := by
    intro i
    rw [← hyw i, hwv]
    unfold perpPart
    show B i 0 = _ + (B i 0 - _)
    ring
  have hT : P.transform = .ok (transformMatrix (y, x) B) := by
    unfold Place.transform
    rw [hf, hv]
    dsimp only
    rw [if_neg hb, ← hB, hview]
  have hd := transformMatrix_orthonormal x y B hxx hyy hxy
  set n1 := Real.sqrt ((basisCol B 1).dot (basisCol B 1)) with hn1d
  set nw := Real.sqrt (wv.dot wv) with hnwd
  set a0 := (basisCol B 0).dot x with ha0
  have hyx : y.dot x = 0 := by rw [← hxy]; unfold Vec3.dot; ring
  have c0 : ∀ row column, drawnAt (transformMatrix (y, x) B) row column 0 = row * a0 + column * n1 := by
    intro row column
    rw [hd]
    have : (x.dot fun i => row * B i 0 + column * B i 1) = row * (a0 * x.dot x + nw * x.dot y) + column * (n1 * x.dot x) := by
      simp only [hb0, hxb]; unfold Vec3.dot; ring
    simp only [Matrix.cons_val_zero]
    rw [this, hxx, hxy]; ring
  have c1 : ∀ row column, drawnAt (transformMatrix (y, x) B) row column 1 = row * nw := by
    intro row column
    rw [hd]
    have : (y.dot fun i => row * B i 0 + column * B i 1) = row * (a0 * y.dot x + nw * y.dot y) + column * (n1 * y.dot x) := by
      simp only [hb0, hxb]; unfold Vec3.dot; ring
    simp only [Matrix.cons_val_one, Matrix.cons_val_zero]
    rw [this, hyy, hyx]; ring
  have hBP : ∀ i c, B i c = f * P.basis i c := fun i c => by rw [hB]; simp [mul_comm]
  refine ⟨_, hT, x, y, hxx, hyy, hxy, ⟨n1 / f, by positivity, fun i => ?_⟩, ?_, ?_, ?_⟩
  · have h1 := hxb i
    have h2 := hBP i 1
    rw [h2] at h1
    field_simp
    linarith
  · have : (y.dot fun i => P.basis i 0) = (a0 * y.dot x + nw * y.dot y) / f := by
      have e : ∀ i, P.basis i 0 = (a0 * x i + nw * y i) / f := fun i => by
        rw [← hb0 i, hBP]; field_simp
      simp only [e]; unfold Vec3.dot; ring
    rw [this, hyx, hyy]
    have : 0 < a0 * 0 + nw * 1 := by linarith
    positivity
  · intro row column i
    rw [c0, c1]
    have h1 := hb0 i
    have h2 := hxb i
    rw [hBP] at h1 h2
    linear_combination (-row) * h1 - column * h2
  · intro r c r' c'
    rw [c0, c0, c1, c1]
    have key : ∀ i, (r - r') * P.basis i 0 + (c - c') * P.basis i 1 =
        (((r - r') * a0 + (c - c') * n1) * x i + (r - r') * nw * y i) / f := by
      intro i
      have h1 := hb0 i
      have h2 := hxb i
      rw [hBP] at h1 h2
      field_simp
      linear_combination (r - r') * h1 + (c - c') * h2
    have hsum : ∀ u v : ℝ, f ^ 2 * ∑ i, ((u * x i + v * y i) / f) ^ 2 = u ^ 2 * x.dot x + v ^ 2 * y.dot y + 2 * u * v * x.dot y := by
      intro u v
      rw [Fin.sum_univ_three]
      unfold Vec3.dot
      field_simp
      ring
    simp only [key]
    rw [hsum, hxx, hyy, hxy]
    ring

/-- **C89** (given views): with a view basis the plot has the coordinates, with respect to the normalized view vectors, of the
orthogonal projection of the true position onto the plane of the view. -/
theorem plot_view_projection (P : Place) (V : Matrix (Fin 3) (Fin 2) ℝ) (hv : P.view = some V)
    (hV : Vec3.cross (basisCol V 0) (basisCol V 1) ≠ 0) (f : ℝ) (hf : unitsFactor P.units = .ok f) :
    ∃ T, P.transform = .ok T ∧ ∀ row column k, (Vec3.dot (fun i => drawnAt T row column 0 * (basisCol V 1).unit i +
      drawnAt T row column 1 * (basisCol V 0).unit i - f * (row * P.basis i 0 + column * P.basis i 1)) (basisCol V k)) = 0 := by
  have h0 := cross_ne_zero_left hV
  have h1 := cross_ne_zero_right hV
  set u := (basisCol V 0).unit with hu
  set x := (basisCol V 1).unit with hx
  have huu : u.dot u = 1 := unit_dot _ h0
  have hxx : x.dot x = 1 := unit_dot _ h1
  have hn0 : 0 < Real.sqrt ((basisCol V 0).dot (basisCol V 0)) := Real.sqrt_pos.2 (dot_self_pos h0)
  have hn1 : 0 < Real.sqrt ((basisCol V 1).dot (basisCol V 1)) := Real.sqrt_pos.2 (dot_self_pos h1)
  have eu : ∀ i, basisCol V 0 i = Real.sqrt ((basisCol V 0).dot (basisCol V 0)) * u i := by
    intro i; rw [hu]; unfold Vec3.unit; field_simp
  have ex : ∀ i, basisCol V 1 i = Real.sqrt ((basisCol V 1).dot (basisCol V 1)) * x i := by
    intro i; rw [hx]; unfold Vec3.unit; field_simp
  generalize Real.sqrt ((basisCol V 0).dot (basisCol V 0)) = n0 at eu hn0
  generalize Real.sqrt ((basisCol V 1).dot (basisCol V 1)) = n1 at ex hn1
  have hdet : 0 < 1 - (x.dot u) ^ 2 := by
    have hc : Vec3.cross u x ≠ 0 := by
      intro hc
      apply hV
      funext i
      have : Vec3.cross (basisCol V 0) (basisCol V 1) i = n0 * n1 * Vec3.cross u x i := by
        fin_cases i <;> simp [Vec3.cross] <;> simp only [eu, ex] <;> ring
      rw [this, hc]; simp
    have hp := dot_self_pos hc
    have lag : (Vec3.cross u x).dot (Vec3.cross u x) = u.dot u * x.dot x - (x.dot u) ^ 2 := by
      simp [Vec3.cross, Vec3.dot]; ring
    rw [lag, huu, hxx] at hp
    linarith
  set B : Matrix (Fin 3) (Fin 2) ℝ := Matrix.of fun i c => P.basis i c * f with hB
  have hT : P.transform = .ok (transformMatrix (u, x) B) := by
    unfold Place.transform
    rw [hf, hv]
    dsimp only
    rw [if_neg hV]
    rfl
  refine ⟨_, hT, ?_⟩
  have hdet' : ((flipped (u, x)).transpose * flipped (u, x)).det ≠ 0 := by
    rw [Matrix.det_fin_two]
    simp only [Matrix.mul_apply, Fin.sum_univ_three, Matrix.transpose_apply, flipped, Matrix.of_apply, if_true]
    simp only [one_ne_zero, if_false]
    unfold Vec3.dot at huu hxx hdet
    have : (x 0 * x 0 + x 1 * x 1 + x 2 * x 2) * (u 0 * u 0 + u 1 * u 1 + u 2 * u 2) -
        (x 0 * u 0 + x 1 * u 1 + x 2 * u 2) * (u 0 * x 0 + u 1 * x 1 + u 2 * x 2) = 1 - (x 0 * u 0 + x 1 * u 1 + x 2 * u 2) ^ 2 := by
      rw [huu, hxx]; ring
    rw [this]
    exact hdet.ne'
  have normal : ((flipped (u, x)).transpose * flipped (u, x)) * transformMatrix (u, x) B =
      (flipped (u, x)).transpose * flipped (basisCol B 0, basisCol B 1) := by
    unfold transformMatrix
    dsimp only
    rw [← Matrix.mul_assoc, Matrix.mul_nonsing_inv _ (isUnit_iff_ne_zero.2 hdet'), Matrix.one_mul]
  intro row column k
  have hv2 := congrArg (fun M : Matrix (Fin 2) (Fin 2) ℝ => M.mulVec ![column, row]) normal
  simp only [← Matrix.mulVec_mulVec] at hv2
  have hd : (transformMatrix (u, x) B).mulVec ![column, row] = drawnAt (transformMatrix (u, x) B) row column := rfl
  rw [hd] at hv2
  generalize drawnAt (transformMatrix (u, x) B) row column = D at hv2
  have r0 := congrFun hv2 0
  have r1 := congrFun hv2 1
  simp only [Matrix.mulVec, dotProduct, Fin.sum_univ_three, Fin.sum_univ_two, Matrix.transpose_apply, flipped, Matrix.of_apply,
    if_true, one_ne_zero, if_false, Matrix.cons_val_zero, Matrix.cons_val_one, basisCol, hB] at r0 r1
  fin_cases k
  · simp only [Vec3.dot, Fin.zero_eta]
    rw [eu 0, eu 1, eu 2]
    linear_combination n0 * r1
  · simp only [Vec3.dot, Fin.mk_one]
    rw [ex 0, ex 1, ex 2]
    linear_combination n1 * r0

theorem affine_between (A B c l r t b x y : ℝ) (lo hi : ℝ) (hx : l ≤ x ∧ x ≤ r) (hy : t ≤ y ∧ y ≤ b)
    (h : ∀ u ∈ ({l, r} : Set ℝ), ∀ v ∈ ({t, b} : Set ℝ), lo ≤ A * u + B * v + c ∧ A * u + B * v + c ≤ hi) :
    lo ≤ A * x + B * y + c ∧ A * x + B * y + c ≤ hi := by
  have h1 := h l (by simp) t (by simp)
  have h2 := h l (by simp) b (by simp)
  have h3 := h r (by simp) t (by simp)
  have h4 := h r (by simp) b (by simp)
  rcases le_total 0 A with hA | hA <;> rcases le_total 0 B with hB | hB <;> constructor <;>
    nlinarith [mul_le_mul_of_nonneg_left hx.1 (abs_nonneg A)]

/-- **C89** (limits): with the limits of the axes the whole image is visible, also the outer halves of the pixels at the border, and no
limit could be tighter: each is the coordinate of a corner. -/
theorem plot_limits (T : Matrix (Fin 2) (Fin 2) ℝ) (h w : ℕ) (c : Fin 2) :
    (∀ row column : ℝ, -0.5 ≤ row → row ≤ h - 0.5 → -0.5 ≤ column → column ≤ w - 0.5 →
      (limits T h w c).1 ≤ drawnAt T row column c ∧ drawnAt T row column c ≤ (limits T h w c).2) ∧
    (∃ row ∈ ({-0.5, (h : ℝ) - 0.5} : Set ℝ), ∃ column ∈ ({-0.5, (w : ℝ) - 0.5} : Set ℝ), (limits T h w c).1 = drawnAt T row column c) ∧
    (∃ row ∈ ({-0.5, (h : ℝ) - 0.5} : Set ℝ), ∃ column ∈ ({-0.5, (w : ℝ) - 0.5} : Set ℝ), (limits T h w c).2 = drawnAt T row column c) := by
  have hd : ∀ r k, drawnAt T r k c = T c 0 * k + T c 1 * r + 0 := by
    intro r k
    unfold drawnAt
    rw [Matrix.mulVec, dotProduct, Fin.sum_univ_two]
    simp
  refine ⟨fun row column h1 h2 h3 h4 => ?_, ?_, ?_⟩
  · rw [hd row column]
    refine affine_between _ _ _ (-0.5) (w - 0.5) (-0.5) (h - 0.5) _ _ _ _ ⟨h3, h4⟩ ⟨h1, h2⟩ ?_
    intro u hu v hv
    rw [← hd v u]
    unfold limits
    dsimp only
    simp only [Set.mem_insert_iff, Set.mem_singleton_iff] at hu hv
    rcases hu with rfl | rfl <;> rcases hv with rfl | rfl <;> simp
  · unfold limits
    dsimp only
    rcases min_choice (min (min (drawnAt T (-0.5) (-0.5) c) (drawnAt T (-0.5) (w - 0.5) c)) (drawnAt T (h - 0.5) (-0.5) c))
      (drawnAt T (h - 0.5) (w - 0.5) c) with e | e
    · rw [e]
      rcases min_choice (min (drawnAt T (-0.5) (-0.5) c) (drawnAt T (-0.5) (w - 0.5) c)) (drawnAt T (h - 0.5) (-0.5) c) with e | e
      · rw [e]
        rcases min_choice (drawnAt T (-0.5) (-0.5) c) (drawnAt T (-0.5) (w - 0.5) c) with e | e
        · exact ⟨_, by simp, _, by simp, e⟩
        · exact ⟨-0.5, by simp, w - 0.5, by simp, e⟩
      · exact ⟨h - 0.5, by simp, -0.5, by simp, e⟩
    · exact ⟨h - 0.5, by simp, w - 0.5, by simp, e⟩
  · unfold limits
    dsimp only
    rcases max_choice (max (max (drawnAt T (-0.5) (-0.5) c) (drawnAt T (-0.5) (w - 0.5) c)) (drawnAt T (h - 0.5) (-0.5) c))
      (drawnAt T (h - 0.5) (w - 0.5) c) with e | e
    · rw [e]
      rcases max_choice (max (drawnAt T (-0.5) (-0.5) c) (drawnAt T (-0.5) (w - 0.5) c)) (drawnAt T (h - 0.5) (-0.5) c) with e | e
      · rw [e]
        rcases max_choice (drawnAt T (-0.5) (-0.5) c) (drawnAt T (-0.5) (w - 0.5) c) with e | e
        · exact ⟨_, by simp, _, by simp, e⟩
        · exact ⟨-0.5, by simp, w - 0.5, by simp, e⟩
      · exact ⟨h - 0.5, by simp, -0.5, by simp, e⟩
    · exact ⟨h - 0.5, by simp, w - 0.5, by simp, e⟩

/-! ### C90: colors -/

theorem hsv_cases (h s v : ℝ) (h0 : 0 ≤ h) (h1 : h < 1) (hv : 0 ≤ v) : ∃ F : ℝ, 0 ≤ F ∧ (0 < v → F < v) ∧
    ((hsvToRgb h s v = (v, v - s * v + s * F, v - s * v) ∧ 6 * h * v = F) ∨
     (hsvToRgb h s v = (v - s * F, v, v - s * v) ∧ 6 * h * v = v + F) ∨
     (hsvToRgb h s v = (v - s * v, v, v - s * v + s * F) ∧ 6 * h * v = 2 * v + F) ∨
     (hsvToRgb h s v = (v - s * v, v - s * F, v) ∧ 6 * h * v = 3 * v + F) ∨
     (hsvToRgb h s v = (v - s * v + s * F, v - s * v, v) ∧ 6 * h * v = 4 * v + F) ∨
     (hsvToRgb h s v = (v, v - s * v, v - s * F) ∧ 6 * h * v = 5 * v + F)) := by
  have hi0 : 0 ≤ ⌊h * 6⌋ := Int.floor_nonneg.2 (by positivity)
  have hi1 : ⌊h * 6⌋ < 6 := by
    rw [Int.floor_lt]; push_cast; linarith
  have hf0 : 0 ≤ h * 6 - ⌊h * 6⌋ := by linarith [Int.floor_le (h * 6)]
  have hf1 : h * 6 - ⌊h * 6⌋ < 1 := by linarith [Int.lt_floor_add_one (h * 6)]
  refine ⟨v * (h * 6 - ⌊h * 6⌋), mul_nonneg hv hf0, fun hp => by nlinarith, ?_⟩
  unfold hsvToRgb
  dsimp only
  generalize hi : ⌊h * 6⌋ = i at *
  interval_cases i
  · left; refine ⟨?_, by push_cast; ring⟩; rw [if_pos (by norm_num)]; ext <;> push_cast <;> ring
  · right; left; refine ⟨?_, by push_cast; ring⟩; rw [if_neg (by norm_num), if_pos (by norm_num)]; ext <;> push_cast <;> ring
  · right; right; left; refine ⟨?_, by push_cast; ring⟩
    rw [if_neg (by norm_num), if_neg (by norm_num), if_pos (by norm_num)]; ext <;> push_cast <;> ring
  · right; right; right; left; refine ⟨?_, by push_cast; ring⟩
    rw [if_neg (by norm_num), if_neg (by norm_num), if_neg (by norm_num), if_pos (by norm_num)]; ext <;> push_cast <;> ring
  · right; right; right; right; left; refine ⟨?_, by push_cast; ring⟩
    rw [if_neg (by norm_num), if_neg (by norm_num), if_neg (by norm_num), if_neg (by norm_num), if_pos (by norm_num)]
    ext <;> push_cast <;> ring
  · right; right; right; right; right; refine ⟨?_, by push_cast; ring⟩
    rw [if_neg (by norm_num), if_neg (by norm_num), if_neg (by norm_num), if_neg (by norm_num), if_neg (by norm_num)]
    ext <;> push_cast <;> ring

/-- The brightest channel. -/
def brightest (c : ℝ × ℝ × ℝ) : ℝ := max c.1 (max c.2.1 c.2.2)

theorem hsv_brightest (h v : ℝ) (h0 : 0 ≤ h) (h1 : h < 1) (hv : 0 ≤ v) : brightest (hsvToRgb h 0.85 v) = v := by
  obtain ⟨F, hF, hF1, hc⟩ := hsv_cases h 0.85 v h0 h1 hv
  have hFv : F ≤ v ∨ v = 0 := by
    rcases hv.eq_or_lt with e | e
    · exact Or.inr e.symm
    · exact Or.inl (hF1 e).le
  rcases hFv with hFv | rfl
  · unfold brightest
    rcases hc with ⟨e, -⟩ | ⟨e, -⟩ | ⟨e, -⟩ | ⟨e, -⟩ | ⟨e, -⟩ | ⟨e, -⟩ <;> rw [e] <;> dsimp only <;>
      refine le_antisymm (max_le ?_ (max_le ?_ ?_)) ?_ <;> first | linarith | (simp only [le_max_iff, le_refl, true_or, or_true])
  · have : hsvToRgb h 0.85 0 = (0, 0, 0) := by
      unfold hsvToRgb; simp
    rw [this]; simp [brightest]

theorem hsv_injective (h h' v : ℝ) (h0 : 0 ≤ h) (h1 : h < 1) (h0' : 0 ≤ h') (h1' : h' < 1) (hv : 0 < v)
    (e : hsvToRgb h 0.85 v = hsvToRgb h' 0.85 v) : h = h' := by
  obtain ⟨F, hF, hF1, hc⟩ := hsv_cases h 0.85 v h0 h1 hv.le
  obtain ⟨G, hG, hG1, hd⟩ := hsv_cases h' 0.85 v h0' h1' hv.le
  have hFv := hF1 hv
  have hGv := hG1 hv
  have key : 6 * h * v = 6 * h' * v := by
    rcases hc with ⟨a, b⟩ | ⟨a, b⟩ | ⟨a, b⟩ | ⟨a, b⟩ | ⟨a, b⟩ | ⟨a, b⟩ <;>
    rcases hd with ⟨a', b'⟩ | ⟨a', b'⟩ | ⟨a', b'⟩ | ⟨a', b'⟩ | ⟨a', b'⟩ | ⟨a', b'⟩ <;>
    (rw [a, a'] at e
     simp only [Prod.mk.injEq] at e
     obtain ⟨e1, e2, e3⟩ := e
     rw [b, b']
     linarith)
  have := mul_right_cancel₀ hv.ne' key
  linarith

theorem mod360_range (x : ℝ) : 0 ≤ mod360 x ∧ mod360 x < 360 := by
  unfold mod360
  have h1 := Int.floor_le (x / 360)
  have h2 := Int.lt_floor_add_one (x / 360)
  constructor <;> linarith [mul_div_cancel₀ x (show (360 : ℝ) ≠ 0 by norm_num)]

theorem angleDeg_range (z : ℂ) : -180 < angleDeg z ∧ angleDeg z ≤ 180 := by
  have hp := Real.pi_pos
  unfold angleDeg
  constructor
  · rw [lt_div_iff₀ hp]
    nlinarith [Complex.neg_pi_lt_arg z]
  · rw [div_le_iff₀ hp]
    nlinarith [Complex.arg_le_pi z]

theorem mod360_inj (a x y : ℝ) (hx : -180 < x ∧ x ≤ 180) (hy : -180 < y ∧ y ≤ 180) (h : mod360 (x + a) = mod360 (y + a)) : x = y := by
  unfold mod360 at h
  generalize ⌊(x + a) / 360⌋ = i at h
  generalize ⌊(y + a) / 360⌋ = j at h
  have hk : x - y = 360 * ((i - j : ℤ) : ℝ) := by push_cast; linarith
  have h1 : ((i - j : ℤ) : ℝ) < 1 := by nlinarith
  have h2 : (-1 : ℝ) < ((i - j : ℤ) : ℝ) := by nlinarith
  have h1' : i - j < 1 := by exact_mod_cast h1
  have h2' : -1 < i - j := by exact_mod_cast h2
  have : i - j = 0 := by omega
  rw [this] at hk
  simp at hk
  linarith

theorem colorize_ok {ι C : Type} [Fintype ι] (color : ℝ → ℂ → C) (im : ι → ℂ) (p0 : ι) (h0 : im p0 ≠ 0) :
    colorize color im = .ok fun p => color (⨆ q, ‖im q‖) (im p) := by
  unfold colorize
  rw [if_neg (not_isEmpty_iff.2 ⟨p0⟩), if_neg (fun h => h0 (h p0))]

/-- **C90**: the colors (with `use_cmocean=False`) of an image which is not zero everywhere show the complex values faithfully: two
pixels have the same color if and only if they have the same value; the brightest channel of a pixel is its amplitude relative to
the largest amplitude, which is attained. -/
theorem colorize_faithful {ι : Type} [Fintype ι] (im : ι → ℂ) (p0 : ι) (h0 : im p0 ≠ 0) :
    ∃ out, colorize (colorHue fun x => x) im = .ok out ∧ (∀ p q, out p = out q ↔ im p = im q) ∧
      ∃ pm, (∀ q, ‖im q‖ ≤ ‖im pm‖) ∧ ∀ p, brightest (out p) = ‖im p‖ / ‖im pm‖ := by
  haveI : Nonempty ι := ⟨p0⟩
  have hb : BddAbove (Set.range fun q => ‖im q‖) := (Set.finite_range _).bddAbove
  obtain ⟨pm, hpm⟩ := exists_eq_ciSup_of_finite (f := fun q => ‖im q‖)
  have hle : ∀ q, ‖im q‖ ≤ ‖im pm‖ := fun q => by
    have := le_ciSup hb q
    rw [← hpm] at this
    exact this
  have hpos : 0 < ‖im pm‖ := lt_of_lt_of_le (norm_pos_iff.2 h0) (hle p0)
  have hh : ∀ z, 0 ≤ mod360 (angleDeg z + 170) / 360 ∧ mod360 (angleDeg z + 170) / 360 < 1 := by
    intro z
    obtain ⟨h1, h2⟩ := mod360_range (angleDeg z + 170)
    constructor
    · positivity
    · rw [div_lt_one (by norm_num)]; exact h2
  have hbr : ∀ p, brightest (colorHue (fun x => x) (⨆ q, ‖im q‖) (im p)) = ‖im p‖ / ‖im pm‖ := by
    intro p
    rw [← hpm]
    unfold colorHue
    exact hsv_brightest _ _ (hh _).1 (hh _).2 (by positivity)
  refine ⟨_, colorize_ok _ im p0 h0, fun p q => ⟨fun e => ?_, fun e => by simp only [e]⟩, pm, hle, hbr⟩
  have hn : ‖im p‖ = ‖im q‖ := by
    have := congrArg brightest e
    rw [hbr, hbr, div_left_inj' hpos.ne'] at this
    exact this
  by_cases hz : im p = 0
  · rw [hz, norm_zero] at hn
    rw [hz, norm_eq_zero.1 hn.symm]
  · have hvp : 0 < ‖im p‖ / ‖im pm‖ := div_pos (norm_pos_iff.2 hz) hpos
    unfold colorHue at e
    rw [← hpm, ← hn] at e
    have hh' := hsv_injective _ _ _ (hh (im p)).1 (hh (im p)).2 (hh (im q)).1 (hh (im q)).2 hvp e
    have hm : mod360 (angleDeg (im p) + 170) = mod360 (angleDeg (im q) + 170) := by
      field_simp at hh'
      linarith
    have ha := mod360_inj 170 _ _ (angleDeg_range _) (angleDeg_range _) hm
    unfold angleDeg at ha
    have ha' : (im p).arg = (im q).arg := by
      have hp := Real.pi_pos
      field_simp at ha
      linarith
    exact Complex.ext_norm_arg hn ha'

/-- **C90**: the colors do not depend on a positive factor of the whole image, for both color schemes and any table. -/
theorem colorize_scale {ι : Type} [Fintype ι] (cyc : ℝ → Fin 3 → ℝ) (scaling : ℝ → ℝ) (im : ι → ℂ) (c : ℝ) (hc : 0 < c) :
    colorize (colorHue scaling) (fun p => (c : ℂ) * im p) = colorize (colorHue scaling) im ∧
    colorize (colorTable cyc scaling) (fun p => (c : ℂ) * im p) = colorize (colorTable cyc scaling) im := by
  have hn : ∀ z : ℂ, ‖(c : ℂ) * z‖ = c * ‖z‖ := fun z => by
    rw [norm_mul, Complex.norm_real, Real.norm_eq_abs, abs_of_pos hc]
  have hs : (⨆ q, ‖(c : ℂ) * im q‖) = c * ⨆ q, ‖im q‖ := by
    simp only [hn]
    exact (Real.mul_iSup_of_nonneg hc.le _).symm
  have hr : ∀ x y : ℝ, c * x / (c * y) = x / y := fun x y => mul_div_mul_left x y hc.ne'
  have ha : ∀ z : ℂ, angleDeg ((c : ℂ) * z) = angleDeg z := fun z => by
    unfold angleDeg; rw [Complex.arg_real_mul _ hc]
  have h0 : (∀ p, (c : ℂ) * im p = 0) ↔ ∀ p, im p = 0 :=
    forall_congr' fun p => by simp [hc.ne']
  constructor
  · unfold colorize
    simp only [h0]
    split_ifs
    · rfl
    · rfl
    · refine congrArg _ ?_
      funext p
      unfold colorHue
      rw [hs, hn, hr, ha]
  · unfold colorize
    simp only [h0]
    split_ifs
    · rfl
    · rfl
    · refine congrArg _ ?_
      funext p
      unfold colorTable
      rw [hs, hn, hr, ha]

/-- **C90 fails** for an image without pixels, for which there is no largest modulus. -/
theorem colorize_empty_violated {ι C : Type} [Fintype ι] [IsEmpty ι] (color : ℝ → ℂ → C) (im : ι → ℂ) :
    colorize color im = .error "ValueError" := if_pos ‹IsEmpty ι›

/-- **C90** (violated): an image which is zero everywhere has no colors (NaN) rather than black. -/
theorem colorize_zero_violated {ι C : Type} [Fintype ι] [Nonempty ι] (color : ℝ → ℂ → C) :
    colorize color (fun _ : ι => (0 : ℂ)) = .error "NaN" := by
  unfold colorize
  rw [if_neg (not_isEmpty_iff.2 inferInstance), if_pos fun _ => rfl]

/-! ### C91: figures that are redrawn -/

/-- **C91**: after any sequence of plots on a new figure, which nothing else clears, the latest image is on display. -/
theorem figure_shows_latest {α : Type} (calls : List (Call α)) (last : Call α) :
    ∃ a, ((calls ++ [last]).foldl Fig.plot {}).shown = some a ∧ a.data = last.data := by
  have inv : ∀ (l : List (Call α)) (F : Fig α), (F.artist = none ∧ F.inFigure = false ∨ F.artist ≠ none ∧ F.inFigure = true) →
      ((l.foldl Fig.plot F).artist = none ∧ (l.foldl Fig.plot F).inFigure = false ∨
        (l.foldl Fig.plot F).artist ≠ none ∧ (l.foldl Fig.plot F).inFigure = true) := by
    intro l
    induction l with
    | nil => intro F h; exact h
    | cons c l ih =>
      intro F h
      refine ih _ ?_
      right
      unfold Fig.plot
      rcases h with ⟨h1, h2⟩ | ⟨h1, h2⟩
      · rw [h1]; simp
      · obtain ⟨a, ha⟩ := Option.ne_none_iff_exists'.1 h1
        rw [ha]; simp [h2]
  rw [List.foldl_append, List.foldl_cons, List.foldl_nil]
  have h := inv calls {} (Or.inl ⟨rfl, rfl⟩)
  generalize calls.foldl Fig.plot {} = F at h
  unfold Fig.plot Fig.shown
  rcases h with ⟨h1, h2⟩ | ⟨h1, h2⟩
  · rw [h1]; exact ⟨_, rfl, rfl⟩
  · obtain ⟨a, ha⟩ := Option.ne_none_iff_exists'.1 h1
    rw [ha]
    exact ⟨_, by simp [h2]; rfl, rfl⟩

/-- **C91** (violated): the first call obtains the color limits and the place it asks for; every later call on the figure gets the range
of its data (or, without updateable colorbar, the limits of the first call) whatever limits it asks for, and the place of the
first call. -/
theorem figure_settings_violated {α : Type} (first c : Call α) (between : List (Call α)) :
    (∃ a, (({} : Fig α).plot first).shown = some a ∧ a.place = first.place ∧
      a.clim = (first.vmin.getD (first.range first.data).1, first.vmax.getD (first.range first.data).2)) ∧
    (∃ a, ((first :: between ++ [c]).foldl Fig.plot {}).shown = some a ∧ a.place = first.place ∧
      (c.updateable = true → a.clim = c.range c.data)) := by
  refine ⟨⟨_, rfl, rfl, rfl⟩, ?_⟩
  have inv : ∀ (l : List (Call α)) (F : Fig α), (∃ a, F.artist = some a ∧ a.place = first.place) → F.inFigure = true →
      (∃ a, (l.foldl Fig.plot F).artist = some a ∧ a.place = first.place) ∧ (l.foldl Fig.plot F).inFigure = true := by
    intro l
    induction l with
    | nil => intro F h h'; exact ⟨h, h'⟩
    | cons c l ih =>
      rintro F ⟨a, ha, hp⟩ h'
      refine ih _ ?_ ?_ <;> unfold Fig.plot <;> rw [ha]
      · exact ⟨_, rfl, hp⟩
      · exact h'
  rw [List.cons_append, List.foldl_cons, List.foldl_append, List.foldl_cons, List.foldl_nil]
  obtain ⟨⟨a, ha, hp⟩, hf⟩ := inv between (({} : Fig α).plot first) ⟨_, rfl, rfl⟩ rfl
  generalize between.foldl Fig.plot (({} : Fig α).plot first) = F at ha hf
  refine ⟨{ a with data := c.data, clim := if c.updateable then c.range c.data else a.clim }, ?_, hp, fun h => by simp [h]⟩
  unfold Fig.plot Fig.shown
  rw [ha]
  simp [hf]

/-- **C91** (violated): once a figure with an image has been cleared, also by `plot_translations` or `plot_nanomap`, no image plotted
on it is displayed any more. -/
theorem figure_cleared_violated {α : Type} (before : List (Call α)) (c : Call α) (after : List (Call α)) :
    (after.foldl Fig.plot (((before ++ [c]).foldl Fig.plot {}).clear)).shown = none := by
  obtain ⟨a, ha, -⟩ := figure_shows_latest before c
  have h1 : (((before ++ [c]).foldl Fig.plot {}).clear).artist ≠ none := by
    unfold Fig.shown at ha
    split_ifs at ha
    unfold Fig.clear
    rw [ha]; simp
  have h2 : (((before ++ [c]).foldl Fig.plot {}).clear).inFigure = false := rfl
  generalize ((before ++ [c]).foldl Fig.plot {}).clear = F at h1 h2
  have inv : ∀ (l : List (Call α)) (F : Fig α), F.artist ≠ none → F.inFigure = false →
      (l.foldl Fig.plot F).inFigure = false := by
    intro l
    induction l with
    | nil => intro F _ h'; exact h'
    | cons c l ih =>
      intro F h h'
      obtain ⟨a, ha⟩ := Option.ne_none_iff_exists'.1 h
      refine ih _ ?_ ?_ <;> unfold Fig.plot <;> rw [ha]
      · simp
      · exact h'
  unfold Fig.shown
  rw [inv after F h1 h2]
  rfl

/-- **C91** (phases): with a cyclic color map the first plot of phases has the given limits, by default `[-π, π]`, with another map the given limits,
by default the range of the phases; a second plot on the figure has the range of the phases instead. -/
theorem phase_limits {α : Type} (data data' : α) (range : α → ℝ × ℝ) (place : Option Place) (vmin vmax : Option ℝ) (cyclic : Bool) :
    let call := fun d => (⟨d, range, place, (phaseLimits cyclic vmin vmax).1, (phaseLimits cyclic vmin vmax).2, true⟩ : Call α)
    ((({} : Fig α).plot (call data)).shown.map (·.clim)) =
      some (vmin.getD (if cyclic then -Real.pi else (range data).1), vmax.getD (if cyclic then Real.pi else (range data).2)) ∧
    ((({} : Fig α).plot (call data)).plot (call data')).shown.map (·.clim) = some (range data') := by
  cases cyclic <;> exact ⟨rfl, rfl⟩

/-! ### C89: scan positions -/

/-- **C89** (scan positions): a plot of translations on a new or cleared figure shows them, in order, in the units of the labels, with the
x axis inverted if asked for; further plots without clearing add their points, and any number of them leaves the axis inverted. -/
theorem plot_translations_points (units : String) (f : ℝ) (hf : unitsFactor units = .ok f) (F0 : Option PosAxes)
    (first : List (ℝ × ℝ)) (more : List (List (ℝ × ℝ))) :
    more.foldl (fun (F : Except String (Option PosAxes)) ts => F.bind fun F => plotTranslations F false true units ts)
      (plotTranslations F0 true true units first) =
      .ok (some ⟨(first :: more).flatten.map fun p => (f * p.1, f * p.2), true⟩) := by
  have h1 : plotTranslations F0 true true units first = .ok (some ⟨first.map fun p => (f * p.1, f * p.2), true⟩) := by
    unfold plotTranslations
    rw [hf]
    simp [mul_comm]
  have step : ∀ (pts : List (ℝ × ℝ)) ts, plotTranslations (some ⟨pts, true⟩) false true units ts =
      .ok (some ⟨pts ++ ts.map fun p => (f * p.1, f * p.2), true⟩) := by
    intro pts ts
    unfold plotTranslations
    rw [hf]
    simp [mul_comm]
  rw [h1]
  have gen : ∀ (l : List (List (ℝ × ℝ))) (pts : List (ℝ × ℝ)), l.foldl (fun (F : Except String (Option PosAxes)) ts =>
      F.bind fun F => plotTranslations F false true units ts) (.ok (some ⟨pts, true⟩)) =
      .ok (some ⟨pts ++ l.flatten.map fun p => (f * p.1, f * p.2), true⟩) := by
    intro l
    induction l with
    | nil => intro pts; simp
    | cons ts l ih =>
      intro pts
      rw [List.foldl_cons]
      show List.foldl _ (plotTranslations (some ⟨pts, true⟩) false true units ts) l = _
      rw [step, ih, List.flatten_cons, List.map_append, List.append_assoc]
  rw [gen, List.flatten_cons, List.map_append]

/-- **C89** (scan positions of a model): original and corrected positions are drawn over each other to the same scale. -/
theorem plot_both_points (units : String) (f : ℝ) (hf : unitsFactor units = .ok f) (o c : List (ℝ × ℝ)) :
    plotBoth units o c = .ok (some ⟨(o ++ c).map fun p => (f * p.1, f * p.2), true⟩) := by
  have := plot_translations_points units f hf none o [c]
  simp only [List.flatten_cons, List.flatten_nil, List.append_nil] at this
  exact this

/-- **C89**: on a fresh figure the x axis is inverted exactly when asked for, and the positions are drawn in the given units. -/
theorem plot_translations_axis (F : Option PosAxes) (invert : Bool) (units : String) (f : ℝ) (hf : unitsFactor units = .ok f) (ts : List (ℝ × ℝ)) :
    plotTranslations F true invert units ts = .ok (some ⟨ts.map fun p => (f * p.1, f * p.2), invert⟩) := by
  unfold plotTranslations
  rw [hf]
  cases invert <;> simp [mul_comm]

/-- **C89**: a nanomap of positions and values of different numbers is refused. -/
theorem plot_nanomap_mismatch (convention units : String) (f : ℝ) (hf : unitsFactor units = .ok f) (invert : Bool)
    (ts : List (ℝ × ℝ)) (values : List ℝ) (hl : ts.length ≠ values.length) :
    plotNanomap convention units invert ts values = .error "ValueError" := by
  unfold plotNanomap
  rw [hf]
  exact if_pos hl

/-- **C89** (maps): in a map point number `k` has value number `k` and lies at translation number `k` in the units of the labels, or at its
negative for any convention other than 'probe' (in any case). -/
theorem plot_nanomap_points (convention units : String) (f : ℝ) (hf : unitsFactor units = .ok f) (invert : Bool)
    (ts : List (ℝ × ℝ)) (values : List ℝ) (hl : ts.length = values.length) :
    ∃ pts, plotNanomap convention units invert ts values = .ok (pts, invert) ∧ pts.length = ts.length ∧
      ∀ k (h1 : k < pts.length) (h2 : k < ts.length) (h3 : k < values.length), pts[k].2 = values[k] ∧
        (convention.toList.map Char.toLower = "probe".toList → pts[k].1 = (f * ts[k].1, f * ts[k].2)) ∧
        (convention.toList.map Char.toLower ≠ "probe".toList → pts[k].1 = (-(f * ts[k].1), -(f * ts[k].2))) := by
  unfold plotNanomap
  rw [hf]
  dsimp only
  rw [if_neg (by simpa using hl)]
  have key : ∀ s : ℝ, (if convention.toList.map Char.toLower ≠ "probe".toList then (-1 : ℝ) else 1) = s →
      ∀ k (h1 : k < ((ts.map fun p => (f * (p.1 * s), f * (p.2 * s))).zip values).length) (h2 : k < ts.length) (h3 : k < values.length),
        ((ts.map fun p => (f * (p.1 * s), f * (p.2 * s))).zip values)[k].2 = values[k] ∧
        (convention.toList.map Char.toLower = "probe".toList →
          ((ts.map fun p => (f * (p.1 * s), f * (p.2 * s))).zip values)[k].1 = (f * ts[k].1, f * ts[k].2)) ∧
        (convention.toList.map Char.toLower ≠ "probe".toList →
          ((ts.map fun p => (f * (p.1 * s), f * (p.2 * s))).zip values)[k].1 = (-(f * ts[k].1), -(f * ts[k].2))) := by
    intro s hs k h1 h2 h3
    simp only [List.getElem_zip, List.getElem_map]
    refine ⟨trivial, fun h => ?_, fun h => ?_⟩
    · rw [if_neg (not_not.2 h)] at hs
      exact Prod.ext (by simp [← hs]) (by simp [← hs])
    · rw [if_pos h] at hs
      exact Prod.ext (by simp [← hs]) (by simp [← hs])
  exact ⟨_, rfl, by simp [hl], key _ rfl⟩

/-! ### Non-vacuity -/

example : ∃ e ∈ unitTable, e.1 = "nm" ∧ "NM".toList.map Char.toLower = e.1.toList := ⟨("nm", 1 / 10 ^ 9), by simp [unitTable], rfl, by decide⟩

example : ∀ e ∈ unitTable, "px".toList.map Char.toLower ≠ e.1.toList := by
  intro e he
  simp only [unitTable, List.mem_cons, List.not_mem_nil, or_false] at he
  rcases he with rfl | rfl | rfl | rfl | rfl | rfl | rfl | rfl <;> decide

/-- A skewed basis and a tilted view meet the hypotheses of the position theorems. -/
example : Vec3.cross (basisCol !![0, -1; -1, 1; 0, 2] 0) (basisCol !![0, -1; -1, 1; 0, 2] 1) ≠ 0 ∧ ∃ f, unitsFactor "um" = .ok f ∧ 0 < f := by
  constructor
  · intro h
    have := congrFun h 2
    simp [Vec3.cross, basisCol] at this
  · obtain ⟨f, h1, h2, -⟩ := units_factor ("um", 1 / 10 ^ 6) (by simp [unitTable]) "um" (by decide)
    exact ⟨f, h1, h2⟩

example : ∃ im : Fin 2 → ℂ, im 0 ≠ 0 ∧ im 1 ≠ im 0 := ⟨![1, Complex.I], by simp, by
  intro h
  have := congrArg Complex.re h
  simp at this⟩

end Cdtools.Plot
