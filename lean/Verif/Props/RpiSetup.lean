/-
C73: construction of `RPI` models (`models/rpi.py:41-484`). C74: saving and loading them (633-690).
-/
import Verif.Props.RpiForward

set_option linter.unusedSectionVars false

namespace Cdtools
open Finset Matrix

variable {n m a b k l : ℕ} [NeZero n] [NeZero m] [NeZero a] [NeZero b]

/-! ### C73: the initial object -/

/-- **C73** (choice of the initialization): names are recognized up to case and surrounding white space; anything else,
and `spectral` without a pattern, is KeyError. `from_calibration` never has a pattern. -/
theorem rpi_init_dispatch (name : List Char) (pattern : Bool) :
    (rpiInitOf name pattern = .ok .random ↔ normalizeName name = "random".toList) ∧
    (rpiInitOf name pattern = .ok .uniform ↔ normalizeName name = "uniform".toList) ∧
    (rpiInitOf name pattern = .ok .spectral ↔ normalizeName name = "spectral".toList ∧ pattern = true) ∧
    (∀ e, rpiInitOf name pattern = .error e → e = .keyError) := by
  have d1 : "random".toList ≠ "uniform".toList := by decide
  have d2 : "random".toList ≠ "spectral".toList := by decide
  have d3 : "uniform".toList ≠ "spectral".toList := by decide
  unfold rpiInitOf
  by_cases h1 : normalizeName name = "random".toList
  · simp only [h1, if_true]
    refine ⟨by simp, by simp, by simp, by simp⟩
  · by_cases h2 : normalizeName name = "uniform".toList
    · simp only [h2, if_neg d1.symm, if_true]
      refine ⟨by simp, by simp, by simp, by simp⟩
    · by_cases h3 : normalizeName name = "spectral".toList
      · simp only [h3, if_neg d2.symm, if_neg d3.symm, if_true]
        cases pattern <;> simp
      · simp only [if_neg h1, if_neg h2, if_neg h3]
        refine ⟨by simpa using h1, by simpa using h2, ?_, by simp⟩
        constructor
        · intro h; simp at h
        · rintro ⟨h, -⟩; exact absurd h h3

/-- Random and uniform guesses have modulus 1 everywhere. -/
theorem rpi_guess_modulus (i : RpiInit) (hi : i ≠ .spectral) (u : Fin l → ZMod a → ZMod b → ℝ) (spec : Fin l → Wave a b)
    (o : Fin l) (x : ZMod a) (y : ZMod b) : ‖rpiGuess i u spec o x y‖ = 1 := by
  cases i with
  | random =>
    simp only [rpiGuess]
    rw [show 2 * Complex.I * Real.pi * (u o x y : ℂ) = ((2 * Real.pi * u o x y : ℝ) : ℂ) * Complex.I by push_cast; ring]
    exact Complex.norm_exp_ofReal_mul_I _
  | uniform => simp [rpiGuess]
  | spectral => exact absurd rfl hi

/-- **C73** (initial transmission): a newly constructed model transmits exactly the initial guess (where that is not
zero), also in the exponentiated parametrization; an exponentiated `phase_only` model transmits the phases of the
guess. -/
theorem rpi_initial_transmission (M : Rpi n m a b k l) (guess : Fin l → Wave a b)
    (hM : M.obj = rpiStore M.exponentiate M.phaseOnly guess) (o : Fin l) (x : ZMod a) (y : ZMod b)
    (h0 : guess o x y ≠ 0) :
    (M.phaseOnly = false → M.transmission o x y = guess o x y) ∧
    (M.exponentiate = true → M.phaseOnly = true → M.transmission o x y = guess o x y / ‖guess o x y‖) := by
  refine ⟨fun hp => ?_, fun he hp => ?_⟩
  · unfold Rpi.transmission
    rw [hM, hp]
    rcases he : M.exponentiate
    · simp [rpiStore]
    · simp only [rpiStore, if_true, Bool.false_eq_true, if_false]
      rw [← mul_assoc, mul_neg, Complex.I_mul_I, neg_neg, one_mul, Complex.exp_log h0]
  · unfold Rpi.transmission
    rw [hM, hp, he]
    simp only [rpiStore, if_true, Complex.ofReal_re]
    have : (-Complex.I * Complex.log (guess o x y)).re = (guess o x y).arg := by
      simp [Complex.log_im]
    rw [this]
    have h := Complex.norm_mul_exp_arg_mul_I (guess o x y)
    have hn : (‖guess o x y‖ : ℂ) ≠ 0 := by simpa using h0
    rw [eq_div_iff hn, mul_comm Complex.I, mul_comm]
    exact h

/-- **C73 is violated** for `phase_only` without `exponentiate_obj`: the model is not restricted to phases; instead the
imaginary part of the initial guess is dropped. A guess of modulus 1 can become an opaque object. -/
theorem rpi_phase_only_violated : ∃ (guess : Fin 1 → Wave 1 1) (M : Rpi 2 2 1 1 1 1),
    (∀ o x y, ‖guess o x y‖ = 1) ∧ M.exponentiate = false ∧ M.phaseOnly = true ∧
      M.obj = rpiStore M.exponentiate M.phaseOnly guess ∧ ∀ o x y, M.transmission o x y = 0 := by
  refine ⟨fun _ _ _ => Complex.I, ⟨fun _ _ _ => 1, 1, rpiStore false true fun _ _ _ => Complex.I, fun _ _ => 1, false,
    true, ⟨2, 2, fun _ _ => 0⟩, none, 1⟩, fun _ _ _ => by simp, rfl, rfl, rfl, fun o x y => ?_⟩
  simp [Rpi.transmission, rpiStore]

/-! ### C73: the object grid -/

/-- The object grid covers the same region as the probe grid: the vectors along the sides of the arrays agree. -/
def SameRegion (n m a b : ℕ) (probeBasis objBasis : Matrix (Fin 3) (Fin 2) ℝ) : Prop :=
  (∀ i, objBasis i 0 * a = probeBasis i 0 * n) ∧ ∀ i, objBasis i 1 * b = probeBasis i 1 * m

/-- **C73** (object basis, what holds): the object grid covers the region of the probe exactly when both axes have the
same magnification (or the basis is degenerate). Missing: different magnifications, for which the code exchanges the
two factors. -/
theorem rpi_obj_basis_partial (B : Matrix (Fin 3) (Fin 2) ℝ) (h0 : ∃ i, B i 0 ≠ 0) :
    SameRegion n m a b B (rpiObjBasis n m a b B) ↔ n * b = m * a := by
  have ha : (a : ℝ) ≠ 0 := Nat.cast_ne_zero.2 (NeZero.ne a)
  have hb : (b : ℝ) ≠ 0 := Nat.cast_ne_zero.2 (NeZero.ne b)
  unfold SameRegion rpiObjBasis
  simp only [Matrix.of_apply, Matrix.cons_val_zero, Matrix.cons_val_one]
  constructor
  · rintro ⟨h, -⟩
    obtain ⟨i, hi⟩ := h0
    have := h i
    rw [mul_assoc, mul_right_inj' hi, div_mul_eq_mul_div, div_eq_iff hb] at this
    exact_mod_cast this.symm
  · intro h
    have hR : (n : ℝ) * b = m * a := by exact_mod_cast h
    refine ⟨fun i => ?_, fun i => ?_⟩
    · field_simp
      linear_combination (-B i 0) * hR
    · field_simp
      linear_combination (B i 1) * hR

/-- **C73 is violated** for a probe of 4 × 4 pixels and an object of 2 × 4 pixels, on a grid of unit pixels. -/
theorem rpi_obj_basis_violated :
    ¬ SameRegion 4 4 2 4 !![0, -1; -1, 0; 0, 0] (rpiObjBasis 4 4 2 4 !![0, -1; -1, 0; 0, 0]) := by
  haveI : NeZero (2 : ℕ) := ⟨by decide⟩
  haveI : NeZero (4 : ℕ) := ⟨by decide⟩
  rw [rpi_obj_basis_partial (n := 4) (m := 4) (a := 2) (b := 4) _ ⟨1, by simp⟩]
  decide

/-! ### C73: the support -/

/-- **C73** (support): it consists of the pixels where the low-resolution probe exceeds the threshold and their direct
neighbours; for a threshold below 1 and a probe that does not vanish it is not empty. -/
theorem rpi_support_correct (threshold : ℝ) (lr : ZMod a → ZMod b → ℝ) :
    (∀ x y, lr x y > imgMax lr * threshold → rpiSupport threshold lr x y) ∧
    (∀ x y, rpiSupport threshold lr x y ↔ ∃ x' y', lr x' y' > imgMax lr * threshold ∧
      ((x'.val : ℤ) - x.val).natAbs + ((y'.val : ℤ) - y.val).natAbs ≤ 1) ∧
    (threshold < 1 → (∃ x y, 0 < lr x y) → ∃ x y, rpiSupport threshold lr x y) ∧
    (1 ≤ threshold → (∀ x y, 0 ≤ lr x y) → ∀ x y, ¬ rpiSupport threshold lr x y) := by
  have hle : ∀ x y, lr x y ≤ imgMax lr := fun x y =>
    le_sup' (s := (univ : Finset (ZMod a × ZMod b))) (fun p => lr p.1 p.2) (mem_univ (x, y))
  have hsub : ∀ x y, lr x y > imgMax lr * threshold → rpiSupport threshold lr x y := fun x y h => Or.inl h
  have hnear : ∀ x y, rpiSupport threshold lr x y → ∃ x' y', lr x' y' > imgMax lr * threshold ∧
      ((x'.val : ℤ) - x.val).natAbs + ((y'.val : ℤ) - y.val).natAbs ≤ 1 := by
    rintro x y (h | ⟨x', h', h⟩ | ⟨y', h', h⟩)
    · exact ⟨x, y, h, by omega⟩
    · exact ⟨x', y, h, by omega⟩
    · exact ⟨x, y', h, by omega⟩
  have hfar : ∀ x y, (∃ x' y', lr x' y' > imgMax lr * threshold ∧
      ((x'.val : ℤ) - x.val).natAbs + ((y'.val : ℤ) - y.val).natAbs ≤ 1) → rpiSupport threshold lr x y := by
    rintro x y ⟨x', y', h, hd⟩
    by_cases hx : x'.val = x.val
    · have hx' := ZMod.val_injective a hx
      subst hx'
      by_cases hy : y'.val = y.val
      · have hy' := ZMod.val_injective b hy
        subst hy'
        exact Or.inl h
      · exact Or.inr (Or.inr ⟨y', by omega, h⟩)
    · have hy' := ZMod.val_injective b (show y'.val = y.val by omega)
      subst hy'
      exact Or.inr (Or.inl ⟨x', by omega, h⟩)
  refine ⟨hsub, fun x y => ⟨hnear x y, hfar x y⟩, fun ht ⟨x0, y0, h0⟩ => ?_, fun ht hn x y h => ?_⟩
  · obtain ⟨p, -, hp⟩ := exists_mem_eq_sup' (s := (univ : Finset (ZMod a × ZMod b))) univ_nonempty fun p => lr p.1 p.2
    refine ⟨p.1, p.2, hsub _ _ ?_⟩
    have hm : imgMax lr = lr p.1 p.2 := hp
    have : 0 < imgMax lr := lt_of_lt_of_le h0 (hle x0 y0)
    rw [← hm]
    nlinarith
  · obtain ⟨x', y', h1, -⟩ := hnear x y h
    have h2 := hle x' y'
    have h3 : 0 ≤ imgMax lr := (hn x y).trans (hle x y)
    nlinarith

/-- **C73** (when the support can be computed): for objects no larger than the probe, exactly when the object is strictly
smaller in both directions; **violated** for objects of the full size of the probe in one direction, which the
interaction supports (`rpi_interaction_preserves`). -/
theorem rpi_support_fails_iff (probe : Fin k → Wave n m) (ha : a ≤ n) (hb : b ≤ m) :
    (∃ lr, rpiLowRes a b probe = .ok lr) ↔ a < n ∧ b < m := by
  unfold rpiLowRes
  simp only
  split_ifs with h
  · simp only [reduceCtorEq, exists_false, false_iff]
    omega
  · simp only [Except.ok.injEq, exists_eq', true_iff]
    omega

/-- **C73** (uniform illumination): for a probe of constant root sum squared amplitude `A > 0` and sizes with centred cuts,
the support is the whole object, at every threshold in `[0, 1)`. -/
theorem rpi_support_uniform (probe : Fin k → Wave n m) {A : ℝ} (hA : 0 < A)
    (hp : ∀ x y, Real.sqrt (∑ i, ‖probe i x y‖ ^ 2) = A) (ha : a < n) (hb : b < m)
    (c0 : (n - a) / 2 + a / 2 = n / 2) (c1 : (m - b) / 2 + b / 2 = m / 2) {threshold : ℝ} (ht : threshold < 1) :
    ∃ lr, rpiLowRes a b probe = .ok lr ∧ ∀ x y, rpiSupport threshold lr x y := by
  obtain ⟨lr, hlr⟩ := (rpi_support_fails_iff probe ha.le hb.le).2 ⟨ha, hb⟩
  refine ⟨lr, hlr, ?_⟩
  unfold rpiLowRes at hlr
  simp only at hlr
  split_ifs at hlr with hc
  injection hlr with hlr
  simp only [hp] at hlr
  set F : Wave n m := farField fun _ _ => (A : ℂ) with hF
  have hFd : ∀ x y, F x y = if x = ((n / 2 : ℕ) : ZMod n) ∧ y = ((m / 2 : ℕ) : ZMod m) then F ((n / 2 : ℕ) : ZMod n)
      ((m / 2 : ℕ) : ZMod m) else 0 := by
    intro x y
    rw [hF, far_field_unitary.2.2.2.2.2 _ x y, far_field_unitary.2.2.2.2.2 _ ((n / 2 : ℕ) : ZMod n) ((m / 2 : ℕ) : ZMod m)]
    by_cases h : x = ((n / 2 : ℕ) : ZMod n) ∧ y = ((m / 2 : ℕ) : ZMod m)
    · rw [if_pos h, if_pos h, if_pos ⟨rfl, rfl⟩]
    · rw [if_neg h, if_neg h]
  have hn0 := NeZero.pos n
  have hm0 := NeZero.pos m
  have cast_iff : ∀ {N u v : ℕ}, u < N → v < N → (((u : ℕ) : ZMod N) = ((v : ℕ) : ZMod N) ↔ u = v) := by
    intro N u v hu hv
    rw [ZMod.natCast_eq_natCast_iff', Nat.mod_eq_of_lt hu, Nat.mod_eq_of_lt hv]
  -- the cut spectrum is again a single peak at the centre
  have hcut : (fun (x : ZMod a) (y : ZMod b) => F (((n - a) / 2 + x.val : ℕ) : ZMod n) (((m - b) / 2 + y.val : ℕ) : ZMod m)) =
      (F ((n / 2 : ℕ) : ZMod n) ((m / 2 : ℕ) : ZMod m) / (Real.sqrt (a * b) : ℂ)) • farField (fun (_ : ZMod a) (_ : ZMod b) => (1 : ℂ)) := by
    funext x y
    have hx := ZMod.val_lt x
    have hy := ZMod.val_lt y
    have ha0 := NeZero.pos a
    have hb0 := NeZero.pos b
    have ex : (((n - a) / 2 + x.val : ℕ) : ZMod n) = ((n / 2 : ℕ) : ZMod n) ↔ x = ((a / 2 : ℕ) : ZMod a) := by
      rw [cast_iff (by omega) (by omega)]
      constructor
      · intro h
        have : x.val = a / 2 := by omega
        rw [← this, ZMod.natCast_zmod_val]
      · intro h
        have : x.val = a / 2 := by rw [h, ZMod.val_natCast, Nat.mod_eq_of_lt (by omega)]
        omega
    have ey : (((m - b) / 2 + y.val : ℕ) : ZMod m) = ((m / 2 : ℕ) : ZMod m) ↔ y = ((b / 2 : ℕ) : ZMod b) := by
      rw [cast_iff (by omega) (by omega)]
      constructor
      · intro h
        have : y.val = b / 2 := by omega
        rw [← this, ZMod.natCast_zmod_val]
      · intro h
        have : y.val = b / 2 := by rw [h, ZMod.val_natCast, Nat.mod_eq_of_lt (by omega)]
        omega
    rw [hFd]
    simp only [Pi.smul_apply, smul_eq_mul, ex, ey]
    rw [far_field_unitary.2.2.2.2.2 _ x y]
    have hs : ((Real.sqrt (a * b) : ℝ) : ℂ) ≠ 0 := by
      rw [Complex.ofReal_ne_zero]; exact (Real.sqrt_pos.2 (by positivity)).ne'
    by_cases h : x = ((a / 2 : ℕ) : ZMod a) ∧ y = ((b / 2 : ℕ) : ZMod b)
    · rw [if_pos h, if_pos h]
      field_simp
    · rw [if_neg h, if_neg h, mul_zero]
  have hconst : ∃ c : ℝ, 0 < c ∧ lr = fun _ _ => c := by
    refine ⟨‖F ((n / 2 : ℕ) : ZMod n) ((m / 2 : ℕ) : ZMod m) / (Real.sqrt (a * b) : ℂ)‖, ?_, ?_⟩
    · rw [norm_pos_iff]
      have ha0 := NeZero.pos a
      have hb0 := NeZero.pos b
      refine div_ne_zero ?_ ?_
      · rw [hF, far_field_unitary.2.2.2.2.2 _ _ _, if_pos ⟨rfl, rfl⟩]
        refine mul_ne_zero (by exact_mod_cast hA.ne') ?_
        rw [Complex.ofReal_ne_zero]; exact (Real.sqrt_pos.2 (by positivity)).ne'
      · rw [Complex.ofReal_ne_zero]; exact (Real.sqrt_pos.2 (by positivity)).ne'
    · rw [← hlr]
      funext x y
      rw [hcut, isLinear_inverseFarField.map_smul, far_field_unitary.1]
      simp
  obtain ⟨c, hc0, rfl⟩ := hconst
  intro x y
  refine (rpi_support_correct threshold _).1 x y ?_
  have : imgMax (fun (_ : ZMod a) (_ : ZMod b) => c) = c := by
    unfold imgMax
    exact sup'_const _ _
  rw [this]
  nlinarith

/-! ### C73: calibrations -/

/-- **C73 is violated** by `from_calibration` (detector geometry): for a probe grid in the plane perpendicular to the
beam, the detector basis has infinite entries; and every finite entry `d`, at the distance 1, fulfils `B d = λ` instead
of `n B d = λ` for the `n` pixels of the probe, so it is `n` times too large. -/
theorem calibration_geometry_violated (wavelength : ℝ) (B : Matrix (Fin 3) (Fin 2) ℝ) :
    ((∀ j, B 2 j = 0) → ∀ j, calibrationDetBasis wavelength B 2 j = none) ∧
    ∀ i j, B i j ≠ 0 → ∃ d, calibrationDetBasis wavelength B i j = some d ∧ B i j * d = wavelength := by
  refine ⟨fun h j => by simp [calibrationDetBasis, h], fun i j h => ⟨wavelength / B i j, by simp [calibrationDetBasis, h], ?_⟩⟩
  field_simp

theorem bc_same (x : ℕ) : bcDim x x = some x := by simp [bcDim]

theorem broadcast_plane (x y : ℕ) : broadcastShapes [x, y] [x, y] = some [x, y] := by
  simp [broadcastShapes, bcRev, bcDim]

/-- **C73** (calibrations, shapes): with a background of the shape of the detector, one index simulates one pattern of
the shape of the detector. Without a background in the calibration, the simulation of a probe with `k` modes has
`k` patterns instead of one, and a batch of `N` exposures cannot be simulated at all when `N` and `k` are different and
both at least 2. -/
theorem calibration_background_violated (k n m : ℕ) :
    rpiSimShape n m 1 none (calibrationShape k n m (some [n, m])) = .ok [n, m] ∧
    (∀ N, rpiSimShape n m 1 (some N) (calibrationShape k n m (some [n, m])) = .ok [1, N, n, m]) ∧
    rpiSimShape n m 1 none (calibrationShape k n m none) = .ok [k, n, m] ∧
    ∀ N, 2 ≤ N → 2 ≤ k → N ≠ k → rpiSimShape n m 1 (some N) (calibrationShape k n m none) = .error .runtimeError := by
  refine ⟨by simp [rpiSimShape, calibrationShape, broadcastShapes, bcRev, bcDim],
    fun N => by simp [rpiSimShape, calibrationShape, broadcastShapes, bcRev, bcDim],
    by simp [rpiSimShape, calibrationShape, broadcastShapes, bcRev, bcDim], fun N hN hk hne => ?_⟩
  have h1 : bcDim N k = none := by
    unfold bcDim
    rw [if_neg hne, if_neg (by omega), if_neg (by omega)]
  simp [rpiSimShape, calibrationShape, broadcastShapes, bcRev, bc_same, h1]

/-- **C73 is violated** for the results of `FancyPtycho.save_results` (which contain no `mask`) with several probe modes:
the default mask selects every pixel `k` times for one exposure, and raises for a batch of `N` exposures when `N` and
`k` are different and both at least 2. -/
theorem calibration_mask_violated (k n m : ℕ) :
    maskedCount [1, n, m] (calibrationShape k n m none) = .ok (k * n * m) ∧
    ∀ N, 2 ≤ N → 2 ≤ k → N ≠ k → maskedCount [N, n, m] (calibrationShape k n m none) = .error .runtimeError := by
  refine ⟨?_, fun N hN hk hne => ?_⟩
  · by_cases hk : 1 = k
    · subst hk; simp [maskedCount, calibrationShape, broadcastShapes, bcRev, bcDim]
    · simp [maskedCount, calibrationShape, broadcastShapes, bcRev, bcDim, hk]
  · have h1 : bcDim N k = none := by
      unfold bcDim
      rw [if_neg hne, if_neg (by omega), if_neg (by omega)]
    simp [maskedCount, calibrationShape, broadcastShapes, bcRev, bc_same, h1]

/-- **C73 is violated** with oversampling: the default background has the shape of the probe, and cannot be added to a
pattern with fewer pixels. -/
theorem rpi_default_background_violated (M : Rpi n m a b k l) (hs : 2 ≤ M.oversampling) (hn : 2 ≤ n / M.oversampling)
    (hb : M.background = rpiDefaultBackground n m) (index : RpiIndex) : M.forward index = .error .runtimeError := by
  have hne : n / M.oversampling ≠ n := by
    have h1 : n ≠ 0 := NeZero.ne n
    exact (Nat.div_lt_self (Nat.pos_of_ne_zero h1) hs).ne
  have hn1 : n ≠ 1 := by
    rintro rfl
    have := Nat.div_le_self 1 M.oversampling
    omega
  unfold Rpi.forward Rpi.pattern
  simp only [Rpi.sumModes_eq]
  have hh : ∀ A : Img ℝ, A.h = n → (readOut { oversampling := M.oversampling } A).h = n / M.oversampling := by
    intro A hA
    have h1 : M.oversampling ≠ 1 := by omega
    simp [readOut, saturate, cutSlice, Img.map, binPixels, Img.avgPool, hA, h1]
  have hd : bcDim (n / M.oversampling) n = none := by
    unfold bcDim
    rw [if_neg hne, if_neg (by omega), if_neg hn1]
  unfold Img.bzip
  rw [hh _ rfl, hb]
  simp only [rpiDefaultBackground, hd]
  rfl

example : (⟨fun _ _ _ => 1, 1, fun _ _ _ => 1, fun _ _ => 1, false, false, rpiDefaultBackground 4 4, none, 2⟩ :
    Rpi 4 4 2 2 1 1).forward (.one 0) = .error .runtimeError :=
  rpi_default_background_violated _ (by norm_num) (by norm_num) rfl _

/-! ### C74: saving and loading -/

namespace RpiIO
open Cdtools.FancyIO (ParamArr)

variable {D : Type}

/-- The state dictionaries a model can have: those of a constructed model, whose values (not shapes) have been changed by
optimization or by the user. -/
def Reachable (C : Ctor D) (sd : StateDict D) : Prop :=
  ∃ args s0, C.init args = .ok s0 ∧ ∀ key, (sd key).map (·.shape) = (s0 key).map (·.shape)

theorem all_keys (p : Key → Bool) : (allKeys.all p = true) ↔ ∀ key, p key = true := by
  refine ⟨fun h key => ?_, fun h => List.all_eq_true.2 fun key _ => h key⟩
  exact List.all_eq_true.1 h key (by cases key <;> simp [allKeys])

/-- **C74.** Loading saved results restores all parameters and buffers, the loss, the loss history, the epoch and the
training history of every `RPI` model whose support has the shape of one object mode and whose object has three
dimensions (as the constructor makes it by default). The propagation direction and the rest of the defaults may have
any shape. -/
theorem rpi_results_round_trip (C : Ctor D) (M : RpiModel D) (hr : Reachable C M.sd)
    (hobj : ∀ o, M.sd .obj = some o → o.shape.length = 3)
    (hs : ∀ s o, M.sd .objSupport = some s → M.sd .obj = some o → s.shape = o.shape.tail)
    (hdist : ∀ p, M.sd .propagationDistance = some p → p.shape = (C.dflt .propagationDistance).shape) :
    fromResultsDict C (saveResults M) = .ok { M with trainWeights := false } := by
  obtain ⟨args, s0, h0, hsh⟩ := hr
  have hsome : ∀ key, (M.sd key).isSome = (s0 key).isSome := by
    intro key
    have := hsh key
    cases h1 : M.sd key <;> cases h2 : s0 key <;> simp_all
  unfold Ctor.init at h0
  rcases a1 : args .wavelength with _ | wl
  · simp [a1] at h0
  rcases a2 : args .detBasis with _ | db
  · simp [a1, a2] at h0
  rcases a3 : args .probeBasis with _ | pb
  · simp [a1, a2, a3] at h0
  rcases a4 : args .probe with _ | pr
  · simp [a1, a2, a3, a4] at h0
  rcases a5 : args .obj with _ | o
  · simp [a1, a2, a3, a4, a5] at h0
  simp only [a1, a2, a3, a4, a5, Except.ok.injEq] at h0
  have get : ∀ key, (s0 key).isSome = true → ∃ v, M.sd key = some v := by
    intro key h
    rw [← hsome] at h
    exact Option.isSome_iff_exists.1 h
  obtain ⟨v1, e1⟩ := get .wavelength (by rw [← h0]; rfl)
  obtain ⟨v2, e2⟩ := get .detBasis (by rw [← h0]; rfl)
  obtain ⟨v3, e3⟩ := get .probeBasis (by rw [← h0]; rfl)
  obtain ⟨v4, e4⟩ := get .probe (by rw [← h0]; rfl)
  obtain ⟨v5, e5⟩ := get .obj (by rw [← h0]; rfl)
  obtain ⟨v6, e6⟩ := get .background (by rw [← h0]; rfl)
  have hl : lossOf (lossFunctionName M.loss) = .ok M.loss := by cases M.loss <;> rfl
  have s3 : v3.shape = pb.shape := by
    have := hsh .probeBasis; rw [e3, ← h0] at this; simpa [Ctor.entry] using this
  have s4 : v4.shape = pr.shape := by
    have := hsh .probe; rw [e4, ← h0] at this; simpa [Ctor.entry] using this
  have w5 : withModes v5.shape = v5.shape := by
    unfold withModes; rw [if_neg (by rw [hobj v5 e5]; decide)]
  have hinit : ∃ s1, C.init (resultArgs M.sd) = .ok s1 ∧ ∀ key, (s1 key).map (·.shape) = (M.sd key).map (·.shape) := by
    unfold Ctor.init
    have r1 : resultArgs M.sd .wavelength = some v1 := e1
    have r2 : resultArgs M.sd .detBasis = some v2 := e2
    have r3 : resultArgs M.sd .probeBasis = some v3 := e3
    have r4 : resultArgs M.sd .probe = some v4 := e4
    have r5 : resultArgs M.sd .obj = some v5 := e5
    have r6 : resultArgs M.sd .background = some v6 := e6
    simp only [r1, r2, r3, r4, r5]
    refine ⟨_, rfl, ?_⟩
    have hdef : ∀ key, (s0 key).isSome = true → ((some (C.entry key ((M.sd key).getD (C.dflt key)))).map (·.shape) =
        (M.sd key).map (·.shape)) := by
      intro key hk
      obtain ⟨v, hv⟩ := get key hk
      rw [hv]; rfl
    have hopt : ∀ key, ((M.sd key).map (C.entry key)).map (·.shape) = (M.sd key).map (·.shape) := by
      intro key; rw [Option.map_map]; rfl
    intro key
    cases key with
    | wavelength => rw [e1]; rfl
    | detBasis => rw [e2]; rfl
    | detDistance => exact hopt _
    | detCorner => exact hopt _
    | probeBasis => rw [e3]; rfl
    | objBasis => rw [hsh .objBasis, ← h0]; simp [s3]
    | saturation => exact hopt _
    | mask => exact hopt _
    | probe => rw [e4]; rfl
    | exponentiateObj => exact hdef _ (by rw [← h0]; rfl)
    | phaseOnly => exact hdef _ (by rw [← h0]; rfl)
    | obj => rw [e5]; simp [w5]
    | weights => rw [hsh .weights, ← h0]; simp [s4]
    | background => rw [e6]; simp only [r6]; rfl
    | objSupport =>
      obtain ⟨v, hv⟩ := get .objSupport (by rw [← h0]; rfl)
      rw [hv]
      simp only [resultArgs, Option.map_some, w5, hs v v5 hv e5]
    | oversampling => exact hdef _ (by rw [← h0]; rfl)
    | propagationDistance =>
      obtain ⟨v, hv⟩ := get .propagationDistance (by rw [← h0]; rfl)
      rw [hv]
      simp [resultArgs, Ctor.entry, hdist v hv]
    | propDir => rw [hsh .propDir, ← h0]
  obtain ⟨s1, hi1, hs1⟩ := hinit
  have hload : loadParams s1 M.sd = .ok M.sd := by
    unfold loadParams
    rw [if_pos]
    · congr 1
      funext key
      have := hs1 key
      cases h1 : s1 key <;> cases h2 : M.sd key <;> simp_all
    · rw [all_keys]
      intro key
      have := hs1 key
      cases h1 : s1 key <;> cases h2 : M.sd key <;> simp_all
  unfold fromResultsDict saveResults
  simp only [hi1, hl, hload]

/-- **C74 is violated** for models that refine the weight matrix: after loading, the weights are frozen. -/
theorem rpi_weight_matrix_violated (C : Ctor D) (M M' : RpiModel D) (h : fromResultsDict C (saveResults M) = .ok M') :
    M'.trainWeights = false := by
  unfold fromResultsDict at h
  split at h
  · cases h
  · cases h
  · split at h
    · cases h
    · injection h with h; rw [← h]

/-- **C74 is violated** for supports of another shape than the object (which the constructor and the interaction accept
whenever they can be broadcast, for instance one line of the object for all lines): loading raises RuntimeError. -/
theorem rpi_broadcast_support_violated (C : Ctor D) (M : RpiModel D) (s o : ParamArr D) (h1 : M.sd .objSupport = some s)
    (h2 : M.sd .obj = some o) (h3 : o.shape.length = 3) (hne : s.shape ≠ o.shape.tail) (M' : RpiModel D) :
    fromResultsDict C (saveResults M) ≠ .ok M' := by
  intro h
  unfold fromResultsDict saveResults at h
  rcases hi : C.init (resultArgs M.sd) with e | s1
  · simp [hi] at h
  have hss : (s1 .objSupport).map (·.shape) = some o.shape.tail := by
    unfold Ctor.init at hi
    have r5 : resultArgs M.sd .obj = some o := h2
    split at hi
    · rename_i o' _ _ _ _ ho
      rw [r5] at ho
      injection ho with ho
      injection hi with hi
      rw [← hi, ← ho]
      have : withModes o.shape = o.shape := by unfold withModes; rw [if_neg (by rw [h3]; decide)]
      simp [resultArgs, this]
    · cases hi
  have hload : loadParams s1 M.sd = .error .runtimeError := by
    unfold loadParams
    rw [if_neg]
    rw [all_keys]
    intro hall
    have := hall .objSupport
    rcases hx : s1 .objSupport with _ | x
    · simp [hx] at hss
    · simp [hx] at hss
      rw [h1, hx] at this
      simp only [decide_eq_true_eq] at this
      exact hne (by rw [← this, hss])
  have hl : lossOf (lossFunctionName M.loss) = .ok M.loss := by cases M.loss <;> rfl
  simp only [hi, hl, hload] at h
  cases h

/-- A two-dimensional object guess gets one mode axis of length one; a guess with a mode axis is taken as it is; the default support
has the shape of one mode. -/
theorem rpi_object_mode_axis (C : Ctor D) (args : Key → Option (ParamArr D)) (sd : StateDict D) (h : C.init args = .ok sd) (o : ParamArr D)
    (ho : args .obj = some o) (a b : ℕ) (hs : o.shape = [a, b] ∨ ∃ k, o.shape = [k, a, b]) :
    (∃ k p, sd .obj = some p ∧ p.shape = [k, a, b] ∧ (o.shape = [a, b] → k = 1) ∧ (o.shape = [k, a, b] ∨ o.shape = [a, b])) ∧
    (args .objSupport = none → ∃ p, sd .objSupport = some p ∧ p.shape = [a, b]) := by
  unfold Ctor.init at h
  split at h
  · rename_i o' _ _ _ _ ho'
    rw [ho] at ho'
    injection ho' with ho'
    subst ho'
    injection h with h
    subst h
    rcases hs with hs | ⟨k, hs⟩
    · refine ⟨⟨1, _, rfl, by simp [withModes, hs], fun _ => rfl, Or.inr hs⟩, fun hn => ⟨_, rfl, by simp [hn, withModes, hs]⟩⟩
    · refine ⟨⟨k, _, rfl, by simp [withModes, hs], fun h2 => by rw [hs] at h2; simp at h2, Or.inl hs⟩,
        fun hn => ⟨_, rfl, by simp [hn, withModes, hs]⟩⟩
  · cases h

/-- Non-vacuity of the round trip: two probe modes, one object mode, everything else left to its default. -/
example : ∃ (C : Ctor ℕ) (M : RpiModel ℕ), Reachable C M.sd ∧ M.sd .mask = none ∧
    M.sd .weights = some ⟨[2, 2], 7⟩ ∧ fromResultsDict C (saveResults M) = .ok { M with trainWeights := false } := by
  let C : Ctor ℕ := ⟨fun _ x => x.data, fun _ => ⟨[], 0⟩, fun _ _ _ => 3, fun _ => 7⟩
  let args : Key → Option (ParamArr ℕ)
    | .wavelength => some ⟨[], 1⟩
    | .detBasis => some ⟨[3, 2], 2⟩
    | .probeBasis => some ⟨[3, 2], 2⟩
    | .probe => some ⟨[2, 8, 8], 5⟩
    | .obj => some ⟨[4, 4], 6⟩
    | _ => none
  obtain ⟨s0, hs0⟩ : ∃ s0, C.init args = .ok s0 := ⟨_, rfl⟩
  have hs0' := hs0
  injection hs0' with hs0'
  refine ⟨C, ⟨s0, true, .amplitudeMse, [], 0, ""⟩, ⟨args, s0, hs0, fun _ => rfl⟩, by rw [← hs0']; rfl, by rw [← hs0']; rfl,
    rpi_results_round_trip C _ ⟨args, s0, hs0, fun _ => rfl⟩ ?_ ?_ ?_⟩
  · intro o ho; simp only [← hs0'] at ho; injection ho with ho; rw [← ho]; rfl
  · intro s o hs ho
    simp only [← hs0'] at hs ho
    injection hs with hs; injection ho with ho; rw [← hs, ← ho]
  · intro p hp; simp only [← hs0'] at hp; injection hp with hp; rw [← hp]; rfl

end RpiIO

end Cdtools
