/-
C83: center_probes; C84: per-exposure views of the light field.
-/
import Verif.Model.CenterProbes
import Verif.Props.Centering
import Verif.Props.FancyForward
import Verif.Props.Upsample
import Verif.Props.Modes
import Verif.Props.Multislice

set_option linter.unusedSectionVars false
set_option linter.unusedSimpArgs false

namespace Cdtools
open Finset ZMod

variable {n m a b N k : ℕ} [NeZero n] [NeZero m] [NeZero a] [NeZero b]

/-! ### Lemmas -/

/-- Some pixel of some mode is lit. -/
def Lit (P : Fin k → Wave n m) : Prop := ∃ j x y, P j x y ≠ 0

theorem centerStack_shift (it : ℕ) (P : Fin k → Wave n m) (h : Lit P) :
    ∃ t0 t1 : ℝ, centerStack it P = some fun j => sincShift (P j) t0 t1 := by
  obtain ⟨j, x, y, hj⟩ := h
  obtain ⟨t0, t1, ht, -⟩ := center_common_shift true it (List.ofFn P) ⟨P j, by simp, x, y, hj⟩
  refine ⟨t0, t1, ?_⟩
  unfold centerStack
  rw [ht]
  simp only [Option.map_some]
  congr 1
  funext j
  simp [List.getD]

/-- The modulus of a shifted wave in Fourier space. -/
theorem fft2_sincShift_norm (w : Wave n m) (s0 s1 : ℝ) (p : ZMod n) (l : ZMod m) :
    ‖fft2 (sincShift w s0 s1) p l‖ = ‖fft2 w p l‖ := by
  rw [sincShift_mask, norm_mul]
  have : ∀ x : ℝ, ‖Complex.exp (Complex.I * (x : ℂ))‖ = 1 := by
    intro x; rw [mul_comm]; exact Complex.norm_exp_ofReal_mul_I x
  have h := this (-s0 * (2 * Real.pi * (((p + ((n / 2 : ℕ) : ZMod n)).val : ℝ) - ((n / 2 : ℕ) : ℝ)) / n) -
        s1 * (2 * Real.pi * (((l + ((m / 2 : ℕ) : ZMod m)).val : ℝ) - ((m / 2 : ℕ) : ℝ)) / m))
  push_cast at h
  rw [h, mul_one]

theorem fft2_sincShift_conj (v w : Wave n m) (s0 s1 : ℝ) (p : ZMod n) (l : ZMod m) :
    fft2 (sincShift v s0 s1) p l * (starRingEnd ℂ) (fft2 (sincShift w s0 s1) p l) =
      fft2 v p l * (starRingEnd ℂ) (fft2 w p l) := by
  rw [sincShift_mask, sincShift_mask, map_mul]
  have : ∀ x : ℝ, Complex.exp (Complex.I * (x : ℂ)) * (starRingEnd ℂ) (Complex.exp (Complex.I * (x : ℂ))) = 1 := by
    intro x
    rw [Complex.mul_conj', mul_comm, Complex.norm_exp_ofReal_mul_I]; simp
  have h := this (-s0 * (2 * Real.pi * (((p + ((n / 2 : ℕ) : ZMod n)).val : ℝ) - ((n / 2 : ℕ) : ℝ)) / n) -
        s1 * (2 * Real.pi * (((l + ((m / 2 : ℕ) : ZMod m)).val : ℝ) - ((m / 2 : ℕ) : ℝ)) / m))
  push_cast at h
  rw [mul_mul_mul_comm, h, mul_one]

/-- Shifting keeps all overlaps. -/
theorem sincShift_inner (v w : Wave n m) (s0 s1 : ℝ) :
    ∑ i, ∑ j, sincShift v s0 s1 i j * (starRingEnd ℂ) (sincShift w s0 s1 i j) =
      ∑ i, ∑ j, v i j * (starRingEnd ℂ) (w i j) := by
  have hne : ((n : ℂ) * m) ≠ 0 := by
    have h1 : (n : ℂ) ≠ 0 := by exact_mod_cast NeZero.ne n
    have h2 : (m : ℂ) ≠ 0 := by exact_mod_cast NeZero.ne m
    exact mul_ne_zero h1 h2
  apply mul_left_cancel₀ hne
  rw [← fft2_inner, ← fft2_inner]
  refine sum_congr rfl fun p _ => sum_congr rfl fun l _ => fft2_sincShift_conj v w s0 s1 p l

theorem farField_norm (w : Wave n m) (x : ZMod n) (y : ZMod m) :
    ‖farField w x y‖ = ‖fft2 w (x - ((n / 2 : ℕ) : ZMod n)) (y - ((m / 2 : ℕ) : ZMod m))‖ / Real.sqrt (n * m) := by
  have h : ifftshift2 w = fun i j => w (i - -((n / 2 : ℕ) : ZMod n)) (j - -((m / 2 : ℕ) : ZMod m)) := by
    funext i j; simp [ifftshift2]
  simp only [farField, fftshift2]
  rw [h, fft2_roll, norm_div, norm_mul, norm_mul, stdAddChar_norm, stdAddChar_norm, one_mul, one_mul,
    Complex.norm_real, Real.norm_of_nonneg (Real.sqrt_nonneg _)]

theorem inverseFarField_norm (w : Wave n m) (x : ZMod n) (y : ZMod m) :
    ‖inverseFarField w x y‖ =
      ‖fft2 w (((n / 2 : ℕ) : ZMod n) - x) (((m / 2 : ℕ) : ZMod m) - y)‖ / (n * m) * Real.sqrt (n * m) := by
  rw [inverseFarField_eq, norm_mul, norm_div, Complex.norm_real, Real.norm_of_nonneg (Real.sqrt_nonneg _)]
  congr 2
  · rw [fft2_eq]
    have : (∑ k, ∑ l, (stdAddChar ((x - ((n / 2 : ℕ) : ZMod n)) * (k - ((n / 2 : ℕ) : ZMod n))) *
        stdAddChar ((y - ((m / 2 : ℕ) : ZMod m)) * (l - ((m / 2 : ℕ) : ZMod m))) * w k l : ℂ)) =
        (stdAddChar (-((x - ((n / 2 : ℕ) : ZMod n)) * ((n / 2 : ℕ) : ZMod n))) *
          stdAddChar (-((y - ((m / 2 : ℕ) : ZMod m)) * ((m / 2 : ℕ) : ZMod m)))) *
        ∑ i, ∑ j, stdAddChar (-(i * (((n / 2 : ℕ) : ZMod n) - x))) *
          stdAddChar (-(j * (((m / 2 : ℕ) : ZMod m) - y))) * w i j := by
      rw [mul_sum]
      refine sum_congr rfl fun k _ => ?_
      rw [mul_sum]
      refine sum_congr rfl fun l _ => ?_
      rw [show (x - ((n / 2 : ℕ) : ZMod n)) * (k - ((n / 2 : ℕ) : ZMod n)) =
          -((x - ((n / 2 : ℕ) : ZMod n)) * ((n / 2 : ℕ) : ZMod n)) + -(k * (((n / 2 : ℕ) : ZMod n) - x)) by ring,
        show (y - ((m / 2 : ℕ) : ZMod m)) * (l - ((m / 2 : ℕ) : ZMod m)) =
          -((y - ((m / 2 : ℕ) : ZMod m)) * ((m / 2 : ℕ) : ZMod m)) + -(l * (((m / 2 : ℕ) : ZMod m) - y)) by ring,
        AddChar.map_add_eq_mul, AddChar.map_add_eq_mul]
      ring
    rw [this, norm_mul, norm_mul, stdAddChar_norm, stdAddChar_norm, one_mul, one_mul]
  · simp

theorem farField_inner (v w : Wave n m) :
    ∑ x, ∑ y, farField v x y * (starRingEnd ℂ) (farField w x y) = ∑ x, ∑ y, v x y * (starRingEnd ℂ) (w x y) := by
  have hpos : (0 : ℝ) < n * m := by
    have := Nat.pos_of_ne_zero (NeZero.ne n); have := Nat.pos_of_ne_zero (NeZero.ne m); positivity
  have hne : ((n : ℂ) * m) ≠ 0 := by exact_mod_cast hpos.ne'
  have h1 : ∀ x y, farField v x y * (starRingEnd ℂ) (farField w x y) =
      (fun x y => fft2 (ifftshift2 v) x y * (starRingEnd ℂ) (fft2 (ifftshift2 w) x y) / ((n : ℂ) * m))
        (x + -((n / 2 : ℕ) : ZMod n)) (y + -((m / 2 : ℕ) : ZMod m)) := by
    intro x y
    simp only [farField, fftshift2, ← sub_eq_add_neg]
    rw [map_div₀, Complex.conj_ofReal, div_mul_div_comm, ← Complex.ofReal_mul, Real.mul_self_sqrt hpos.le]
    push_cast; rfl
  simp only [h1]
  rw [sum_roll (fun x y => fft2 (ifftshift2 v) x y * (starRingEnd ℂ) (fft2 (ifftshift2 w) x y) / ((n : ℂ) * m))]
  simp only [← sum_div]
  rw [fft2_inner, mul_div_cancel_left₀ _ hne]
  exact sum_roll (fun x y => v x y * (starRingEnd ℂ) (w x y)) _ _

/-! ### C83: center_probes -/

/-- The probe modes of a model in real space. -/
noncomputable def Fancy.realProbe (M : Fancy n m a b N k) (j : Fin k) : Wave n m :=
  if M.fourierProbe then inverseFarField (M.probe j) else M.probe j

/-- **C83.** If some pixel of the probe is lit, `center_probes` succeeds: it moves all modes in real space by one common
vector, keeping the powers and overlaps of all modes, and touches nothing but the probe; Fourier probes keep their moduli. -/
theorem center_probes_common_shift (M : Fancy n m a b N k) (it : ℕ) (h : Lit M.realProbe) :
    ∃ (t0 t1 : ℝ) (P : Fin k → Wave n m), M.centerProbes it = some { M with probe := P } ∧
      (∀ j, ({ M with probe := P } : Fancy n m a b N k).realProbe j = sincShift (M.realProbe j) t0 t1) ∧
      (∀ i j, ∑ x, ∑ y, P i x y * (starRingEnd ℂ) (P j x y) = ∑ x, ∑ y, M.probe i x y * (starRingEnd ℂ) (M.probe j x y)) ∧
      (M.fourierProbe = true → ∀ j x y, ‖P j x y‖ = ‖M.probe j x y‖) := by
  obtain ⟨t0, t1, ht⟩ := centerStack_shift it M.realProbe h
  refine ⟨t0, t1, fun j => if M.fourierProbe then farField (sincShift (M.realProbe j) t0 t1)
    else sincShift (M.realProbe j) t0 t1, ?_, ?_, ?_, ?_⟩
  · unfold Fancy.centerProbes
    show (centerStack it M.realProbe).map _ = _
    rw [ht]
    rfl
  · intro j
    by_cases hf : M.fourierProbe = true
    · simp only [Fancy.realProbe, hf, if_true]
      rw [far_field_unitary.1]
    · simp only [Fancy.realProbe, hf]
      rfl
  · intro i j
    by_cases hf : M.fourierProbe = true
    · simp only [Fancy.realProbe, hf, if_true]
      rw [farField_inner, sincShift_inner, ← farField_inner, far_field_unitary.2.1, far_field_unitary.2.1]
    · simp only [Fancy.realProbe, hf, Bool.false_eq_true, if_false]
      exact sincShift_inner _ _ _ _
  · intro hf j x y
    simp only [Fancy.realProbe, hf, if_true]
    conv_rhs => rw [← far_field_unitary.2.1 (M.probe j)]
    rw [farField_norm, farField_norm, fft2_sincShift_norm]

/-- Without a support the basis probes of the simulation are the probe in real space. -/
theorem basisProbes_real (M : Fancy n m a b N k) (hs : ∀ x y, M.support x y = true) : M.basisProbes = M.realProbe := by
  funext j
  simp only [Fancy.basisProbes, Fancy.realProbe, hs, if_true, mul_one]

theorem shotProbes_roll (W : Weights N k) (idx : Fin N) (B : Fin k → Wave n m) (s0 : ZMod n) (s1 : ZMod m) :
    shotProbes W idx (fun j x y => B j (x - s0) (y - s1)) = fun i x y => shotProbes W idx B i (x - s0) (y - s1) := by
  cases W <;> rfl

theorem shotProbes_dark (W : Weights N k) (idx : Fin N) (B : Fin k → Wave n m) (x : ZMod n) (y : ZMod m)
    (h : ∀ j, B j x y = 0) (i : Fin W.rank) : shotProbes W idx B i x y = 0 := by
  cases W <;> simp [shotProbes, h]

/-- At a whole pixel position the mode that reaches a far-field detector. -/
theorem toDetector_whole (M : Fancy n m n m N k) (hn : M.nearField = false) (idx : Fin N) (t : Fin 3 → ℝ) (sel : Wave n m)
    (p : Wave n m) (u v : ℤ) (h0 : M.pixTrans idx t 0 = u) (h1 : M.pixTrans idx t 1 = v) :
    M.toDetector idx t sel p = farField fun x y => (M.probeNorm : ℂ) * (p x y * M.ramp idx t x y * sel x y) := by
  unfold Fancy.toDetector Fancy.propagate
  simp only [hn, Bool.false_eq_true, if_false]
  rw [sincApply_false, padProbe_self, h0, h1]
  simp only [Int.floor_intCast, sub_self]
  rw [(shifts_preserve_energy_and_compose _ 0 0 0 0).2.2.1]

/-- The ramp at a pixel moved by whole numbers. -/
theorem ramp_moved (M : Fancy n m a b N k) (idx : Fin N) (t : Fin 3 → ℝ) (s0 s1 : ℤ) :
    ∃ c : ℂ, ‖c‖ = 1 ∧ ∀ (x x' : ZMod n) (y y' : ZMod m), (x'.val : ℤ) = x.val + s0 → (y'.val : ℤ) = y.val + s1 →
      M.ramp idx t x' y' = c * M.ramp idx t x y := by
  unfold Fancy.ramp
  cases hf : M.fourierShifts with
  | none => exact ⟨1, by simp, by simp⟩
  | some f =>
    simp only
    generalize (if M.simulateTranslation then f idx + translationsToPixel M.detBasis M.normal t else f idx) = d
    refine ⟨Complex.exp (Complex.I * ((d 0 * (2 * Real.pi * (s0 / ((n : ℝ) - 1)) * M.oversampling) +
      d 1 * (2 * Real.pi * (s1 / ((m : ℝ) - 1)) * M.oversampling) : ℝ) : ℂ)), ?_, ?_⟩
    · rw [mul_comm, Complex.norm_exp_ofReal_mul_I]
    · intro x x' y y' hx hy
      have hx' : (x'.val : ℂ) = x.val + s0 := by exact_mod_cast hx
      have hy' : (y'.val : ℂ) = y.val + s1 := by exact_mod_cast hy
      rw [← Complex.exp_add, hx', hy']
      congr 1
      push_cast
      ring

/-- **C83** (what else changes): centering by a whole number of pixels, without light that wraps around, is compensated for
by moving the object by the same vector: without support, for far-field detectors of the size of the probe, every exposure
at a whole pixel position gives the same pattern as before. -/
theorem center_probes_compensated_partial (M : Fancy n m n m N k) (it : ℕ) (s0 s1 : ℤ)
    (hsup : ∀ x y, M.support x y = true) (hnf : M.nearField = false)
    (hc : centroid (toCenter true (List.ofFn M.realProbe)) = some ((n : ℝ) / 2 - s0, (m : ℝ) / 2 - s1))
    (hin : ∀ j x y, M.realProbe j x y ≠ 0 → 0 ≤ (x.val : ℤ) + s0 ∧ (x.val : ℤ) + s0 < n ∧
      0 ≤ (y.val : ℤ) + s1 ∧ (y.val : ℤ) + s1 < m) :
    ∃ P : Fin k → Wave n m, M.centerProbes (it + 1) = some { M with probe := P } ∧
      ∀ (idx : Fin N) (t : Fin 3 → ℝ) (u v : ℤ), M.pixTrans idx t = ![(u : ℝ), (v : ℝ)] →
        0 ≤ u ∧ u + n ≤ M.obj.h → 0 ≤ v ∧ v + m ≤ M.obj.w →
        0 ≤ u - s0 ∧ u - s0 + n ≤ M.obj.h → 0 ≤ v - s1 ∧ v - s1 + m ≤ M.obj.w →
        ({ M with probe := P, minTranslation := M.minTranslation + ![(s0 : ℝ), (s1 : ℝ)] } : Fancy n m n m N k).forward idx t
          = M.forward idx t := by
  obtain ⟨hcen, -⟩ := center_moves_centroid true it (List.ofFn M.realProbe) s0 s1 hc (by
    intro w hw i j hne
    obtain ⟨l, rfl⟩ := (List.mem_ofFn' _ _).1 hw
    exact hin l i j hne)
  set R : Fin k → Wave n m := fun j x y => M.realProbe j (x - (s0 : ZMod n)) (y - (s1 : ZMod m)) with hR
  have hst : centerStack (it + 1) M.realProbe = some R := by
    unfold centerStack
    rw [hcen]
    simp only [Option.map_some]
    congr 1
    funext j
    simp [List.getD, hR]
  refine ⟨fun j => if M.fourierProbe then farField (R j) else R j, ?_, ?_⟩
  · unfold Fancy.centerProbes
    show (centerStack (it + 1) M.realProbe).map _ = _
    rw [hst]
    rfl
  · intro idx t u v ht hu hv hu' hv'
    generalize hP : (fun j => if M.fourierProbe then farField (R j) else R j) = P
    let M' : Fancy n m n m N k := { M with probe := P, minTranslation := M.minTranslation + ![(s0 : ℝ), (s1 : ℝ)] }
    show M'.forward idx t = M.forward idx t
    have hMp : M'.probe = P := rfl
    have hMf : M'.fourierProbe = M.fourierProbe := rfl
    have hbas : M'.basisProbes = R := by
      rw [basisProbes_real M' hsup]
      funext j
      by_cases hf : M.fourierProbe = true
      · simp only [Fancy.realProbe, hMp, hMf, ← hP, hf, if_true]
        rw [far_field_unitary.1]
      · simp only [Fancy.realProbe, hMp, hMf, ← hP, hf]
        rfl
    have p0 : M.pixTrans idx t 0 = u := by rw [ht]; rfl
    have p1 : M.pixTrans idx t 1 = v := by rw [ht]; rfl
    have pt : M'.pixTrans idx t = M.pixTrans idx t - ![(s0 : ℝ), (s1 : ℝ)] := by
      unfold Fancy.pixTrans
      have e1 : M'.minTranslation = M.minTranslation + ![(s0 : ℝ), (s1 : ℝ)] := rfl
      have e2 : M'.offsets = M.offsets := rfl
      rw [e1, e2]
      have e3 : M'.objBasis = M.objBasis := rfl
      have e4 : M'.normal = M.normal := rfl
      have e5 : M'.translationScale = M.translationScale := rfl
      rw [e3, e4, e5]
      cases M.offsets with
      | none => simp only; abel
      | some o => simp only; abel
    have p0' : M'.pixTrans idx t 0 = (u - s0 : ℤ) := by rw [pt, Pi.sub_apply, p0]; push_cast; rfl
    have p1' : M'.pixTrans idx t 1 = (v - s1 : ℤ) := by rw [pt, Pi.sub_apply, p1]; push_cast; rfl
    have tr : M'.transmission = M.transmission := rfl
    have hh : M.transmission.h = M.obj.h := by unfold Fancy.transmission; split_ifs <;> rfl
    have hw : M.transmission.w = M.obj.w := by unfold Fancy.transmission; split_ifs <;> rfl
    have e1 : M'.simulateTranslation = M.simulateTranslation := rfl
    have e2 : M'.fourierShifts = M.fourierShifts := rfl
    unfold Fancy.forward
    rw [e1, e2, tr]
    by_cases hsim : M.simulateTranslation = true ∧ M.fourierShifts = none
    · rw [if_pos hsim, if_pos hsim]
    · rw [if_neg hsim, if_neg hsim]
      simp only
      rw [p0, p1, p0', p1', Int.floor_intCast, Int.floor_intCast, Int.floor_intCast, Int.floor_intCast,
        objWindow_inside (by rw [hh]; exact hu') (by rw [hw]; exact hv'),
        objWindow_inside (by rw [hh]; exact hu) (by rw [hw]; exact hv)]
      simp only [Except.map]
      have e3 : M'.saturation = M.saturation := rfl
      have e4 : M'.oversampling = M.oversampling := rfl
      have e5 : M'.background = M.background := rfl
      have e6 : M'.qe = M.qe := rfl
      have e7 : M'.weights = M.weights := rfl
      rw [e3, e4, e5, e6]
      refine congrArg (fun I => Except.ok (measQuadratic _ _ _ I)) ?_
      unfold sumModes
      refine congrArg (fun f => Img.mk n m f) (funext fun x => funext fun y => ?_)
      rw [List.map_ofFn, List.sum_ofFn, List.map_ofFn, List.sum_ofFn]
      refine sum_congr rfl fun i _ => ?_
      simp only [Function.comp]
      rw [toDetector_whole M' hnf idx t _ _ _ _ p0' p1', toDetector_whole M hnf idx t _ _ _ _ p0 p1]
      have e8 : M'.probeNorm = M.probeNorm := rfl
      have e9 : M'.ramp idx t = M.ramp idx t := rfl
      rw [e8, e9, hbas, farField_norm, farField_norm]
      refine congrArg (fun z : ℝ => (z / Real.sqrt ((n : ℝ) * m)) ^ 2) ?_
      obtain ⟨c, hc1, hc2⟩ := ramp_moved M idx t s0 s1
      have hsh : shotProbes M'.weights idx R i =
          fun x y => shotProbes M.weights idx M.realProbe i (x - (s0 : ZMod n)) (y - (s1 : ZMod m)) :=
        congrFun (shotProbes_roll M.weights idx M.realProbe (s0 : ZMod n) (s1 : ZMod m)) i
      rw [basisProbes_real M hsup, hsh]
      set e : Wave n m := fun x y => (M.probeNorm : ℂ) * (shotProbes M.weights idx M.realProbe i x y * M.ramp idx t x y *
        M.transmission.px (u.toNat + x.val) (v.toNat + y.val)) with he
      have hroll : (fun (x : ZMod n) (y : ZMod m) => (M.probeNorm : ℂ) *
          (shotProbes M.weights idx M.realProbe i (x - (s0 : ZMod n)) (y - (s1 : ZMod m)) * M.ramp idx t x y *
          M.transmission.px ((u - s0).toNat + x.val) ((v - s1).toNat + y.val))) =
          fun x y => (fun x y => c * e x y : Wave n m) (x - (s0 : ZMod n)) (y - (s1 : ZMod m)) := by
        funext x y
        by_cases hd : ∀ j, M.realProbe j (x - (s0 : ZMod n)) (y - (s1 : ZMod m)) = 0
        · simp only [he]
          rw [shotProbes_dark _ _ _ _ _ hd]
          ring
        · push Not at hd
          obtain ⟨j, hj⟩ := hd
          obtain ⟨a1, a2, a3, a4⟩ := hin j _ _ hj
          have v0 := val_add_int (x - (s0 : ZMod n)) s0 a1 a2
          have v1 := val_add_int (y - (s1 : ZMod m)) s1 a3 a4
          rw [sub_add_cancel] at v0 v1
          simp only [he]
          rw [hc2 _ x _ y v0 v1, show (u - s0).toNat + x.val = u.toNat + (x - (s0 : ZMod n)).val by omega,
            show (v - s1).toNat + y.val = v.toNat + (y - (s1 : ZMod m)).val by omega]
          ring
      beta_reduce
      rw [hroll, fft2_roll (fun x y => c * e x y), norm_mul, norm_mul, stdAddChar_norm, stdAddChar_norm, one_mul, one_mul]
      have hl : fft2 (fun x y => c * e x y) = fun k l => c * fft2 e k l := by
        have := isLinear_fft2.map_smul c e
        funext k l
        exact congrFun (congrFun this k) l
      rw [hl, norm_mul, hc1, one_mul]

/-- Non-vacuity: one lit corner of a 2 x 2 probe is moved by one pixel; a 4 x 4 object has room for the exposure at
pixel (1, 1). -/
example : ∃ M : Fancy 2 2 2 2 1 1, (∀ x y, M.support x y = true) ∧ M.nearField = false ∧
    centroid (toCenter true (List.ofFn M.realProbe)) = some (((2 : ℕ) : ℝ) / 2 - (1 : ℤ), ((2 : ℕ) : ℝ) / 2 - (1 : ℤ)) ∧
    (∀ j x y, M.realProbe j x y ≠ 0 → 0 ≤ (x.val : ℤ) + 1 ∧ (x.val : ℤ) + 1 < (2 : ℕ) ∧
      0 ≤ (y.val : ℤ) + 1 ∧ (y.val : ℤ) + 1 < (2 : ℕ)) ∧
    M.pixTrans 0 0 = ![((1 : ℤ) : ℝ), ((1 : ℤ) : ℝ)] ∧ (0 : ℤ) ≤ 1 ∧ (1 : ℤ) + (2 : ℕ) ≤ M.obj.h ∧ Lit M.realProbe := by
  let w : Wave 2 2 := fun x y => if x = 0 ∧ y = 0 then 1 else 0
  let M : Fancy 2 2 2 2 1 1 :=
    { probe := fun _ => w, probeNorm := 1, support := fun _ _ => true, weights := .perShot fun _ => 1,
      fourierProbe := false, obj := ⟨4, 4, fun _ _ => 1⟩, exponentiate := false, phaseOnly := false, nearField := false,
      propagator := fun _ _ => 1, objBasis := 0, detBasis := 0, normal := 0, minTranslation := ![-1, -1],
      translationScale := 1, offsets := none, fourierShifts := none, simulateTranslation := false, oversampling := 1,
      background := ⟨2, 2, fun _ _ => 0⟩, qe := none, saturation := none }
  have hu : (univ : Finset (ZMod 2)) = {0, 1} := rfl
  have z10 : (1 : ZMod 2) ≠ 0 := by decide
  have z01 : (0 : ZMod 2) ≠ 1 := by decide
  have hr : M.realProbe = fun _ => w := rfl
  refine ⟨M, fun _ _ => rfl, rfl, ?_, ?_, ?_, by norm_num, by norm_num [M], ⟨0, 0, 0, ?_⟩⟩
  · have ht : toCenter true (List.ofFn M.realProbe) = fun x y => if x = 0 ∧ y = 0 then 1 else 0 := by
      funext x y
      by_cases h : x = 0 ∧ y = 0 <;> simp [toCenter, hr, w, h]
    rw [ht]
    unfold centroid
    simp [hu, sum_pair z01, z10]
  · intro j x y h
    rw [hr] at h
    simp only [w] at h
    split at h
    · rename_i h0
      rw [h0.1, h0.2]
      simp
    · exact absurd rfl h
  · have : M.pixTrans 0 0 = translationsToPixel M.objBasis M.normal 0 - M.minTranslation := rfl
    rw [this]
    funext i
    fin_cases i <;> simp [M, translationsToPixel]
  · show w 0 0 ≠ 0
    simp [w]

/-- **C83, violated part.** `center_probes` does not respect the support of the probe: here it moves all light out of the
support, so that nothing is left. -/
theorem center_probes_support_violated :
    ∃ M M' : Fancy 2 2 2 2 1 1, M.centerProbes 4 = some M' ∧
      (∀ j x y, M.support x y = false → M.probe j x y = 0) ∧ M.basisProbes 0 0 0 = 1 ∧ ∀ j x y, M'.basisProbes j x y = 0 := by
  let w : Wave 2 2 := fun x y => if x = 0 ∧ y = 0 then 1 else 0
  let M : Fancy 2 2 2 2 1 1 :=
    { probe := fun _ => w, probeNorm := 1, support := fun x y => decide (x = 0 ∧ y = 0), weights := .perShot fun _ => 1,
      fourierProbe := false, obj := ⟨2, 2, fun _ _ => 1⟩, exponentiate := false, phaseOnly := false, nearField := false,
      propagator := fun _ _ => 1, objBasis := 0, detBasis := 0, normal := 0, minTranslation := 0, translationScale := 1,
      offsets := none, fourierShifts := none, simulateTranslation := false, oversampling := 1,
      background := ⟨2, 2, fun _ _ => 0⟩, qe := none, saturation := none }
  have hu : (univ : Finset (ZMod 2)) = {0, 1} := rfl
  have z10 : (1 : ZMod 2) ≠ 0 := by decide
  have z01 : (0 : ZMod 2) ≠ 1 := by decide
  have hr : M.realProbe = fun _ => w := rfl
  have hc : centroid (toCenter true (List.ofFn M.realProbe)) = some (((2 : ℕ) : ℝ) / 2 - (1 : ℤ), ((2 : ℕ) : ℝ) / 2 - (1 : ℤ)) := by
    have ht : toCenter true (List.ofFn M.realProbe) = fun x y => if x = 0 ∧ y = 0 then 1 else 0 := by
      funext x y
      by_cases h : x = 0 ∧ y = 0 <;> simp [toCenter, hr, w, h]
    rw [ht]
    unfold centroid
    simp [hu, sum_pair z01, z10]
  have hin : ∀ j x y, M.realProbe j x y ≠ 0 → 0 ≤ (x.val : ℤ) + 1 ∧ (x.val : ℤ) + 1 < (2 : ℕ) ∧
      0 ≤ (y.val : ℤ) + 1 ∧ (y.val : ℤ) + 1 < (2 : ℕ) := by
    intro j x y h
    rw [hr] at h
    simp only [w] at h
    split at h
    · rename_i h0
      rw [h0.1, h0.2]
      simp
    · exact absurd rfl h
  obtain ⟨hcen, -⟩ := center_moves_centroid true 3 (List.ofFn M.realProbe) 1 1 hc (by
    intro v hv i j hne
    obtain ⟨l, rfl⟩ := (List.mem_ofFn' _ _).1 hv
    exact hin l i j hne)
  refine ⟨M, { M with probe := fun _ x y => w (x - 1) (y - 1) }, ?_, ?_, ?_, ?_⟩
  · unfold Fancy.centerProbes
    show (centerStack 4 M.realProbe).map _ = _
    unfold centerStack
    rw [hcen]
    simp [hr, List.getD]
  · intro j x y h
    have : ¬ (x = 0 ∧ y = 0) := by simpa [M] using h
    show w x y = 0
    simp only [w, if_neg this]
  · show w 0 0 * _ = 1
    simp [w, M]
  · intro j x y
    show w (x - 1) (y - 1) * (if decide (x = 0 ∧ y = 0) = true then 1 else 0) = 0
    by_cases h : x = 0 ∧ y = 0
    · rw [h.1, h.2]
      have : ¬ ((0 : ZMod 2) - 1 = 0 ∧ (0 : ZMod 2) - 1 = 0) := by decide
      simp only [w, if_neg this, zero_mul]
    · simp [h]

/-! ### Multislice -/

/-- **C83.** For a real-space probe, `center_probes` of a multislice model moves all modes by a common vector. -/
theorem multislice_center_probes (M : Multislice n m a b N k) (it : ℕ) (h : Lit M.probe) :
    ∃ t0 t1 : ℝ, M.centerProbes it = some { M with probe := fun j => sincShift (M.probe j) t0 t1 } := by
  obtain ⟨t0, t1, ht⟩ := centerStack_shift it M.probe h
  exact ⟨t0, t1, by unfold Multislice.centerProbes; rw [ht]; rfl⟩

/-- **C83, violated part.** If the probe is defined in Fourier space, `center_probes` of a multislice model moves nothing in
real space: the intensity of every mode stays the same in every pixel. -/
theorem multislice_center_fourier_violated (M : Multislice n m a b N k) (it : ℕ) (h : Lit M.probe)
    (hf : M.fourierProbe = true) (hs : ∀ x y, M.support x y = true) :
    ∃ M', M.centerProbes it = some M' ∧ ∀ j x y, ‖M'.realSpace (M'.probe j) x y‖ = ‖M.realSpace (M.probe j) x y‖ := by
  obtain ⟨t0, t1, ht⟩ := multislice_center_probes M it h
  refine ⟨_, ht, fun j x y => ?_⟩
  simp only [Multislice.realSpace, hs, if_true, mul_one, hf]
  rw [inverseFarField_norm, inverseFarField_norm, fft2_sincShift_norm]

/-! ### C84: the light field of single exposures -/

/-- **C84.** With weight matrices, `get_rhos` returns the density matrices of the exposures: the mutual coherence of the
light of an exposure is `Σ ρ_jl b_j b_l*`. -/
theorem get_rhos_coherence {r : ℕ} (V : Fin N → Matrix (Fin r) (Fin k) ℂ) (idx : Fin N) (B : Fin k → Wave n m)
    (x x' : ZMod n) (y y' : ZMod m) :
    ∑ i, shotProbes (.matrices r V) idx B i x y * star (shotProbes (.matrices r V) idx B i x' y') =
      ∑ j, ∑ l, getRhos (.matrices r V) idx j l * (B j x y * star (B l x' y')) := by
  simp only [shotProbes, getRhos, Matrix.mul_apply, Matrix.transpose_apply, Matrix.map_apply, star_sum, star_mul',
    sum_mul_sum]
  simp only [sum_mul]
  rw [sum_comm]
  refine sum_congr rfl fun j _ => ?_
  rw [sum_comm]
  refine sum_congr rfl fun l _ => sum_congr rfl fun i _ => ?_
  ring

theorem getRhos_eq {r : ℕ} (V : Fin N → Matrix (Fin r) (Fin k) ℂ) (idx : Fin N) :
    getRhos (.matrices r V) idx = ((V idx).conjTranspose * V idx).transpose := by
  ext j l
  simp only [getRhos, Matrix.mul_apply, Matrix.transpose_apply, Matrix.map_apply, Matrix.conjTranspose_apply]
  exact sum_congr rfl fun i _ => mul_comm _ _

/-- **C84.** These matrices are Hermitian and positive, and unchanged by mixing the modes of an exposure unitarily. -/
theorem get_rhos_density {r : ℕ} (V : Fin N → Matrix (Fin r) (Fin k) ℂ) (U : Matrix (Fin r) (Fin r) ℂ)
    (hU : U.conjTranspose * U = 1) (idx : Fin N) :
    (∀ j l, star (getRhos (.matrices r V) idx j l) = getRhos (.matrices r V) idx l j) ∧
    (∀ c : Fin k → ℂ, ∑ j, ∑ l, getRhos (.matrices r V) idx j l * (c j * star (c l)) =
      ((∑ i, ‖∑ j, V idx i j * c j‖ ^ 2 : ℝ) : ℂ)) ∧
    getRhos (.matrices r fun i => U * V i) idx = getRhos (.matrices r V) idx := by
  refine ⟨fun j l => ?_, fun c => ?_, ?_⟩
  · simp only [getRhos, Matrix.mul_apply, Matrix.transpose_apply, Matrix.map_apply, star_sum, star_mul', star_star]
    exact sum_congr rfl fun i _ => mul_comm _ _
  · have := get_rhos_coherence (n := 1) (m := 1) V idx (fun j _ _ => c j) 0 0 0 0
    rw [← this]
    simp only [shotProbes]
    push_cast
    refine sum_congr rfl fun i _ => ?_
    rw [← Complex.mul_conj']
    rfl
  · rw [getRhos_eq, getRhos_eq]
    congr 1
    rw [Matrix.conjTranspose_mul, Matrix.mul_assoc, ← Matrix.mul_assoc U.conjTranspose, hU, Matrix.one_mul]

/-- **C84, violated part.** With one number per exposure the light of an exposure has the density matrix `w² 1`, but
`get_rhos` returns `1` whatever the weights are. -/
theorem get_rhos_numbers_violated (w : Fin N → ℝ) (idx : Fin N) (B : Fin k → Wave n m) (x x' : ZMod n) (y y' : ZMod m) :
    ∑ i, shotProbes (.perShot w) idx B i x y * star (shotProbes (.perShot w) idx B i x' y') =
      (w idx : ℂ) ^ 2 * ∑ j, ∑ l, getRhos (.perShot w) idx j l * (B j x y * star (B l x' y')) := by
  simp only [shotProbes, getRhos, Matrix.one_apply, ite_mul, one_mul, zero_mul, sum_ite_eq, mem_univ, if_true, star_mul',
    mul_sum]
  refine sum_congr rfl fun j _ => ?_
  have : star (w idx : ℂ) = w idx := Complex.conj_ofReal _
  rw [this]
  ring

/-- **C84.** The images of `plot_wavefront_variation` (amplitudes) for a probe in real space: their squares add up to the
intensity of the light of the exposure in every pixel. -/
theorem wavefront_variation_amplitudes {r : ℕ} (la : LinAlg) (M : Fancy n m a b N k)
    (V : Fin N → Matrix (Fin r) (Fin k) ℂ) (hV : M.weights = .matrices r V) (hf : M.fourierProbe = false) (idx : Fin N)
    (x : ZMod n) (y : ZMod m) :
    ∑ i, M.variationAmplitudes la V idx i x y ^ 2 =
      ∑ i, ‖shotProbes M.weights idx M.basisProbes i x y‖ ^ 2 := by
  rw [hV]
  have hp : M.variationProbes V idx = shotProbes (.matrices r V) idx M.basisProbes := by
    funext i x y
    simp only [Fancy.variationProbes, shotProbes, Fancy.basisProbes, hf]
    rfl
  have hc := (orthogonalize_probes_correct la (flatten2 (M.variationProbes V idx))).coherence (flat n m (x, y)) (flat n m (x, y))
  have key : ∀ {l : ℕ} (P : Matrix (Fin l) (Fin (n * m)) ℂ),
      mutualCoherence P (flat n m (x, y)) (flat n m (x, y)) = ((∑ i, ‖P i (flat n m (x, y))‖ ^ 2 : ℝ) : ℂ) := by
    intro l P
    unfold mutualCoherence
    push_cast
    refine sum_congr rfl fun i _ => ?_
    rw [← Complex.conj_mul']
    rfl
  rw [key, key] at hc
  have hc' := Complex.ofReal_injective hc
  rw [← hp]
  refine Eq.trans hc' (sum_congr rfl fun i _ => ?_)
  simp [flatten2]

/-- **C84, violated part.** The panel called "square root of intensity" shows the intensity itself. -/
theorem wavefront_variation_root_violated {r : ℕ} (la : LinAlg) (M : Fancy n m a b N k)
    (V : Fin N → Matrix (Fin r) (Fin k) ℂ) (hV : M.weights = .matrices r V) (hf : M.fourierProbe = false) (idx : Fin N)
    (x : ZMod n) (y : ZMod m) :
    M.variationRootSum la V idx x y = ∑ i, ‖shotProbes M.weights idx M.basisProbes i x y‖ ^ 2 :=
  wavefront_variation_amplitudes la M V hV hf idx x y

end Cdtools
