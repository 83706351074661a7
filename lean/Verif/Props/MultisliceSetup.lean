/-
C76: construction of `MultislicePtycho` models (`models/multislice_ptycho.py:190-417`).
-/
import Verif.Props.Multislice
import Verif.Props.TidyProbes

set_option linter.unusedSectionVars false

namespace Cdtools
open Finset Matrix ZMod

variable {n m a b N k : ℕ} [NeZero n] [NeZero m] [NeZero a] [NeZero b]

/-! ### The propagator between the slices -/

/-- A detector facing the beam: the object basis has pixels of size `s0` along the first axis (pointing down, `-y`) and
`s1` along the second one (`-x`), as in `far_field_geometry` (C46). -/
def facingBasis (s0 s1 : ℝ) : Matrix (Fin 3) (Fin 2) ℝ := !![0, -s1; -s0, 0; 0, 0]

/-- **C76** (propagator): for square pixels the propagator between slices is the angular spectrum propagator over the
distance `dz` on the grid of the object. Missing: other pixels (`interslice_propagator_violated`). -/
theorem interslice_propagator_partial (s wl dz : ℝ) (hs : 0 < s) :
    interslicePropagator n m (facingBasis s s) wl dz = angularSpectrum n m s s wl dz none := by
  unfold interslicePropagator facingBasis
  simp [abs_of_pos hs]

/-- **C76** (propagator): in general, the two pixel sizes are exchanged. -/
theorem interslice_propagator_exchanged (s0 s1 wl dz : ℝ) (h0 : 0 < s0) (h1 : 0 < s1) :
    interslicePropagator n m (facingBasis s0 s1) wl dz = angularSpectrum n m s1 s0 wl dz none := by
  unfold interslicePropagator facingBasis
  simp [abs_of_pos h0, abs_of_pos h1]

/-- **C76** (violated): with pixels that are not square this is not the propagator of the object grid. -/
theorem interslice_propagator_violated :
    ∃ (s0 s1 wl dz : ℝ), 0 < s0 ∧ 0 < s1 ∧ 0 < wl ∧ 0 < dz ∧
      interslicePropagator 2 1 (facingBasis s0 s1) wl dz ≠ angularSpectrum 2 1 s0 s1 wl dz none := by
  refine ⟨1, 1 / 2, 1, 1, by norm_num, by norm_num, by norm_num, by norm_num, fun h => ?_⟩
  have hpi := Real.pi_pos
  have h10 := congrFun (congrFun h 1) 0
  rw [interslice_propagator_exchanged _ _ _ _ (by norm_num) (by norm_num),
    angularSpectrum_eq _ _ _ _ (by norm_num) (by norm_num) (by norm_num),
    angularSpectrum_eq _ _ _ _ (by norm_num) (by norm_num) (by norm_num)] at h10
  have hf : fftfreq 2 1 = -1 / 2 := by
    unfold fftfreq
    have : (1 : ZMod 2).val = 1 := rfl
    rw [this]; norm_num
  have hf0 : fftfreq 1 0 = 0 := by
    unfold fftfreq
    have : (0 : ZMod 1).val = 0 := rfl
    rw [this]; norm_num
  have t1 : (2 * Real.pi / 1) ^ 2 - transverse2 2 1 (1 / 2) 1 1 0 = 0 := by
    unfold transverse2; rw [hf, hf0]; ring
  have t2 : (2 * Real.pi / 1) ^ 2 - transverse2 2 1 1 (1 / 2) 1 0 = 3 * Real.pi ^ 2 := by
    unfold transverse2; rw [hf, hf0]; ring
  have s1 : csqrt 0 = 0 := by unfold csqrt; simp
  have s2 : csqrt (3 * Real.pi ^ 2) = ((Real.sqrt 3 * Real.pi : ℝ) : ℂ) := by
    unfold csqrt
    rw [if_pos (by positivity), Real.sqrt_mul (by norm_num), Real.sqrt_sq hpi.le]
  have hn : ¬ ((1 : ℝ) < 0) := by norm_num
  simp only [t1, t2, s1, s2, if_neg hn, abs_one] at h10
  -- the left side is one
  have hl : Complex.exp (Complex.I * ((1 : ℝ) : ℂ) * (0 - ((2 * Real.pi / 1 : ℝ) : ℂ))) = 1 := by
    rw [Complex.exp_eq_one_iff]
    exact ⟨-1, by push_cast; ring⟩
  rw [hl] at h10
  obtain ⟨q, hq⟩ := Complex.exp_eq_one_iff.mp h10.symm
  have hq' : (Real.sqrt 3 * Real.pi - 2 * Real.pi : ℝ) = q * (2 * Real.pi) := by
    have hI : (Complex.I : ℂ) ≠ 0 := Complex.I_ne_zero
    have : ((Real.sqrt 3 * Real.pi - 2 * Real.pi : ℝ) : ℂ) = ((q * (2 * Real.pi) : ℝ) : ℂ) := by
      push_cast
      push_cast at hq
      apply mul_left_cancel₀ hI
      linear_combination hq
    exact_mod_cast this
  have h3 : Real.sqrt 3 - 2 = 2 * q := by
    have : (Real.sqrt 3 - 2 - 2 * q) * Real.pi = 0 := by linear_combination hq'
    rcases mul_eq_zero.mp this with h | h
    · linarith
    · exact absurd h hpi.ne'
  have hlo : (1 : ℝ) < Real.sqrt 3 := by rw [Real.lt_sqrt (by norm_num)]; norm_num
  have hhi : Real.sqrt 3 < 2 := by rw [Real.sqrt_lt' (by norm_num)]; norm_num
  have hq1 : (q : ℝ) < 0 := by linarith
  have hq2 : (-1 : ℝ) < q := by linarith
  have : q < 0 := by exact_mod_cast hq1
  have : -1 < q := by exact_mod_cast hq2
  omega

/-- **C76** (violated): the propagator has the shape of the detector; with oversampling it does not fit the exit waves and
no exposure can be simulated. -/
theorem multislice_oversampling_violated (M : Multislice n m a b N k) (d e os : ℕ) [NeZero d] [NeZero e] (p : Wave d e)
    (hp : M.propagator = waveImg p) (ha : a = os * d) (hb : b = os * e) (hos : 2 ≤ os) (hne : M.slices ≠ [])
    (idx : Fin N) (t : Fin 3 → ℝ) : ∃ err, M.forward idx t = .error err := by
  have hd : 0 < d := NeZero.pos d
  have hbad : M.slices ≠ [] ∧ ¬ (M.propagator.h = a ∧ M.propagator.w = b) := ⟨hne, fun h => by
    have h1 : d = os * d := by rw [← ha, ← h.1, hp]; rfl
    nlinarith⟩
  unfold Multislice.forward
  cases hw : M.slices.mapM fun o => objWindow a b (M.transmission o) ⌊M.pixTrans idx t 0⌋ ⌊M.pixTrans idx t 1⌋ with
  | error err => exact ⟨err, by simp only [hw]⟩
  | ok ws => exact ⟨"RuntimeError", by simp only [hw]; rw [if_pos hbad]⟩

/-! ### The weights -/

/-- The power of the illumination at one exposure. -/
noncomputable def shotPower (W : Weights N k) (idx : Fin N) (P : Fin k → Wave n m) : ℝ :=
  stackPower (shotProbes W idx P)

/-- **C76** (weights): without recorded intensities the weights are left alone; with them, every exposure is weighted such
that its power is proportional to the *square* of its recorded intensity. -/
theorem multislice_weights_power (I : Fin N → ℝ) (P : Fin k → Wave n m) (idx : Fin N) :
    ∃ W, multisliceWeights (some I) (.perShot fun _ => 1) = .ok W ∧
      shotPower W idx P = (I idx / ((∑ i, I i) / N)) ^ 2 * stackPower P := by
  refine ⟨_, rfl, ?_⟩
  unfold shotPower stackPower
  change ∑ j : Fin k, power (fun x y => (((1 : ℝ) * (I idx / ((∑ i, I i) / N)) : ℝ) : ℂ) * P j x y) = _
  rw [mul_sum]
  refine sum_congr rfl fun j _ => ?_
  unfold power
  rw [mul_sum]
  refine sum_congr rfl fun x _ => ?_
  rw [mul_sum]
  refine sum_congr rfl fun y _ => ?_
  rw [norm_mul, mul_pow, Complex.norm_real, Real.norm_eq_abs, sq_abs, one_mul]

/-- **C76** (violated): the power of the illumination is not proportional to the recorded intensity. -/
theorem multislice_weights_violated :
    ∃ (I : Fin 2 → ℝ) (W : Weights 2 1), (∀ i, 0 < I i) ∧ multisliceWeights (some I) (.perShot fun _ => 1) = .ok W ∧
      ∀ P : Fin 1 → Wave n m, stackPower P ≠ 0 →
        shotPower W 1 P / shotPower W 0 P ≠ I 1 / I 0 := by
  refine ⟨![1, 3], _, fun i => by fin_cases i <;> norm_num, rfl, fun P hP h => ?_⟩
  obtain ⟨W, hW, h0⟩ := multislice_weights_power (![1, 3] : Fin 2 → ℝ) P 0
  obtain ⟨W', hW', h1⟩ := multislice_weights_power (![1, 3] : Fin 2 → ℝ) P 1
  obtain rfl := Except.ok.inj hW
  obtain rfl := Except.ok.inj hW'
  rw [h0, h1] at h
  simp only [Fin.sum_univ_two, Matrix.cons_val_zero, Matrix.cons_val_one] at h
  rw [mul_div_mul_right _ _ hP] at h
  norm_num at h

/-- **C76** (violated): with weight matrices (`dm_rank`), recorded intensities raise RuntimeError unless there are as many
modes as exposures (or one exposure); then mode `j` of every exposure is scaled by the intensity of exposure `j`. For one
exposure the matrices are scaled by intensity over mean, which is one. -/
theorem multislice_weight_matrices_violated (I : Fin N → ℝ) (r : ℕ) (V : Fin N → Matrix (Fin r) (Fin k) ℂ) :
    (k ≠ N → N ≠ 1 → multisliceWeights (some I) (.matrices r V) = .error .runtimeError) ∧
    (∀ h : k = N, multisliceWeights (some I) (.matrices r V) =
      .ok (.matrices r fun i => Matrix.of fun u v => V i u v * ((I (h ▸ v) / ((∑ i, I i) / N) : ℝ) : ℂ))) ∧
    (N = 1 → (∀ i, I i ≠ 0) → multisliceWeights (some I) (.matrices r V) = .ok (.matrices r V)) := by
  refine ⟨?_, ?_, ?_⟩
  · intro h1 h2
    unfold multisliceWeights
    simp only [dif_neg h1, dif_neg h2]
  · intro h
    unfold multisliceWeights
    simp only [dif_pos h]
  · intro h hI
    subst h
    have e : ∀ j : Fin 1, I j / ((∑ i, I i) / ((1 : ℕ) : ℝ)) = 1 := by
      intro j
      have : j = 0 := Subsingleton.elim _ _
      subst this
      simp [hI 0]
    have e' : ∀ (i : Fin 1), (Matrix.of fun u v => V i u v) = V i := fun i => rfl
    unfold multisliceWeights
    simp only [e, Complex.ofReal_one, mul_one, dite_true, e']
    split <;> rfl

/-! ### The view of the object -/

/-- **C76** (view): a positive crop of at most half the object shows the object without a frame of that width. -/
theorem multislice_view (c nz h w : ℕ) (hc : 0 < c) (hh : 2 * c ≤ h) (hw : 2 * c ≤ w) :
    multisliceViewShape c nz h w = [nz, h - 2 * c, w - 2 * c] := by
  have key : ∀ L : ℕ, 2 * c ≤ L → (sliceExtent L c (-c)).2 = L - 2 * c := by
    intro L hL
    simp only [sliceExtent, sliceBound]
    rw [if_pos (by omega), if_neg (by omega)]
    omega
  unfold multisliceViewShape
  rw [key h hh, key w hw]

/-- **C76** (violated): with the default crop of the constructor and of `from_results_dict`, zero, the plots of the object
show an empty array. -/
theorem multislice_view_violated (nz h w : ℕ) : multisliceViewShape 0 nz h w = [nz, 0, 0] := by
  simp [multisliceViewShape, sliceExtent, sliceBound]

end Cdtools
