/- Property theorems C113, continued: multislice models and tilted samples. -/
import Verif.Props.Stability
import Verif.Props.Multislice
import Verif.Props.Bragg

set_option linter.unusedSectionVars false

namespace Cdtools
open Finset ZMod Matrix

variable {n m a b N k : ℕ} [NeZero n] [NeZero m] [NeZero a] [NeZero b]

/-! ### Root powers -/

theorem efficient_none : Efficient none := fun q h => nomatch h

theorem power_nonneg' (w : Wave n m) : 0 ≤ power w := sum_nonneg fun _ _ => sum_nonneg fun _ _ => sq_nonneg _

theorem sqrt_power_sub_le (u v : Wave n m) : Real.sqrt (power u) ≤ Real.sqrt (power v) + Real.sqrt (power (u - v)) := by
  have e : ∀ w : Wave n m, power w = ∑ p ∈ (univ : Finset (ZMod n × ZMod m)), ‖w p.1 p.2‖ ^ 2 := fun w => by
    unfold power; rw [Fintype.sum_prod_type]
  have h := sqrt_sum_sub (univ : Finset (ZMod n × ZMod m)) (fun p => u p.1 p.2) (fun p => v p.1 p.2)
  have h : (Real.sqrt (power u) - Real.sqrt (power v)) ^ 2 ≤ power (u - v) := by
    rw [e u, e v, e (u - v)]
    exact h
  have h2 := Real.abs_le_sqrt h
  have h3 := le_abs_self (Real.sqrt (power u) - Real.sqrt (power v))
  linarith

theorem sqrt_power_add_le (u v : Wave n m) : Real.sqrt (power (u + v)) ≤ Real.sqrt (power u) + Real.sqrt (power v) := by
  have := sqrt_power_sub_le (u + v) u
  rwa [add_sub_cancel_left] at this

/-- Passing slices of transmission at most `τ` multiplies the power by at most `τ²` per slice. -/
theorem passSlices_power_le (tr : ℝ × ℝ) (p : Wave a b) (hp : ∀ x y, ‖p x y‖ ≤ 1) (τ : ℝ) (ws : List (Wave a b))
    (hw : ∀ o ∈ ws, ∀ x y, ‖o x y‖ ≤ τ) (w : Wave a b) : power (passSlices tr p ws w) ≤ (τ ^ ws.length) ^ 2 * power w := by
  induction ws generalizing w with
  | nil => simp [passSlices]
  | cons o ws ih =>
    rw [passSlices_cons]
    refine (ih (fun o' h => hw o' (by simp [h])) _).trans ?_
    have h1 := (nearField_power_le p (sincApply false tr o w) hp).trans (sincApply_power_le false tr τ o w (hw o (by simp)))
    refine (mul_le_mul_of_nonneg_left h1 (sq_nonneg _)).trans (le_of_eq ?_)
    rw [List.length_cons, pow_succ]
    ring

/-- Two stacks of slices that differ by at most `δ` pass the same wave with a difference of at most `L δ τ^(L-1)`. -/
theorem passSlices_change (tr : ℝ × ℝ) (p : Wave a b) (hp : ∀ x y, ‖p x y‖ ≤ 1) (τ δ : ℝ) (hτ : 0 ≤ τ) (hδ : 0 ≤ δ) (ws vs : List (Wave a b))
    (hwv : List.Forall₂ (fun o o' : Wave a b => ∀ x y, ‖o x y‖ ≤ τ ∧ ‖o' x y‖ ≤ τ ∧ ‖o x y - o' x y‖ ≤ δ) ws vs) (u v : Wave a b) :
    Real.sqrt (power (passSlices tr p ws u - passSlices tr p vs v)) ≤
      τ ^ ws.length * Real.sqrt (power (u - v)) + ws.length * δ * τ ^ (ws.length - 1) * Real.sqrt (power v) := by
  induction hwv generalizing u v with
  | nil => simp [passSlices]
  | @cons o o' ws vs ho hwv ih =>
    rw [passSlices_cons, passSlices_cons]
    refine (ih _ _).trans ?_
    have root : ∀ (c : ℝ) (s w : Wave a b), 0 ≤ c → (∀ x y, ‖s x y‖ ≤ c) →
        Real.sqrt (power (nearField p (sincApply false tr s w))) ≤ c * Real.sqrt (power w) := by
      intro c s w hc hs
      rw [← Real.sqrt_sq hc, ← Real.sqrt_mul (sq_nonneg c)]
      exact Real.sqrt_le_sqrt ((nearField_power_le p _ hp).trans (sincApply_power_le false tr c s w hs))
    have h2 := root τ o' v hτ fun x y => (ho x y).2.1
    have hsplit : nearField p (sincApply false tr o u) - nearField p (sincApply false tr o' v) =
        nearField p (sincApply false tr o (u - v)) + nearField p (sincApply false tr (o - o') v) := by
      rw [(isLinear_sincApply false tr o).map_sub, ← sincApply_sub, ← (isLinear_nearField p).map_sub, ← (isLinear_nearField p).map_add]
      congr 1
      abel
    have h1 : Real.sqrt (power (nearField p (sincApply false tr o u) - nearField p (sincApply false tr o' v))) ≤
        τ * Real.sqrt (power (u - v)) + δ * Real.sqrt (power v) := by
      rw [hsplit]
      exact (sqrt_power_add_le _ _).trans (add_le_add (root τ o (u - v) hτ fun x y => (ho x y).1) (root δ (o - o') v hδ fun x y => (ho x y).2.2))
    have e : (ws.length : ℝ) * δ * τ ^ (ws.length - 1) * τ = ws.length * δ * τ ^ ws.length := by
      cases ws with
      | nil => simp
      | cons c cs => simp only [List.length_cons, Nat.add_sub_cancel, pow_succ]; ring
    have hl : (o :: ws).length = ws.length + 1 := rfl
    rw [hl, Nat.add_sub_cancel, Nat.cast_add, Nat.cast_one]
    have t1 := mul_le_mul_of_nonneg_left h1 (pow_nonneg hτ ws.length)
    have t2 := mul_le_mul_of_nonneg_left h2 (by positivity : 0 ≤ (ws.length : ℝ) * δ * τ ^ (ws.length - 1))
    refine (add_le_add t1 t2).trans (le_of_eq ?_)
    rw [← mul_assoc _ τ (Real.sqrt (power v)), e, pow_succ]
    ring

/-! ### Multislice models -/

theorem multislice_ramp_norm (M : Multislice n m a b N k) (t : Fin 3 → ℝ) (x : ZMod n) (y : ZMod m) : ‖M.ramp t x y‖ = 1 := by
  unfold Multislice.ramp
  split_ifs
  · simp only
    rw [mul_comm Complex.I]
    generalize translationsToPixel M.detBasis M.normal t = d
    have := Complex.norm_exp_ofReal_mul_I (d 0 * (2 * Real.pi * (x.val / ((n : ℝ) - 1)) * M.oversampling) +
      d 1 * (2 * Real.pi * (y.val / ((m : ℝ) - 1)) * M.oversampling))
    rw [← this]
    congr 2
    push_cast
    ring
  · simp

theorem multislice_start_power (M : Multislice n m a b N k) (ha : n ≤ a) (hb : m ≤ b) (t : Fin 3 → ℝ) (p : Wave n m) :
    power (fun x y => (M.probeNorm : ℂ) * padProbe a b (fun x y => p x y * M.ramp t x y) x y : Wave a b) = M.probeNorm ^ 2 * power p := by
  have h2 : power (fun x y => p x y * M.ramp t x y) = power p := by
    unfold power
    simp only [norm_mul, multislice_ramp_norm, mul_one]
  rw [power_const_mul, power_padProbe ha hb, h2]
  simp

theorem multislice_isLinear (M : Multislice n m a b N k) (idx : Fin N) (t : Fin 3 → ℝ) (ws : List (Wave a b)) :
    IsLinearMap ℂ (M.toDetector idx t ws) := by
  unfold Multislice.toDetector
  exact isLinear_comp isLinear_farField (isLinear_comp (isLinear_passSlices _ _ ws) (isLinear_comp (isLinear_mulLeft (M.probeNorm : ℂ))
    (isLinear_comp isLinear_padProbe (isLinear_mulRight (M.ramp t)))))

theorem multislice_realSpace_power (M : Multislice n m a b N k) (p q : Wave n m) :
    power (M.realSpace p - M.realSpace q) ≤ power (p - q) := by
  have h1 : power (fun x y => (p - q) x y * (if M.support x y then 1 else 0)) ≤ power (p - q) := by
    have := power_mul_le 1 (fun x y => if M.support x y then 1 else 0) (p - q) (fun x y => by split_ifs <;> simp)
    linarith
  have hl : IsLinearMap ℂ M.realSpace := by
    unfold Multislice.realSpace
    cases M.fourierProbe
    · exact isLinear_mulRight _
    · exact isLinear_comp isLinear_inverseFarField (isLinear_mulRight _)
  rw [← hl.map_sub]
  unfold Multislice.realSpace
  simp only
  split_ifs
  · have h := far_field_unitary.2.2.1 (inverseFarField fun x y => (p - q) x y * (if M.support x y then 1 else 0))
    rw [far_field_unitary.2.1] at h
    linarith
  · exact h1

theorem mapM_forall2 {α β : Type} (f f' : α → Except String β) (R : α → α → Prop) (S : β → β → Prop)
    (hRS : ∀ x x' y y', R x x' → f x = .ok y → f' x' = .ok y' → S y y') (l l' : List α) (h : List.Forall₂ R l l') (v v' : List β)
    (hv : l.mapM f = .ok v) (hv' : l'.mapM f' = .ok v') : List.Forall₂ S v v' := by
  induction h generalizing v v' with
  | nil =>
    obtain rfl := Except.ok.inj hv
    obtain rfl := Except.ok.inj hv'
    exact .nil
  | @cons x x' l l' hx _ ih =>
    rw [List.mapM_cons] at hv hv'
    cases h1 : f x with
    | error e => rw [h1] at hv; exact (nomatch hv)
    | ok y =>
      cases h2 : l.mapM f with
      | error e => rw [h1, h2] at hv; exact (nomatch hv)
      | ok w =>
        cases h1' : f' x' with
        | error e => rw [h1'] at hv'; exact (nomatch hv')
        | ok y' =>
          cases h2' : l'.mapM f' with
          | error e => rw [h1', h2'] at hv'; exact (nomatch hv')
          | ok w' =>
            rw [h1, h2] at hv
            rw [h1', h2'] at hv'
            obtain rfl : y :: w = v := Except.ok.inj hv
            obtain rfl : y' :: w' = v' := Except.ok.inj hv'
            exact .cons (hRS x x' y y' hx h1 h1') (ih w w' h2 h2')

theorem mapM_length_ok {α β : Type} (f : α → Except String β) (l : List α) (v : List β) (hv : l.mapM f = .ok v) : v.length = l.length := by
  induction l generalizing v with
  | nil => obtain rfl := Except.ok.inj hv; rfl
  | cons x l ih =>
    rw [List.mapM_cons] at hv
    cases h1 : f x with
    | error e => rw [h1] at hv; exact (nomatch hv)
    | ok y =>
      cases h2 : l.mapM f with
      | error e => rw [h1, h2] at hv; exact (nomatch hv)
      | ok w =>
        rw [h1, h2] at hv
        obtain rfl : y :: w = v := Except.ok.inj hv
        rw [List.length_cons, List.length_cons, ih w h2]

/-- **C113** (multislice, probe): with slices of transmission at most `τ`, a change of the probe of a `MultislicePtycho` model changes the
amplitudes of an exposure by at most `probe_norm · τ^L / oversampling` times the weights of the exposure times the change. -/
theorem multislice_probe_stability (M : Multislice n m a b N k) (P : Fin k → Wave n m) (ha : n ≤ a) (hb : m ≤ b) (hos : 0 < M.oversampling)
    (hprop : ∀ i j, ‖M.propagator.px i j‖ ≤ 1) (τ : ℝ) (hτ : ∀ o ∈ M.slices, ∀ i j, ‖(M.transmission o).px i j‖ ≤ τ)
    (idx : Fin N) (t : Fin 3 → ℝ) (y y' : Img ℝ) (hy : M.forward idx t = .ok y) (hy' : ({ M with probe := P } : Multislice n m a b N k).forward idx t = .ok y') :
    amplitudeChange y y' ≤ (M.probeNorm * τ ^ M.slices.length / M.oversampling) ^ 2 * weightSquare M.effectiveWeights idx *
      ∑ j, power (M.probe j - P j) := by
  unfold Multislice.forward at hy hy'
  have ht : ({ M with probe := P } : Multislice n m a b N k).transmission = M.transmission := rfl
  have hp : ({ M with probe := P } : Multislice n m a b N k).pixTrans = M.pixTrans := rfl
  simp only [ht, hp] at hy'
  simp only at hy
  cases hw : (M.slices.mapM fun o => objWindow a b (M.transmission o) ⌊M.pixTrans idx t 0⌋ ⌊M.pixTrans idx t 1⌋) with
  | error e => rw [hw] at hy; exact (nomatch hy)
  | ok ws =>
    rw [hw] at hy hy'
    simp only at hy hy'
    split_ifs at hy hy' with hP
    have e1 := (Except.ok.inj hy).symm
    have e2 := (Except.ok.inj hy').symm
    rw [e1, e2]
    refine (shots_change (a := a) (b := b) M.saturation M.oversampling hos M.background none efficient_none
      (fun i => M.toDetector idx t ws (shotProbes M.effectiveWeights idx (fun j => M.realSpace (M.probe j)) i))
      (fun i => M.toDetector idx t ws (shotProbes M.effectiveWeights idx (fun j => M.realSpace (P j)) i))).trans ?_
    have hF := mapM_forall2 (fun o => objWindow a b (M.transmission o) ⌊M.pixTrans idx t 0⌋ ⌊M.pixTrans idx t 1⌋)
      (fun o => objWindow a b (M.transmission o) ⌊M.pixTrans idx t 0⌋ ⌊M.pixTrans idx t 1⌋)
      (fun o o' => o = o' ∧ ∀ i j, ‖(M.transmission o).px i j‖ ≤ τ) (fun o _ : Wave a b => ∀ x y, ‖o x y‖ ≤ τ)
      (fun o o' s s' h h1 _ => by
        obtain ⟨r, c, hs⟩ := objWindow_bound _ _ _ _ h1
        exact fun x y => by rw [hs]; exact h.2 _ _) M.slices M.slices (List.forall₂_same.2 fun o ho => ⟨rfl, hτ o ho⟩) ws ws hw hw
    have hws : ∀ o ∈ ws, ∀ x y, ‖o x y‖ ≤ τ := fun o ho => List.forall₂_same.1 hF o ho
    have hlen := mapM_length_ok _ _ _ hw
    have hone : ∀ p : Wave n m, power (M.toDetector idx t ws p) ≤ (M.probeNorm * τ ^ M.slices.length) ^ 2 * power p := by
      intro p
      unfold Multislice.toDetector
      simp only
      rw [far_field_unitary.2.2.1]
      refine (passSlices_power_le _ M.prop (fun x y => hprop _ _) τ ws hws _).trans (le_of_eq ?_)
      rw [multislice_start_power M ha hb, hlen]
      ring
    have h1 : ∑ i, power (M.toDetector idx t ws (shotProbes M.effectiveWeights idx (fun j => M.realSpace (M.probe j)) i) -
        M.toDetector idx t ws (shotProbes M.effectiveWeights idx (fun j => M.realSpace (P j)) i)) ≤
        (M.probeNorm * τ ^ M.slices.length) ^ 2 * (weightSquare M.effectiveWeights idx * ∑ j, power (M.probe j - P j)) := by
      refine (sum_le_sum fun i _ => ?_).trans ((mul_sum _ _ _).symm.le.trans (mul_le_mul_of_nonneg_left
        ((shotProbes_power M.effectiveWeights idx (fun j => M.realSpace (M.probe j)) (fun j => M.realSpace (P j))).trans
          (mul_le_mul_of_nonneg_left (sum_le_sum fun j _ => multislice_realSpace_power M _ _) ?_)) (sq_nonneg _)))
      · rw [← (multislice_isLinear M idx t ws).map_sub]
        exact hone _
      · unfold weightSquare
        cases M.effectiveWeights with
        | perShot w => exact sq_nonneg _
        | matrices r V => exact sum_nonneg fun i _ => sum_nonneg fun j _ => sq_nonneg _
    refine (div_le_div_of_nonneg_right h1 (by positivity)).trans (le_of_eq ?_)
    rw [div_pow]
    ring

/-- **C113** (multislice, slices): if all `L` slices change by at most `δ` in transmission and transmit at most `τ`, the amplitudes of an
exposure change by at most `probe_norm · L δ τ^(L-1) / oversampling` times the root of the power of the probes of the exposure. -/
theorem multislice_object_stability (M : Multislice n m a b N k) (S : List (Img ℂ)) (ha : n ≤ a) (hb : m ≤ b) (hos : 0 < M.oversampling)
    (hprop : ∀ i j, ‖M.propagator.px i j‖ ≤ 1) (τ δ : ℝ) (hτ : 0 ≤ τ) (hδ : 0 ≤ δ)
    (hS : List.Forall₂ (fun o o' : Img ℂ => o.h = o'.h ∧ o.w = o'.w ∧ ∀ i j, ‖(M.transmission o).px i j‖ ≤ τ ∧ ‖(M.transmission o').px i j‖ ≤ τ ∧
      ‖(M.transmission o).px i j - (M.transmission o').px i j‖ ≤ δ) M.slices S)
    (idx : Fin N) (t : Fin 3 → ℝ) (y y' : Img ℝ) (hy : M.forward idx t = .ok y) (hy' : ({ M with slices := S } : Multislice n m a b N k).forward idx t = .ok y') :
    amplitudeChange y y' ≤ (M.probeNorm * (M.slices.length * δ * τ ^ (M.slices.length - 1)) / M.oversampling) ^ 2 *
      ∑ i, power (shotProbes M.effectiveWeights idx (fun j => M.realSpace (M.probe j)) i) := by
  unfold Multislice.forward at hy hy'
  have ht : ({ M with slices := S } : Multislice n m a b N k).transmission = M.transmission := rfl
  have hp : ({ M with slices := S } : Multislice n m a b N k).pixTrans = M.pixTrans := rfl
  simp only [ht, hp] at hy'
  simp only at hy
  cases hw : (M.slices.mapM fun o => objWindow a b (M.transmission o) ⌊M.pixTrans idx t 0⌋ ⌊M.pixTrans idx t 1⌋) with
  | error e => rw [hw] at hy; exact (nomatch hy)
  | ok ws =>
    cases hv : (S.mapM fun o => objWindow a b (M.transmission o) ⌊M.pixTrans idx t 0⌋ ⌊M.pixTrans idx t 1⌋) with
    | error e => rw [hv] at hy'; exact (nomatch hy')
    | ok vs =>
      rw [hw] at hy
      rw [hv] at hy'
      simp only at hy hy'
      split_ifs at hy hy' with hP hP'
      have e1 := (Except.ok.inj hy).symm
      have e2 := (Except.ok.inj hy').symm
      rw [e1, e2]
      refine (shots_change (a := a) (b := b) M.saturation M.oversampling hos M.background none efficient_none
        (fun i => M.toDetector idx t ws (shotProbes M.effectiveWeights idx (fun j => M.realSpace (M.probe j)) i))
        (fun i => M.toDetector idx t vs (shotProbes M.effectiveWeights idx (fun j => M.realSpace (M.probe j)) i))).trans ?_
      have hF := mapM_forall2 (fun o => objWindow a b (M.transmission o) ⌊M.pixTrans idx t 0⌋ ⌊M.pixTrans idx t 1⌋)
        (fun o => objWindow a b (M.transmission o) ⌊M.pixTrans idx t 0⌋ ⌊M.pixTrans idx t 1⌋) _
        (fun o o' : Wave a b => ∀ x y, ‖o x y‖ ≤ τ ∧ ‖o' x y‖ ≤ τ ∧ ‖o x y - o' x y‖ ≤ δ)
        (fun o o' s s' h h1 h2 => by
          have g := transmission_shape M o
          have g' := transmission_shape M o'
          unfold objWindow at h1 h2
          simp only [g.1, g.2] at h1
          simp only [g'.1, g'.2, ← h.1, ← h.2.1] at h2
          split_ifs at h1 h2
          intro x y
          rw [← Except.ok.inj h1, ← Except.ok.inj h2]
          exact h.2.2 _ _) M.slices S hS ws vs hw hv
      have hlen := mapM_length_ok _ _ _ hw
      set K : ℝ := M.slices.length * δ * τ ^ (M.slices.length - 1) with hK
      have hK0 : 0 ≤ K := by positivity
      have h1 : ∑ i, power (M.toDetector idx t ws (shotProbes M.effectiveWeights idx (fun j => M.realSpace (M.probe j)) i) -
          M.toDetector idx t vs (shotProbes M.effectiveWeights idx (fun j => M.realSpace (M.probe j)) i)) ≤
          (M.probeNorm * K) ^ 2 * ∑ i, power (shotProbes M.effectiveWeights idx (fun j => M.realSpace (M.probe j)) i) := by
        rw [mul_sum]
        refine sum_le_sum fun i _ => ?_
        unfold Multislice.toDetector
        simp only
        rw [← isLinear_farField.map_sub, far_field_unitary.2.2.1]
        have hc := passSlices_change (M.pixTrans idx t 0, M.pixTrans idx t 1) M.prop (fun x y => hprop _ _) τ δ hτ hδ ws vs hF
          (fun x y => (M.probeNorm : ℂ) * padProbe a b (fun x y =>
            shotProbes M.effectiveWeights idx (fun j => M.realSpace (M.probe j)) i x y * M.ramp t x y) x y)
          (fun x y => (M.probeNorm : ℂ) * padProbe a b (fun x y =>
            shotProbes M.effectiveWeights idx (fun j => M.realSpace (M.probe j)) i x y * M.ramp t x y) x y)
        have hz : power (0 : Wave a b) = 0 := by simp [power]
        rw [sub_self, hz, Real.sqrt_zero, mul_zero, zero_add, hlen, ← hK, multislice_start_power M ha hb] at hc
        have h3 := (Real.sqrt_le_left (by positivity)).1 hc
        refine h3.trans (le_of_eq ?_)
        rw [mul_pow, Real.sq_sqrt (mul_nonneg (sq_nonneg _) (power_nonneg' _))]
        ring
      refine (div_le_div_of_nonneg_right h1 (by positivity)).trans (le_of_eq ?_)
      rw [div_pow]
      ring

/-! ### Tilted samples -/

theorem bragg_illumination_power_le (M : Bragg n m a b N k) (ha : n ≤ a) (hb : m ≤ b) (w d : ℝ) (p : Wave n m) :
    power (M.illumination w d p) ≤ w ^ 2 * power p := by
  have h1 : power (fun x y => (w : ℂ) * p x y * (if M.support x y then 1 else 0) : Wave n m) ≤ w ^ 2 * power p := by
    have := power_mul_le 1 (fun x y => if M.support x y then 1 else 0) (fun x y => (w : ℂ) * p x y) (fun x y => by split_ifs <;> simp)
    rw [power_const_mul] at this
    simpa using this
  unfold Bragg.illumination
  simp only
  rw [power_padProbe ha hb]
  split_ifs
  · rw [(bragg_propagation_group M d 0 _).2.2.2]
    exact h1
  · exact h1

theorem bragg_exit_power_le (M : Bragg n m a b N k) (W : Fin N → ℝ) (ha : n ≤ a) (hb : m ≤ b) (idx : Fin N) (t : Fin 3 → ℝ) (τ : ℝ) (sel : Wave a b)
    (hs : ∀ x y, ‖sel x y‖ ≤ τ) (p : Wave n m) : power (M.exitWave W idx t sel p) ≤ (M.probeNorm * τ * W idx) ^ 2 * power p := by
  unfold Bragg.exitWave
  rw [power_const_mul]
  have h := (sincApply_power_le false (M.pixTrans idx t 0, M.pixTrans idx t 1) τ sel (M.illumination (W idx) (M.distance t) p) hs).trans
    (mul_le_mul_of_nonneg_left (bragg_illumination_power_le M ha hb (W idx) (M.distance t) p) (sq_nonneg _))
  refine (mul_le_mul_of_nonneg_left h (sq_nonneg _)).trans (le_of_eq ?_)
  simp only [Complex.norm_real, Real.norm_eq_abs, sq_abs]
  ring

theorem bragg_record_change (M : Bragg n m a b N k) (hos : 0 < M.oversampling) (htilt : M.tilt = none) (ψ φ : Fin k → Wave a b) :
    amplitudeChange (M.record fun x y => ∑ j, ‖M.toDetector (ψ j) x y‖ ^ 2) (M.record fun x y => ∑ j, ‖M.toDetector (φ j) x y‖ ^ 2) ≤
      (∑ j, power (ψ j - φ j)) / M.oversampling ^ 2 := by
  unfold Bragg.record
  refine (readOut_amplitudes M.saturation M.oversampling hos M.background none efficient_none a b (fun j x y => M.toDetector (ψ j) x y)
    (fun j x y => M.toDetector (φ j) x y)).trans (le_of_eq ?_)
  congr 1
  unfold Bragg.toDetector
  simp only [htilt]
  rw [sum_pixels (fun x y => ∑ j, ‖farField (ψ j) x y - farField (φ j) x y‖ ^ 2)]
  have e : ∀ j, power (ψ j - φ j) = ∑ x, ∑ y, ‖farField (ψ j) x y - farField (φ j) x y‖ ^ 2 := by
    intro j
    rw [← far_field_unitary.2.2.1, isLinear_farField.map_sub]
    rfl
  simp only [e]
  rw [sum_comm (s := (univ : Finset (Fin k)))]
  exact sum_congr rfl fun x _ => sum_comm

/-- **C113** (tilted sample, probe): without tilt correction, a change of the probe of a `Bragg2DPtycho` model with transmission at most `τ` changes
the amplitudes of an exposure by at most `probe_norm · τ · weight / oversampling` times the change, at every distance from focus. -/
theorem bragg_probe_stability (M : Bragg n m a b N k) (W : Fin N → ℝ) (hW : M.weights = some W) (htilt : M.tilt = none) (P : Fin k → Wave n m)
    (ha : n ≤ a) (hb : m ≤ b) (hos : 0 < M.oversampling) (τ : ℝ) (hτ : ∀ i j, ‖M.obj.px i j‖ ≤ τ) (idx : Fin N) (t : Fin 3 → ℝ) (y y' : Img ℝ)
    (hy : M.forward idx t = .ok y) (hy' : (M.withProbe P).forward idx t = .ok y') :
    amplitudeChange y y' ≤ (M.probeNorm * τ * W idx / M.oversampling) ^ 2 * ∑ j, power (M.probe j - P j) := by
  rw [M.forward_eq W hW] at hy
  rw [(M.withProbe P).forward_eq W hW] at hy'
  have ho : (M.withProbe P).obj = M.obj := rfl
  have hp : (M.withProbe P).pixTrans = M.pixTrans := rfl
  simp only [ho, hp] at hy'
  cases hw : objWindow a b M.obj ⌊M.pixTrans idx t 0⌋ ⌊M.pixTrans idx t 1⌋ with
  | error e => rw [hw] at hy; exact (nomatch hy)
  | ok sel =>
    rw [hw] at hy hy'
    have e1 := (Except.ok.inj hy).symm
    have e2 := (Except.ok.inj hy').symm
    obtain ⟨r, c, hsel⟩ := objWindow_bound _ _ _ _ hw
    have hs : ∀ x y, ‖sel x y‖ ≤ τ := fun x y => by rw [hsel]; exact hτ _ _
    have hlin : IsLinearMap ℂ fun p : Wave n m => M.exitWave W idx t sel p := by
      have h1 : IsLinearMap ℂ fun p : Wave n m => (fun x y => (W idx : ℂ) * p x y * (if M.support x y then 1 else 0) : Wave n m) :=
        isLinear_comp (isLinear_mulRight fun x y => if M.support x y then (1 : ℂ) else 0) (isLinear_mulLeft (W idx : ℂ))
      have h2 : IsLinearMap ℂ fun p : Wave n m => M.illumination (W idx) (M.distance t) p := by
        unfold Bragg.illumination
        cases M.propagateProbe
        · exact isLinear_comp isLinear_padProbe h1
        · exact isLinear_comp isLinear_padProbe (isLinear_comp (isLinear_nearField _) h1)
      have h := isLinear_comp (isLinear_mulLeft (M.probeNorm : ℂ)) (isLinear_comp
        (isLinear_sincApply false (M.pixTrans idx t 0, M.pixTrans idx t 1) sel) h2)
      exact h
    rw [e1, e2]
    refine (bragg_record_change M hos htilt (fun j => M.exitWave W idx t sel (M.probe j)) (fun j => M.exitWave W idx t sel (P j))).trans ?_
    have h1 : ∑ j, power (M.exitWave W idx t sel (M.probe j) - M.exitWave W idx t sel (P j)) ≤
        (M.probeNorm * τ * W idx) ^ 2 * ∑ j, power (M.probe j - P j) := by
      rw [mul_sum]
      refine sum_le_sum fun j _ => ?_
      rw [← hlin.map_sub]
      exact bragg_exit_power_le M W ha hb idx t τ sel hs _
    refine (div_le_div_of_nonneg_right h1 (by positivity)).trans (le_of_eq ?_)
    rw [div_pow]
    ring

/-- **C113** (tilted sample, object): the same for a change of the object by at most `δ`. -/
theorem bragg_object_stability (M : Bragg n m a b N k) (W : Fin N → ℝ) (hW : M.weights = some W) (htilt : M.tilt = none) (O : Img ℂ)
    (hO : O.h = M.obj.h ∧ O.w = M.obj.w) (ha : n ≤ a) (hb : m ≤ b) (hos : 0 < M.oversampling) (δ : ℝ)
    (hδ : ∀ i j, ‖M.obj.px i j - O.px i j‖ ≤ δ) (idx : Fin N) (t : Fin 3 → ℝ) (y y' : Img ℝ)
    (hy : M.forward idx t = .ok y) (hy' : ({ M with obj := O } : Bragg n m a b N k).forward idx t = .ok y') :
    amplitudeChange y y' ≤ (M.probeNorm * δ * W idx / M.oversampling) ^ 2 * ∑ j, power (M.probe j) := by
  rw [M.forward_eq W hW] at hy
  rw [({ M with obj := O } : Bragg n m a b N k).forward_eq W hW] at hy'
  have hp : ({ M with obj := O } : Bragg n m a b N k).pixTrans = M.pixTrans := rfl
  simp only [hp] at hy'
  unfold objWindow at hy hy'
  simp only [hO.1, hO.2] at hy'
  simp only at hy
  by_cases hw : (sliceExtent M.obj.h ⌊M.pixTrans idx t 0⌋ (⌊M.pixTrans idx t 0⌋ + a)).2 = a ∧
      (sliceExtent M.obj.w ⌊M.pixTrans idx t 1⌋ (⌊M.pixTrans idx t 1⌋ + b)).2 = b
  · rw [if_pos hw] at hy hy'
    simp only [Except.map] at hy hy'
    have e1 := (Except.ok.inj hy).symm
    have e2 := (Except.ok.inj hy').symm
    rw [e1, e2]
    set s0 := (sliceExtent M.obj.h ⌊M.pixTrans idx t 0⌋ (⌊M.pixTrans idx t 0⌋ + a)).1
    set s1 := (sliceExtent M.obj.w ⌊M.pixTrans idx t 1⌋ (⌊M.pixTrans idx t 1⌋ + b)).1
    refine (bragg_record_change M hos htilt (fun j => M.exitWave W idx t (fun i j => M.obj.px (s0 + i.val) (s1 + j.val)) (M.probe j))
      (fun j => M.exitWave W idx t (fun i j => O.px (s0 + i.val) (s1 + j.val)) (M.probe j))).trans ?_
    have hsub : ∀ (s s' : Wave a b) (p : Wave n m), M.exitWave W idx t s p - M.exitWave W idx t s' p = M.exitWave W idx t (s - s') p := by
      intro s s' p
      unfold Bragg.exitWave
      rw [← sincApply_sub]
      funext x y
      simp only [Pi.sub_apply]
      ring
    have h1 : ∑ j, power (M.exitWave W idx t (fun i j => M.obj.px (s0 + i.val) (s1 + j.val)) (M.probe j) -
        M.exitWave W idx t (fun i j => O.px (s0 + i.val) (s1 + j.val)) (M.probe j)) ≤ (M.probeNorm * δ * W idx) ^ 2 * ∑ j, power (M.probe j) := by
      rw [mul_sum]
      refine sum_le_sum fun j _ => ?_
      rw [hsub]
      exact bragg_exit_power_le M W ha hb idx t δ _ (fun x y => hδ _ _) _
    refine (div_le_div_of_nonneg_right h1 (by positivity)).trans (le_of_eq ?_)
    rw [div_pow]
    ring
  · rw [if_neg hw] at hy
    exact (nomatch hy)

/-! ### Non-vacuity -/

/-- A multislice model with two slices, a changed probe and a changed stack, all of whose patterns exist. -/
example : ∃ (P : Fin 1 → Wave 2 1) (S : List (Img ℂ)) (y y' y'' : Img ℝ),
    (∀ i j, ‖(toyMultislice [clearSlice, toySlice]).propagator.px i j‖ ≤ 1) ∧
    (∀ o ∈ (toyMultislice [clearSlice, toySlice]).slices, ∀ i j, ‖((toyMultislice [clearSlice, toySlice]).transmission o).px i j‖ ≤ 1) ∧
    List.Forall₂ (fun o o' : Img ℂ => o.h = o'.h ∧ o.w = o'.w ∧ ∀ i j, ‖((toyMultislice [clearSlice, toySlice]).transmission o).px i j‖ ≤ 1 ∧
      ‖((toyMultislice [clearSlice, toySlice]).transmission o').px i j‖ ≤ 1 ∧
      ‖((toyMultislice [clearSlice, toySlice]).transmission o).px i j - ((toyMultislice [clearSlice, toySlice]).transmission o').px i j‖ ≤ 1)
      (toyMultislice [clearSlice, toySlice]).slices S ∧ S ≠ (toyMultislice [clearSlice, toySlice]).slices ∧
    (toyMultislice [clearSlice, toySlice]).forward 0 0 = .ok y ∧
    ({ toyMultislice [clearSlice, toySlice] with probe := P } : Multislice 2 1 2 1 1 1).forward 0 0 = .ok y' ∧ P ≠ (toyMultislice []).probe ∧
    ({ toyMultislice [clearSlice, toySlice] with slices := S } : Multislice 2 1 2 1 1 1).forward 0 0 = .ok y'' := by
  have fw : ∀ (P : Fin 1 → Wave 2 1) (l : List (Img ℂ)), (∀ o ∈ l, o.h = 2 ∧ o.w = 1) →
      ∃ Q, ({ toyMultislice l with probe := P } : Multislice 2 1 2 1 1 1).forward 0 0 = .ok Q := by
    intro P l hl
    have hp : ({ toyMultislice l with probe := P } : Multislice 2 1 2 1 1 1).pixTrans 0 0 = ![1 / 2, 0] := toyMultislice_pixTrans l
    have hm : ∃ ws, (l.mapM fun o => objWindow 2 1 (({ toyMultislice l with probe := P } : Multislice 2 1 2 1 1 1).transmission o) ⌊(1 / 2 : ℝ)⌋ ⌊(0 : ℝ)⌋) =
        .ok ws := by
      refine ⟨_, mapM_ok_map _ (fun o x y => o.px (0 + x.val) (0 + y.val)) l fun o ho => ?_⟩
      have e : ({ toyMultislice l with probe := P } : Multislice 2 1 2 1 1 1).transmission o = o := by simp [Multislice.transmission, toyMultislice]
      have h0 : ⌊(1 / 2 : ℝ)⌋ = 0 := by norm_num
      rw [e, h0, Int.floor_zero]
      unfold objWindow
      rw [(hl o ho).1, (hl o ho).2]
      rfl
    obtain ⟨ws, hws⟩ := hm
    exact ⟨_, Multislice.forward_eq _ 0 0 ws (by rw [hp]; exact hws) ⟨rfl, rfl⟩⟩
  obtain ⟨y, hy⟩ := fw (toyMultislice []).probe [clearSlice, toySlice] (by simp [clearSlice, toySlice])
  obtain ⟨y', hy'⟩ := fw (fun _ _ _ => 0) [clearSlice, toySlice] (by simp [clearSlice, toySlice])
  obtain ⟨y'', hy''⟩ := fw (toyMultislice []).probe [toySlice, toySlice] (by simp [toySlice])
  refine ⟨fun _ _ _ => 0, [toySlice, toySlice], y, y', y'', ?_, ?_, ?_, ?_, hy, hy', ?_, hy''⟩
  · intro i j
    simp [toyMultislice, waveImg]
  · intro o ho i j
    have : o = clearSlice ∨ o = toySlice := by simpa [toyMultislice] using ho
    rcases this with rfl | rfl
    · simp [toyMultislice, Multislice.transmission, clearSlice]
    · simp only [toyMultislice, Multislice.transmission, toySlice]
      simp only [Bool.false_eq_true, if_false]
      split_ifs <;> simp
  · have e : ∀ o : Img ℂ, (toyMultislice [clearSlice, toySlice]).transmission o = o := fun o => by simp [Multislice.transmission, toyMultislice]
    simp only [e]
    refine .cons ⟨rfl, rfl, fun i j => ?_⟩ (.cons ⟨rfl, rfl, fun i j => ?_⟩ .nil)
    · simp only [clearSlice, toySlice]
      split_ifs <;> simp
    · simp only [toySlice]
      split_ifs <;> simp
  · intro h
    have h1 := congrArg (fun l : List (Img ℂ) => (l.head?.map fun o => o.px 1 0)) h
    simp [toyMultislice, toySlice, clearSlice] at h1
  · intro h
    have h1 := congrFun (congrFun (congrFun h 0) 0) 0
    simp [toyMultislice] at h1

/-- A tilted sample out of focus, a changed probe and a changed object, all of whose patterns exist. -/
example : ∃ y y' y'' : Img ℝ, toyBragg.forward 0 ![-1, -2, 0] = .ok y ∧ (toyBragg.withProbe fun (_ : Fin 1) _ _ => 0).forward 0 ![-1, -2, 0] = .ok y' ∧
    ({ toyBragg with obj := ⟨4, 4, fun _ _ => 1⟩ } : Bragg 2 2 2 2 1 1).forward 0 ![-1, -2, 0] = .ok y'' ∧ (∀ i j, ‖toyBragg.obj.px i j‖ ≤ 1) ∧
    (∀ i j, ‖toyBragg.obj.px i j - 1‖ ≤ 2) := by
  have hT : Transverse toyBragg.objBasis ![0, 0, 1] := by
    unfold Transverse
    simp [toyBragg, Vec3.dot, Vec3.cross, col]
  have hu := (project_translations_meet_sample toyBragg.objBasis hT ![-1, -2, 0]).2 ![2, 1] 1 (by
    funext i
    fin_cases i <;> simp [toyBragg, mulVec, dotProduct])
  have hp : toyBragg.pixTrans 0 ![-1, -2, 0] = ![((2 : ℕ) : ℝ), ((1 : ℕ) : ℝ)] := by
    have e : toyBragg.pixTrans 0 ![-1, -2, 0] = (projectToSample toyBragg.objBasis ![-1, -2, 0]).1 - 0 := rfl
    rw [e, ← hu.1]; simp
  have key : ∀ M : Bragg 2 2 2 2 1 1, M.weights = toyBragg.weights → M.pixTrans 0 ![-1, -2, 0] = toyBragg.pixTrans 0 ![-1, -2, 0] →
      M.obj.h = 4 → M.obj.w = 4 → ∃ Q, M.forward 0 ![-1, -2, 0] = .ok Q := by
    intro M hW hM h4 w4
    exact ⟨_, bragg_forward_integer M (fun _ => 3) hW 0 ![-1, -2, 0] 2 1 (hM.trans hp) (by omega)⟩
  obtain ⟨y, hy⟩ := key toyBragg rfl rfl rfl rfl
  obtain ⟨y', hy'⟩ := key (toyBragg.withProbe fun (_ : Fin 1) _ _ => 0) rfl rfl rfl rfl
  obtain ⟨y'', hy''⟩ := key ({ toyBragg with obj := ⟨4, 4, fun _ _ => 1⟩ } : Bragg 2 2 2 2 1 1) rfl rfl rfl rfl
  have hn : ∀ i j, ‖toyBragg.obj.px i j‖ = 1 := fun i j => by simp [toyBragg]
  refine ⟨y, y', y'', hy, hy', hy'', fun i j => (hn i j).le, fun i j => ?_⟩
  have := norm_sub_le (toyBragg.obj.px i j) 1
  rw [hn, norm_one] at this
  linarith

end Cdtools
