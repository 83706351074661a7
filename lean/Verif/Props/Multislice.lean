/-
C75: the forward model of `MultislicePtycho` (`models/multislice_ptycho.py:421-532`).
-/
import Verif.Model.Multislice
import Verif.Props.FancyForward
import Verif.Props.Gauge
import Verif.Props.ImageProc
import Verif.Props.Propagators

set_option linter.unusedSectionVars false

namespace Cdtools
open Finset Matrix ZMod

variable {n m a b N k : ℕ} [NeZero n] [NeZero m] [NeZero a] [NeZero b]

/-! ### Specification -/

/-- The multislice method: the wave behind the last slice is obtained by multiplying with each slice and propagating
from one slice to the next. -/
def multisliceWave (propagate : Wave a b → Wave a b) : List (Wave a b) → Wave a b → Wave a b
  | [], w => w
  | [o], w => fun i j => w i j * o i j
  | o :: o' :: os, w => multisliceWave propagate (o' :: os) (propagate fun i j => w i j * o i j)

/-- The part of a slice that is illuminated at the pixel position `(s, r)`. -/
def sliceWindow (o : Img ℂ) (s r : ℕ) : Wave a b := fun i j => o.px (s + i.val) (r + j.val)

/-- The modes of the illumination in front of the first slice, at exposure `idx`. -/
noncomputable def Multislice.incident (M : Multislice n m a b N k) (idx : Fin N) (t : Fin 3 → ℝ)
    (u : Fin M.effectiveWeights.rank) : Wave a b := fun x y =>
  (M.probeNorm : ℂ) * padProbe a b (fun x y =>
    shotProbes M.effectiveWeights idx (fun j => M.realSpace (M.probe j)) u x y * M.ramp t x y) x y

/-- What the detector of the model records for an intensity distribution. -/
noncomputable def Multislice.record (M : Multislice n m a b N k) (I : ZMod a → ZMod b → ℝ) : Img ℝ :=
  measQuadratic { saturation := M.saturation, oversampling := M.oversampling } M.background none
    ⟨a, b, fun x y => I x y⟩

/-- The frequency of the propagator that reaches pixel `(x, y)` of the detector. -/
noncomputable def Multislice.propAt (M : Multislice n m a b N k) (x : ZMod a) (y : ZMod b) : ℂ :=
  M.prop (x - ((a / 2 : ℕ) : ZMod a)) (y - ((b / 2 : ℕ) : ZMod b))

/-- The model with other slices. -/
def Multislice.withSlices (M : Multislice n m a b N k) (slices : List (Img ℂ)) : Multislice n m a b N k :=
  { M with slices := slices }

/-! ### Lemmas -/

theorem sincApply_false (tr : ℝ × ℝ) (sel w : Wave a b) :
    sincApply false tr sel w = fun i j => sincShift w (tr.1 - ⌊tr.1⌋) (tr.2 - ⌊tr.2⌋) i j * sel i j := rfl

theorem norm_farField (u : Wave a b) (x : ZMod a) (y : ZMod b) :
    ‖farField u x y‖ =
      ‖fft2 u (x - ((a / 2 : ℕ) : ZMod a)) (y - ((b / 2 : ℕ) : ZMod b))‖ / Real.sqrt (a * b) := by
  have h : ifftshift2 u = fun i j => u (i - -((a / 2 : ℕ) : ZMod a)) (j - -((b / 2 : ℕ) : ZMod b)) := by
    funext i j; simp only [ifftshift2, sub_neg_eq_add]
  simp only [farField, fftshift2]
  rw [h, fft2_roll, norm_div, norm_mul, norm_mul, stdAddChar_norm, stdAddChar_norm, one_mul, one_mul,
    Complex.norm_real, Real.norm_eq_abs, abs_of_nonneg (Real.sqrt_nonneg _)]

theorem norm_farField_nearField (p u : Wave a b) (x : ZMod a) (y : ZMod b) :
    ‖farField (nearField p u) x y‖ =
      ‖p (x - ((a / 2 : ℕ) : ZMod a)) (y - ((b / 2 : ℕ) : ZMod b))‖ * ‖farField u x y‖ := by
  rw [norm_farField, norm_farField]
  unfold nearField
  rw [fft2_ifft2, norm_mul, mul_div_assoc]

theorem norm_farField_sincShift (u : Wave a b) (s0 s1 : ℝ) (x : ZMod a) (y : ZMod b) :
    ‖farField (sincShift u s0 s1) x y‖ = ‖farField u x y‖ := by
  rw [norm_farField, norm_farField, sincShift_mask, norm_mul]
  have : ∀ θ : ℝ, ‖Complex.exp (Complex.I * θ)‖ = 1 := by
    intro θ; rw [mul_comm]; exact Complex.norm_exp_ofReal_mul_I θ
  have h := this (-s0 * (2 * Real.pi * (((x - ((a / 2 : ℕ) : ZMod a) + ((a / 2 : ℕ) : ZMod a)).val : ℝ) - ((a / 2 : ℕ) : ℝ)) / a) -
      s1 * (2 * Real.pi * (((y - ((b / 2 : ℕ) : ZMod b) + ((b / 2 : ℕ) : ZMod b)).val : ℝ) - ((b / 2 : ℕ) : ℝ)) / b))
  push_cast at h
  push_cast
  rw [h, mul_one]

theorem isLinear_passSlices (tr : ℝ × ℝ) (p : Wave a b) (ws : List (Wave a b)) : IsLinearMap ℂ (passSlices tr p ws) := by
  induction ws with
  | nil => exact ⟨fun _ _ => rfl, fun _ _ => rfl⟩
  | cons o ws ih =>
    have h := isLinear_comp ih (isLinear_comp (isLinear_nearField p) (isLinear_sincApply false tr o))
    exact h

/-- The pattern, when every window exists and the propagator fits. -/
theorem Multislice.forward_eq (M : Multislice n m a b N k) (idx : Fin N) (t : Fin 3 → ℝ) (ws : List (Wave a b))
    (hw : (M.slices.mapM fun o => objWindow a b (M.transmission o) ⌊M.pixTrans idx t 0⌋ ⌊M.pixTrans idx t 1⌋) = .ok ws)
    (hP : M.propagator.h = a ∧ M.propagator.w = b) :
    M.forward idx t = .ok (M.record fun x y => ∑ u, ‖farField (passSlices (M.pixTrans idx t 0, M.pixTrans idx t 1)
      M.prop ws (M.incident idx t u)) x y‖ ^ 2) := by
  unfold Multislice.forward
  simp only [hw]
  rw [if_neg (fun h => h.2 hP)]
  unfold Multislice.record
  have : ∀ modes : Fin M.effectiveWeights.rank → ℕ → ℕ → ℂ, sumModes a b (List.ofFn modes) =
      ⟨a, b, fun x y => ∑ u, ‖modes u x y‖ ^ 2⟩ := by
    intro modes
    unfold sumModes
    congr 1
    funext x y
    exact listSum_ofFn _ _ _
  rw [this]
  rfl

/-- Conversely, the simulation succeeds only in this case. -/
theorem Multislice.forward_ok (M : Multislice n m a b N k) (idx : Fin N) (t : Fin 3 → ℝ) (Q : Img ℝ)
    (h : M.forward idx t = .ok Q) (hne : M.slices ≠ []) : ∃ ws : List (Wave a b), (M.slices.mapM fun o => objWindow a b (M.transmission o)
      ⌊M.pixTrans idx t 0⌋ ⌊M.pixTrans idx t 1⌋) = .ok ws ∧ (M.propagator.h = a ∧ M.propagator.w = b) ∧
      Q = M.record fun x y => ∑ u, ‖farField (passSlices (M.pixTrans idx t 0, M.pixTrans idx t 1)
      M.prop ws (M.incident idx t u)) x y‖ ^ 2 := by
  have h' := h
  unfold Multislice.forward at h'
  simp only at h'
  split at h'
  · exact (nomatch h')
  · rename_i ws hw
    split at h'
    · exact (nomatch h')
    · rename_i hP
      have hP' : M.propagator.h = a ∧ M.propagator.w = b := by
        by_contra hc; exact hP ⟨hne, hc⟩
      refine ⟨ws, hw, hP', ?_⟩
      rw [M.forward_eq idx t ws hw hP'] at h
      exact (Except.ok.inj h).symm

theorem passSlices_cons (tr : ℝ × ℝ) (p o : Wave a b) (ws : List (Wave a b)) (w : Wave a b) :
    passSlices tr p (o :: ws) w = passSlices tr p ws (nearField p (sincApply false tr o w)) := by
  unfold passSlices; rw [List.foldl_cons]

theorem passSlices_append (tr : ℝ × ℝ) (p : Wave a b) (ws vs : List (Wave a b)) (w : Wave a b) :
    passSlices tr p (ws ++ vs) w = passSlices tr p vs (passSlices tr p ws w) := List.foldl_append ..

theorem passSlices_integer (p : Wave a b) (s r : ℕ) (ws : List (Wave a b)) (hne : ws ≠ []) (w : Wave a b) :
    passSlices ((s : ℝ), (r : ℝ)) p ws w = nearField p (multisliceWave (nearField p) ws w) := by
  have h0 : ∀ (sel v : Wave a b), sincApply false ((s : ℝ), (r : ℝ)) sel v = fun i j => v i j * sel i j := by
    intro sel v
    rw [sincApply_false]
    simp only [Int.floor_natCast, Int.cast_natCast, sub_self]
    rw [(shifts_preserve_energy_and_compose v 0 0 0 0).2.2.1]
  induction ws generalizing w with
  | nil => exact absurd rfl hne
  | cons o ws ih =>
    cases ws with
    | nil => simp only [passSlices, List.foldl_cons, List.foldl_nil, h0, multisliceWave]
    | cons o' ws =>
      rw [passSlices_cons, ih (by simp), h0, multisliceWave]

theorem transmission_shape (M : Multislice n m a b N k) (o : Img ℂ) :
    (M.transmission o).h = o.h ∧ (M.transmission o).w = o.w := by
  unfold Multislice.transmission; split_ifs <;> exact ⟨rfl, rfl⟩

/-! ### C75: the pattern is that of the multislice method -/

/-- **C75** (with the factor of the propagator): at integer positions the pattern is the multislice far field, with
every pixel multiplied by the squared modulus of the propagator at the frequency of the pixel. -/
theorem multislice_forward_propagator (M : Multislice n m a b N k) (idx : Fin N) (t : Fin 3 → ℝ) (s r : ℕ)
    (hs : M.pixTrans idx t = ![(s : ℝ), (r : ℝ)]) (hne : M.slices ≠ [])
    (hin : ∀ o ∈ M.slices, s + a ≤ o.h ∧ r + b ≤ o.w) (hP : M.propagator.h = a ∧ M.propagator.w = b) :
    M.forward idx t = .ok (M.record fun x y => ‖M.propAt x y‖ ^ 2 *
      ∑ u, ‖farField (multisliceWave (nearField M.prop)
        (M.slices.map fun o => sliceWindow (M.transmission o) s r) (M.incident idx t u)) x y‖ ^ 2) := by
  have h0 : M.pixTrans idx t 0 = (s : ℝ) := by rw [hs]; rfl
  have h1 : M.pixTrans idx t 1 = (r : ℝ) := by rw [hs]; rfl
  rw [M.forward_eq idx t (M.slices.map fun o => sliceWindow (M.transmission o) s r) ?_ hP]
  · congr 2
    funext x y
    rw [mul_sum]
    refine sum_congr rfl fun u _ => ?_
    rw [h0, h1, passSlices_integer _ _ _ _ (by simpa using hne), norm_farField_nearField, mul_pow]
    rfl
  · refine mapM_ok_map _ _ _ fun o ho => ?_
    rw [h0, h1, Int.floor_natCast, Int.floor_natCast]
    have hsh := transmission_shape M o
    have := hin o ho
    rw [objWindow_inside ⟨by omega, by rw [hsh.1]; omega⟩ ⟨by omega, by rw [hsh.2]; omega⟩]
    simp only [Int.toNat_natCast]
    rfl

/-- **C75**: at integer positions inside the object, with a propagator of modulus one (every angular spectrum
propagator without evanescent waves), the pattern is what the detector records of the incoherent sum over the modes of
the far field of the multislice exit wave. -/
theorem multislice_forward_integer (M : Multislice n m a b N k) (idx : Fin N) (t : Fin 3 → ℝ) (s r : ℕ)
    (hs : M.pixTrans idx t = ![(s : ℝ), (r : ℝ)]) (hne : M.slices ≠ [])
    (hin : ∀ o ∈ M.slices, s + a ≤ o.h ∧ r + b ≤ o.w) (hP : M.propagator.h = a ∧ M.propagator.w = b)
    (h1 : ∀ x y, ‖M.prop x y‖ = 1) :
    M.forward idx t = .ok (M.record fun x y => ∑ u, ‖farField (multisliceWave (nearField M.prop)
        (M.slices.map fun o => sliceWindow (M.transmission o) s r) (M.incident idx t u)) x y‖ ^ 2) := by
  rw [multislice_forward_propagator M idx t s r hs hne hin hP]
  simp only [Multislice.propAt, h1, one_pow, one_mul]

/-- **C75** (violated when the propagator is not of modulus one): because the wave is propagated once more behind the
last slice, a frequency at which the propagator vanishes is a pixel at which nothing is ever detected, for every
object, probe and position (integer or not). -/
theorem multislice_blind_pixels (M : Multislice n m a b N k) (idx : Fin N) (t : Fin 3 → ℝ) (Q : Img ℝ)
    (h : M.forward idx t = .ok Q) (hne : M.slices ≠ []) :
    ∃ I : ZMod a → ZMod b → ℝ, Q = M.record I ∧ ∀ x y, M.propAt x y = 0 → I x y = 0 := by
  obtain ⟨ws, hw, hP, rfl⟩ := M.forward_ok idx t Q h hne
  refine ⟨_, rfl, fun x y h0 => sum_eq_zero fun u _ => ?_⟩
  obtain ⟨vs, v, rfl⟩ : ∃ vs v, ws = vs ++ [v] := by
    rcases List.eq_nil_or_concat ws with rfl | ⟨vs, v, rfl⟩
    · exfalso
      cases hsl : M.slices with
      | nil => exact hne hsl
      | cons o os =>
        rw [hsl, List.mapM_cons] at hw
        cases h1 : objWindow a b (M.transmission o) ⌊M.pixTrans idx t 0⌋ ⌊M.pixTrans idx t 1⌋ with
        | error e => rw [h1] at hw; exact (nomatch hw)
        | ok v =>
          rw [h1] at hw
          cases h2 : os.mapM fun o => objWindow a b (M.transmission o) ⌊M.pixTrans idx t 0⌋ ⌊M.pixTrans idx t 1⌋ with
          | error e => rw [h2] at hw; exact (nomatch hw)
          | ok v' => rw [h2] at hw; exact (nomatch hw)
    · exact ⟨vs, v, List.concat_eq_append⟩
  rw [passSlices_append]
  have : ∀ w : Wave a b, passSlices (M.pixTrans idx t 0, M.pixTrans idx t 1) M.prop [v] w =
      nearField M.prop (sincApply false (M.pixTrans idx t 0, M.pixTrans idx t 1) v w) := fun _ => rfl
  rw [this, norm_farField_nearField]
  unfold Multislice.propAt at h0
  rw [h0]
  simp

/-- **C75** (violated): `propagator_fourier_crop` makes a frame of that width on the detector blind. -/
theorem multislice_crop_violated (M : Multislice n m a b N k) (c : ℕ) (p : Wave a b)
    (hp : M.propagator = waveImg (cropPropagator c p)) (hne : M.slices ≠ []) (idx : Fin N) (t : Fin 3 → ℝ) (Q : Img ℝ)
    (h : M.forward idx t = .ok Q) :
    ∃ I : ZMod a → ZMod b → ℝ, Q = M.record I ∧ ∀ x y,
      (x.val < c ∨ y.val < c ∨ a ≤ x.val + c ∨ b ≤ y.val + c) → I x y = 0 := by
  obtain ⟨I, hI, h0⟩ := multislice_blind_pixels M idx t Q h hne
  refine ⟨I, hI, fun x y hxy => h0 x y ?_⟩
  unfold Multislice.propAt Multislice.prop
  rw [hp]
  simp only [waveImg, cropPropagator, ifftshift2, ZMod.natCast_zmod_val, sub_add_cancel]
  rw [if_pos hxy]

/-- **C75** (trailing transparent slices): adding a transparent slice behind the others changes no pattern at any
position, with a propagator of modulus one. -/
theorem multislice_transparent_last (M : Multislice n m a b N k) (o : Img ℂ) (hne : M.slices ≠ [])
    (hsame : ∀ o' ∈ M.slices, o'.h = o.h ∧ o'.w = o.w) (ho : ∀ i j, (M.transmission o).px i j = 1)
    (h1 : ∀ x y, ‖M.prop x y‖ = 1) (idx : Fin N) (t : Fin 3 → ℝ) :
    (M.withSlices (M.slices ++ [o])).forward idx t = M.forward idx t := by
  set M' : Multislice n m a b N k := M.withSlices (M.slices ++ [o]) with hM'
  have hpt : M'.pixTrans idx t = M.pixTrans idx t := rfl
  have htr : ∀ o : Img ℂ, M'.transmission o = M.transmission o := fun _ => rfl
  by_cases hP : M.propagator.h = a ∧ M.propagator.w = b
  swap
  · have e : ∀ K : Multislice n m a b N k, K.propagator = M.propagator → K.slices ≠ [] →
        (∀ e, (K.slices.mapM fun o => objWindow a b (K.transmission o) ⌊K.pixTrans idx t 0⌋ ⌊K.pixTrans idx t 1⌋) = .error e →
          e = "RuntimeError") → K.forward idx t = .error "RuntimeError" := by
      intro K hK hn he
      unfold Multislice.forward
      simp only
      split
      · rename_i e' h'; rw [he e' h']
      · rw [hK, if_pos ⟨hn, hP⟩]
    have herr : ∀ (K : Multislice n m a b N k) (l : List (Img ℂ)) (e : String), (l.mapM fun o => objWindow a b (K.transmission o)
        ⌊K.pixTrans idx t 0⌋ ⌊K.pixTrans idx t 1⌋) = .error e → e = "RuntimeError" := by
      intro K l e
      induction l with
      | nil => intro h; exact (nomatch h)
      | cons o l ih =>
        rw [List.mapM_cons]
        intro h
        cases h1 : objWindow a b (K.transmission o) ⌊K.pixTrans idx t 0⌋ ⌊K.pixTrans idx t 1⌋ with
        | error e' =>
          rw [h1] at h
          have : e' = e := Except.error.inj h
          subst this
          unfold objWindow at h1
          simp only at h1
          split at h1
          · exact (nomatch h1)
          · exact (Except.error.inj h1).symm
        | ok v =>
          rw [h1] at h
          cases h2 : l.mapM fun o => objWindow a b (K.transmission o) ⌊K.pixTrans idx t 0⌋ ⌊K.pixTrans idx t 1⌋ with
          | error e' => rw [h2] at h; exact ih (h2.trans h)
          | ok v' => rw [h2] at h; exact (nomatch h)
    rw [e M rfl hne (herr M _), e M' rfl (by simp [hM', Multislice.withSlices]) (herr M' _)]
  · cases hw : M.slices.mapM fun o => objWindow a b (M.transmission o) ⌊M.pixTrans idx t 0⌋ ⌊M.pixTrans idx t 1⌋ with
    | error e =>
      have hw' : (M'.slices.mapM fun o => objWindow a b (M'.transmission o) ⌊M'.pixTrans idx t 0⌋ ⌊M'.pixTrans idx t 1⌋) =
          .error e := by
        have : M'.slices = M.slices ++ [o] := rfl
        rw [this, List.mapM_append, hpt]
        simp only [htr, hw]
        rfl
      unfold Multislice.forward
      simp only [hw, hw']
    | ok ws =>
      -- the window of the new slice exists because that of the first slice does
      have hv : ∃ v : Wave a b, objWindow a b (M.transmission o) ⌊M.pixTrans idx t 0⌋ ⌊M.pixTrans idx t 1⌋ = .ok v ∧
          ∀ i j, v i j = 1 := by
        cases hsl : M.slices with
        | nil => exact absurd hsl hne
        | cons o' os =>
          rw [hsl, List.mapM_cons] at hw
          have hsh := hsame o' (by rw [hsl]; simp)
          cases h1 : objWindow a b (M.transmission o') ⌊M.pixTrans idx t 0⌋ ⌊M.pixTrans idx t 1⌋ with
          | error e => rw [h1] at hw; exact (nomatch hw)
          | ok v =>
            unfold objWindow at h1 ⊢
            simp only [transmission_shape] at h1 ⊢
            rw [hsh.1, hsh.2] at h1
            split at h1
            · rename_i hc
              rw [if_pos hc]
              exact ⟨_, rfl, fun i j => ho _ _⟩
            · exact (nomatch h1)
      obtain ⟨v, hv, hv1⟩ := hv
      have hw' : (M'.slices.mapM fun o => objWindow a b (M'.transmission o) ⌊M'.pixTrans idx t 0⌋ ⌊M'.pixTrans idx t 1⌋) =
          .ok (ws ++ [v]) := by
        have : M'.slices = M.slices ++ [o] := rfl
        rw [this, List.mapM_append, hpt]
        simp only [htr, hw, List.mapM_cons, hv, List.mapM_nil]
        rfl
      rw [M.forward_eq idx t ws hw hP, M'.forward_eq idx t _ hw' hP]
      have hrec : M'.record = M.record := rfl
      rw [hrec]
      refine congrArg (fun I => Except.ok (M.record I)) (funext fun x => funext fun y => ?_)
      refine sum_congr rfl fun u _ => ?_
      rw [passSlices_append]
      have : ∀ w : Wave a b, passSlices (M'.pixTrans idx t 0, M'.pixTrans idx t 1) M'.prop [v] w =
          nearField M.prop (sincShift w (M.pixTrans idx t 0 - ⌊M.pixTrans idx t 0⌋)
            (M.pixTrans idx t 1 - ⌊M.pixTrans idx t 1⌋)) := by
        intro w
        show nearField M.prop (sincApply false _ v w) = _
        rw [sincApply_false]
        simp only [hv1, mul_one]
        rfl
      rw [this, norm_farField_nearField, h1, one_mul, norm_farField_sincShift]
      rfl

/-! ### C75: energy -/

theorem passSlices_power (tr : ℝ × ℝ) (p : Wave a b) (hp : ∀ x y, ‖p x y‖ = 1) (ws : List (Wave a b))
    (hw : ∀ o ∈ ws, ∀ x y, ‖o x y‖ = 1) (w : Wave a b) : power (passSlices tr p ws w) = power w := by
  induction ws generalizing w with
  | nil => rfl
  | cons o ws ih =>
    have : passSlices tr p (o :: ws) w = passSlices tr p ws (nearField p (sincApply false tr o w)) := rfl
    rw [this, ih (fun o' h => hw o' (by simp [h])) _, (near_field_unitary p hp _).1, sincApply_false]
    unfold power
    simp only [norm_mul, hw o (by simp), mul_one]
    exact (shifts_preserve_energy_and_compose w _ _ 0 0).1

/-- **C75** (energy): with pure phase slices and a propagator of modulus one, the detected intensity adds up to the
power of the illumination, at every position. -/
theorem multislice_energy (M : Multislice n m a b N k) (idx : Fin N) (t : Fin 3 → ℝ) (Q : Img ℝ)
    (h : M.forward idx t = .ok Q) (hne : M.slices ≠ [])
    (hph : ∀ o ∈ M.slices, ∀ i j, ‖(M.transmission o).px i j‖ = 1) (h1 : ∀ x y, ‖M.prop x y‖ = 1) :
    ∃ I : ZMod a → ZMod b → ℝ, Q = M.record I ∧ ∑ x, ∑ y, I x y = ∑ u, power (M.incident idx t u) := by
  obtain ⟨ws, hw, hP, rfl⟩ := M.forward_ok idx t Q h hne
  refine ⟨_, rfl, ?_⟩
  have hph' : ∀ o ∈ ws, ∀ x y, ‖o x y‖ = 1 := by
    have key : ∀ (l : List (Img ℂ)) (vs : List (Wave a b)), (∀ o ∈ l, ∀ i j, ‖(M.transmission o).px i j‖ = 1) →
        (l.mapM fun o => objWindow a b (M.transmission o) ⌊M.pixTrans idx t 0⌋ ⌊M.pixTrans idx t 1⌋) = .ok vs →
        ∀ o ∈ vs, ∀ x y, ‖o x y‖ = 1 := by
      intro l
      induction l with
      | nil => intro vs _ hv; obtain rfl := Except.ok.inj hv; simp
      | cons o l ih =>
        intro vs hl hv
        rw [List.mapM_cons] at hv
        cases h1 : objWindow a b (M.transmission o) ⌊M.pixTrans idx t 0⌋ ⌊M.pixTrans idx t 1⌋ with
        | error e => rw [h1] at hv; exact (nomatch hv)
        | ok v =>
          rw [h1] at hv
          cases h2 : l.mapM fun o => objWindow a b (M.transmission o) ⌊M.pixTrans idx t 0⌋ ⌊M.pixTrans idx t 1⌋ with
          | error e => rw [h2] at hv; exact (nomatch hv)
          | ok v' =>
            rw [h2] at hv
            obtain rfl : v :: v' = vs := Except.ok.inj hv
            intro o' ho'
            rcases List.mem_cons.1 ho' with rfl | ho'
            · unfold objWindow at h1
              simp only at h1
              split at h1
              · obtain rfl := Except.ok.inj h1
                exact fun x y => hl o (by simp) _ _
              · exact (nomatch h1)
            · exact ih v' (fun o ho => hl o (by simp [ho])) h2 o' ho'
    exact key _ _ hph hw
  have hsw : ∀ f : ZMod a → ZMod b → Fin M.effectiveWeights.rank → ℝ,
      ∑ x, ∑ y, ∑ u, f x y u = ∑ u, ∑ x, ∑ y, f x y u := by
    intro f
    rw [sum_comm (s := (univ : Finset (Fin M.effectiveWeights.rank)))]
    exact sum_congr rfl fun x _ => sum_comm
  rw [hsw]
  refine sum_congr rfl fun u _ => ?_
  have e := far_field_unitary.2.2.1 (passSlices (M.pixTrans idx t 0, M.pixTrans idx t 1) M.prop ws (M.incident idx t u))
  rw [passSlices_power _ _ h1 _ hph'] at e
  rw [← e]
  rfl

/-! ### C75: one slice -/

/-- The `FancyPtycho` model with the parameters of a multislice model and one of its slices as object. -/
noncomputable def Multislice.asFancy (M : Multislice n m a b N k) (o : Img ℂ) : Fancy n m a b N k where
  probe := M.probe
  probeNorm := M.probeNorm
  support := M.support
  weights := M.effectiveWeights
  fourierProbe := M.fourierProbe
  obj := o
  exponentiate := M.exponentiate
  phaseOnly := false
  nearField := false
  propagator := M.prop
  objBasis := M.objBasis
  detBasis := M.detBasis
  normal := M.normal
  minTranslation := M.minTranslation
  translationScale := M.translationScale
  offsets := M.offsets
  fourierShifts := if M.simulateTranslation then some fun _ => 0 else none
  simulateTranslation := M.simulateTranslation
  oversampling := M.oversampling
  background := M.background
  qe := none
  saturation := M.saturation

/-- **C75** (one slice): a multislice model with one slice and a propagator of modulus one predicts exactly what the
`FancyPtycho` model with the same parameters predicts, at all positions, including its errors. -/
theorem multislice_single_slice (M : Multislice n m a b N k) (o : Img ℂ) (ho : M.slices = [o])
    (hP : M.propagator.h = a ∧ M.propagator.w = b) (h1 : ∀ x y, ‖M.prop x y‖ = 1) (idx : Fin N) (t : Fin 3 → ℝ) :
    M.forward idx t = (M.asFancy o).forward idx t := by
  set F := M.asFancy o with hF
  have hpt : F.pixTrans idx t = M.pixTrans idx t := rfl
  have htr : F.transmission = M.transmission o := by
    unfold Fancy.transmission Multislice.transmission
    simp only [hF, Multislice.asFancy, Bool.false_eq_true, if_false]
  have hramp : F.ramp idx t = M.ramp t := by
    unfold Fancy.ramp Multislice.ramp
    simp only [hF, Multislice.asFancy]
    cases M.simulateTranslation with
    | true => simp only [if_true, zero_add]
    | false => simp
  have hcond : ¬ (F.simulateTranslation = true ∧ F.fourierShifts = none) := by
    simp only [hF, Multislice.asFancy]
    cases M.simulateTranslation <;> simp
  unfold Fancy.forward
  rw [if_neg hcond]
  simp only [hpt, htr]
  cases hw : objWindow a b (M.transmission o) ⌊M.pixTrans idx t 0⌋ ⌊M.pixTrans idx t 1⌋ with
  | error e =>
    unfold Multislice.forward
    have : (M.slices.mapM fun o => objWindow a b (M.transmission o) ⌊M.pixTrans idx t 0⌋ ⌊M.pixTrans idx t 1⌋) =
        .error e := by
      rw [ho, List.mapM_cons, hw]; rfl
    simp only [this]
    rfl
  | ok sel =>
    have : (M.slices.mapM fun o => objWindow a b (M.transmission o) ⌊M.pixTrans idx t 0⌋ ⌊M.pixTrans idx t 1⌋) =
        .ok [sel] := by
      rw [ho, List.mapM_cons, hw]; rfl
    rw [M.forward_eq idx t [sel] this hP]
    simp only [Except.map]
    unfold Multislice.record
    have hsum : ∀ modes : Fin F.weights.rank → ℕ → ℕ → ℂ, sumModes a b (List.ofFn modes) =
        ⟨a, b, fun x y => ∑ u, ‖modes u x y‖ ^ 2⟩ := by
      intro modes
      unfold sumModes
      congr 1
      funext x y
      exact listSum_ofFn _ _ _
    rw [hsum]
    have hI : ∀ x y, ∑ u, ‖farField (passSlices (M.pixTrans idx t 0, M.pixTrans idx t 1) M.prop [sel]
          (M.incident idx t u)) x y‖ ^ 2 =
        ∑ u, ‖F.toDetector idx t sel (shotProbes F.weights idx F.basisProbes u) x y‖ ^ 2 := by
      intro x y
      refine sum_congr rfl fun u _ => ?_
      rw [passSlices_cons]
      have : ∀ v : Wave a b, passSlices (M.pixTrans idx t 0, M.pixTrans idx t 1) M.prop [] v = v := fun _ => rfl
      rw [this, norm_farField_nearField, h1, one_mul]
      unfold Fancy.toDetector Fancy.propagate
      have hnf : F.nearField = false := rfl
      simp only [hpt, hramp, hnf, Bool.false_eq_true, if_false]
      have hl := (isLinear_sincApply false (M.pixTrans idx t 0, M.pixTrans idx t 1) sel).map_smul (M.probeNorm : ℂ)
        (padProbe a b fun x y => shotProbes F.weights idx F.basisProbes u x y * M.ramp t x y)
      have e : M.incident idx t u = (M.probeNorm : ℂ) •
        padProbe a b (fun x y => shotProbes F.weights idx F.basisProbes u x y * M.ramp t x y) := rfl
      rw [e, hl]
      rfl
    simp only [hI]
    rfl

/-! ### C75: gauge freedoms -/

/-- Every slice multiplied by its own constant. -/
def scaleSlices (c : List ℂ) (slices : List (Img ℂ)) : List (Img ℂ) := List.zipWith (fun c o => o.map fun z => c * z) c slices

theorem passSlices_scaled (tr : ℝ × ℝ) (p : Wave a b) (c : List ℂ) (ws : List (Wave a b)) (hl : c.length = ws.length)
    (w : Wave a b) : passSlices tr p (List.zipWith (fun c (o : Wave a b) => fun x y => c * o x y) c ws) w =
      c.prod • passSlices tr p ws w := by
  induction ws generalizing c w with
  | nil =>
    obtain rfl : c = [] := List.length_eq_zero_iff.1 (by simpa using hl)
    simp [passSlices]
  | cons o ws ih =>
    cases c with
    | nil => simp at hl
    | cons z c =>
      rw [List.zipWith_cons_cons, passSlices_cons, passSlices_cons, ih c (by simpa using hl), sincApply_sel,
        List.prod_cons, mul_comm, mul_smul]
      congr 1
      rw [← (isLinear_passSlices tr p ws).map_smul, ← (isLinear_nearField p).map_smul,
        ← (isLinear_sincApply false tr o).map_smul]
      rfl

/-- **C75** (scale and phase of the slices): multiplying every slice by its own constant, and the probes by another,
changes no pattern if the product of the constants has modulus one. -/
theorem multislice_scale_gauge (M : Multislice n m a b N k) (he : M.exponentiate = false) (c : List ℂ) (d : ℂ)
    (hl : c.length = M.slices.length) (hc : ‖c.prod * d‖ = 1) (idx : Fin N) (t : Fin 3 → ℝ) :
    Multislice.forward ({ M with slices := scaleSlices c M.slices, probe := fun j x y => d * M.probe j x y } :
      Multislice n m a b N k) idx t = M.forward idx t := by
  set M' : Multislice n m a b N k :=
    { M with slices := scaleSlices c M.slices, probe := fun j x y => d * M.probe j x y } with hM'
  have htr : ∀ o : Img ℂ, M.transmission o = o := fun o => by
    unfold Multislice.transmission; rw [he]; rfl
  have htr' : ∀ o : Img ℂ, M'.transmission o = o := fun o => by
    unfold Multislice.transmission; rw [show M'.exponentiate = false from he]; rfl
  have hpt : M'.pixTrans idx t = M.pixTrans idx t := rfl
  have hmap : ∀ (c : List ℂ) (l : List (Img ℂ)), c.length = l.length → ∀ i j : ℤ,
      ((scaleSlices c l).mapM fun o => objWindow a b o i j) =
      (l.mapM fun o => objWindow a b o i j).map fun ws =>
        List.zipWith (fun c (o : Wave a b) => fun x y => c * o x y) c ws := by
    intro c l
    induction l generalizing c with
    | nil =>
      intro h i j
      obtain rfl : c = [] := List.length_eq_zero_iff.1 (by simpa using h)
      rfl
    | cons o l ih =>
      intro h i j
      cases c with
      | nil => simp at h
      | cons z c =>
        rw [scaleSlices, List.zipWith_cons_cons, List.mapM_cons, List.mapM_cons, objWindow_map_mul]
        have := ih c (by simpa using h) i j
        unfold scaleSlices at this
        rw [this]
        cases objWindow a b o i j with
        | error e => rfl
        | ok v =>
          cases l.mapM fun o => objWindow a b o i j with
          | error e => rfl
          | ok vs => rfl
  have hlen : ∀ (l : List (Img ℂ)) (ws : List (Wave a b)) (i j : ℤ), (l.mapM fun o => objWindow a b o i j) = .ok ws →
      ws.length = l.length := by
    intro l
    induction l with
    | nil => intro ws i j h; obtain rfl := Except.ok.inj h; rfl
    | cons o l ih =>
      intro ws i j h
      rw [List.mapM_cons] at h
      cases h1 : objWindow a b o i j with
      | error e => rw [h1] at h; exact (nomatch h)
      | ok v =>
        rw [h1] at h
        cases h2 : l.mapM fun o => objWindow a b o i j with
        | error e => rw [h2] at h; exact (nomatch h)
        | ok vs =>
          rw [h2] at h
          obtain rfl : v :: vs = ws := Except.ok.inj h
          simp [ih vs i j h2]
  have hm := hmap c M.slices hl ⌊M.pixTrans idx t 0⌋ ⌊M.pixTrans idx t 1⌋
  have hM's : M'.slices = scaleSlices c M.slices := rfl
  cases hw : M.slices.mapM fun o => objWindow a b o ⌊M.pixTrans idx t 0⌋ ⌊M.pixTrans idx t 1⌋ with
  | error e =>
    rw [hw] at hm
    unfold Multislice.forward
    simp only [htr, htr', hpt, hM's, hm, hw]
    rfl
  | ok ws =>
    rw [hw] at hm
    have hwl := hlen _ _ _ _ hw
    have hemp : (M'.slices ≠ []) ↔ (M.slices ≠ []) := by
      rw [hM's, ← List.length_pos_iff, ← List.length_pos_iff, scaleSlices, List.length_zipWith, hl, min_self]
    have hprop : M'.propagator = M.propagator := rfl
    have hsum : sumModes a b (List.ofFn fun i => fun x y => M'.toDetector idx t
          (List.zipWith (fun c (o : Wave a b) => fun x y => c * o x y) c ws)
          (shotProbes M'.effectiveWeights idx (fun j => M'.realSpace (M'.probe j)) i) x y) =
        sumModes a b (List.ofFn fun i => fun x y => M.toDetector idx t ws
          (shotProbes M.effectiveWeights idx (fun j => M.realSpace (M.probe j)) i) x y) := by
      unfold sumModes
      refine congrArg (Img.mk a b) (funext fun x => funext fun y => ?_)
      rw [listSum_ofFn, listSum_ofFn]
      refine sum_congr rfl fun u _ => ?_
      refine congrArg (fun z : ℝ => z ^ 2) ?_
      have hrs : IsLinearMap ℂ M.realSpace := by
        unfold Multislice.realSpace
        cases M.fourierProbe
        · exact isLinear_mulRight _
        · exact isLinear_comp isLinear_inverseFarField (isLinear_mulRight _)
      have hshot : ∀ (W : Weights N k) (u : Fin W.rank), shotProbes W idx (fun j => M'.realSpace (M'.probe j)) u =
          d • shotProbes W idx (fun j => M.realSpace (M.probe j)) u := by
        intro W u
        have e1 : ∀ j, M'.realSpace (M'.probe j) = d • M.realSpace (M.probe j) := by
          intro j
          rw [← hrs.map_smul]
          rfl
        cases W with
        | perShot w =>
          funext x y
          simp only [shotProbes, e1, Pi.smul_apply, smul_eq_mul]
          ring
        | matrices r V =>
          funext x y
          simp only [shotProbes, e1, Pi.smul_apply, smul_eq_mul, mul_sum]
          exact sum_congr rfl fun j _ => by ring
      have hw' : M'.effectiveWeights = M.effectiveWeights := rfl
      have hlin : IsLinearMap ℂ fun q : Wave n m => farField (passSlices (M.pixTrans idx t 0, M.pixTrans idx t 1) M.prop ws
          fun x y => (M.probeNorm : ℂ) * padProbe a b (fun x y => q x y * M.ramp t x y) x y) := by
        have h := isLinear_comp isLinear_farField (isLinear_comp
          (isLinear_passSlices (M.pixTrans idx t 0, M.pixTrans idx t 1) M.prop ws)
          (isLinear_comp (isLinear_mulLeft (M.probeNorm : ℂ)) (isLinear_comp isLinear_padProbe (isLinear_mulRight (M.ramp t)))))
        exact h
      have htd : ∀ q : Wave n m, M'.toDetector idx t (List.zipWith (fun c (o : Wave a b) => fun x y => c * o x y) c ws)
          (d • q) = (c.prod * d) • M.toDetector idx t ws q := by
        intro q
        have e2 : M.toDetector idx t ws q = farField (passSlices (M.pixTrans idx t 0, M.pixTrans idx t 1) M.prop ws
          fun x y => (M.probeNorm : ℂ) * padProbe a b (fun x y => q x y * M.ramp t x y) x y) := rfl
        have e3 : M'.toDetector idx t (List.zipWith (fun c (o : Wave a b) => fun x y => c * o x y) c ws) (d • q) =
          farField (passSlices (M.pixTrans idx t 0, M.pixTrans idx t 1) M.prop
            (List.zipWith (fun c (o : Wave a b) => fun x y => c * o x y) c ws)
          fun x y => (M.probeNorm : ℂ) * padProbe a b (fun x y => (d • q) x y * M.ramp t x y) x y) := rfl
        rw [e2, e3, passSlices_scaled _ _ _ _ (by omega), isLinear_farField.map_smul, mul_smul]
        exact congrArg (fun v : Wave a b => c.prod • v) (hlin.map_smul d q)
      have : shotProbes M'.effectiveWeights idx (fun j => M'.realSpace (M'.probe j)) u =
          d • shotProbes M.effectiveWeights idx (fun j => M.realSpace (M.probe j)) u := hshot _ _
      rw [this, htd]
      simp only [Pi.smul_apply, smul_eq_mul]
      rw [norm_mul, hc, one_mul]
    unfold Multislice.forward
    simp only [htr, htr', hpt, hM's, hm, hw, Except.map, hsum]
    rw [← hM's]
    simp only [hemp, hprop]
    rfl

/-- **C75** (exponentiated slices): adding constants to the slices changes no pattern if their sum is real. -/
theorem multislice_phase_gauge (M : Multislice n m a b N k) (he : M.exponentiate = true) (z : List ℂ)
    (hl : z.length = M.slices.length) (hz : z.sum.im = 0) (idx : Fin N) (t : Fin 3 → ℝ) :
    (M.withSlices (List.zipWith (fun c o => Img.map (fun w => w + c) o) z M.slices)).forward idx t = M.forward idx t := by
  -- the model whose slices are the transmissions
  let L : Multislice n m a b N k := { M with exponentiate := false, slices := M.slices.map M.transmission }
  have hL : ∀ (K : Multislice n m a b N k), K.exponentiate = true → Multislice.forward
      ({ K with exponentiate := false, slices := K.slices.map K.transmission } : Multislice n m a b N k) idx t =
      K.forward idx t := by
    intro K hK
    set K' : Multislice n m a b N k := { K with exponentiate := false, slices := K.slices.map K.transmission } with hK'
    have h1 : ∀ o : Img ℂ, K'.transmission o = o := fun o => rfl
    have h2 : (K'.slices.mapM fun o => objWindow a b (K'.transmission o) ⌊K'.pixTrans idx t 0⌋ ⌊K'.pixTrans idx t 1⌋) =
        K.slices.mapM fun o => objWindow a b (K.transmission o) ⌊K.pixTrans idx t 0⌋ ⌊K.pixTrans idx t 1⌋ := by
      simp only [h1]
      show ((K.slices.map K.transmission).mapM fun o => objWindow a b o ⌊K.pixTrans idx t 0⌋ ⌊K.pixTrans idx t 1⌋) = _
      rw [List.mapM_map]
      rfl
    have h3 : K'.slices ≠ [] ↔ K.slices ≠ [] := by simp [hK']
    have h4 : K'.propagator = K.propagator := rfl
    unfold Multislice.forward
    simp only [h2, h3, h4]
    rfl
  have hexp : ∀ (z : List ℂ) (l : List (Img ℂ)), (List.zipWith (fun c o => Img.map (fun w => w + c) o) z l).map M.transmission =
      scaleSlices (z.map fun c => Complex.exp (Complex.I * c)) (l.map M.transmission) := by
    intro z l
    induction l generalizing z with
    | nil => simp [scaleSlices]
    | cons o l ih =>
      cases z with
      | nil => simp [scaleSlices]
      | cons c z =>
        have := ih z
        unfold scaleSlices at this ⊢
        simp only [List.zipWith_cons_cons, List.map_cons, this]
        congr 1
        unfold Multislice.transmission
        rw [he]
        simp only [if_true, Img.map]
        congr 1
        funext i j
        rw [mul_add, Complex.exp_add]
        ring
  have hprod : ∀ z : List ℂ, (z.map fun c => Complex.exp (Complex.I * c)).prod = Complex.exp (Complex.I * z.sum) := by
    intro z
    induction z with
    | nil => simp
    | cons c z ih => simp only [List.map_cons, List.prod_cons, List.sum_cons, ih, mul_add, Complex.exp_add]
  have hnorm : ‖(z.map fun c => Complex.exp (Complex.I * c)).prod * 1‖ = 1 := by
    rw [hprod, mul_one, Complex.norm_exp]
    simp [hz]
  have key := multislice_scale_gauge L rfl (z.map fun c => Complex.exp (Complex.I * c)) 1
    (by simp [L, hl]) hnorm idx t
  have hL1 := hL M he
  have hL2 := hL (M.withSlices (List.zipWith (fun c o => Img.map (fun w => w + c) o) z M.slices)) he
  rw [← hL1, ← hL2, ← key]
  congr 1
  have e1 : (M.withSlices (List.zipWith (fun c o => Img.map (fun w => w + c) o) z M.slices)).slices.map
      (M.withSlices (List.zipWith (fun c o => Img.map (fun w => w + c) o) z M.slices)).transmission =
      scaleSlices (z.map fun c => Complex.exp (Complex.I * c)) (M.slices.map M.transmission) := hexp z M.slices
  rw [e1]
  simp only [one_mul]
  rfl

/-! ### C75: modes -/

/-- **C75** (modes): the patterns depend on the probe modes and weights of an exposure only through their mutual
coherence. -/
theorem multislice_coherence {k' : ℕ} (M : Multislice n m a b N k) (P : Fin k' → Wave n m) (W : Weights N k')
    (idx : Fin N) (t : Fin 3 → ℝ)
    (h : mutualCoherence (flatten2 (shotProbes W idx P)) =
      mutualCoherence (flatten2 (shotProbes M.effectiveWeights idx M.probe))) :
    (M.withProbe P W).forward idx t = M.forward idx t := by
  set M' := M.withProbe P W with hM'
  have hrs : IsLinearMap ℂ M.realSpace := by
    unfold Multislice.realSpace
    cases M.fourierProbe
    · exact isLinear_mulRight _
    · exact isLinear_comp isLinear_inverseFarField (isLinear_mulRight _)
  have hshot : ∀ {q : ℕ} (V : Weights N q) (B : Fin q → Wave n m) (u : Fin V.rank),
      shotProbes V idx (fun j => M.realSpace (B j)) u = M.realSpace (shotProbes V idx B u) := by
    intro q V B u
    cases V with
    | perShot w =>
      have : shotProbes (.perShot w) idx B u = (w idx : ℂ) • B u := rfl
      rw [this, hrs.map_smul]
      rfl
    | matrices r V =>
      have : shotProbes (.matrices r V) idx B u = fun x y => ∑ j ∈ univ, V idx u j * B j x y := rfl
      rw [this, isLinear_sum hrs]
      rfl
  have hlin : ∀ ws, IsLinearMap ℂ (M.toDetector idx t ws) := by
    intro ws
    have h := isLinear_comp isLinear_farField (isLinear_comp
      (isLinear_passSlices (M.pixTrans idx t 0, M.pixTrans idx t 1) M.prop ws)
      (isLinear_comp (isLinear_mulLeft (M.probeNorm : ℂ)) (isLinear_comp isLinear_padProbe (isLinear_mulRight (M.ramp t)))))
    exact h
  have hsum : ∀ ws, sumModes a b (List.ofFn fun i => fun x y => M'.toDetector idx t ws
        (shotProbes M'.effectiveWeights idx (fun j => M'.realSpace (M'.probe j)) i) x y) =
      sumModes a b (List.ofFn fun i => fun x y => M.toDetector idx t ws
        (shotProbes M.effectiveWeights idx (fun j => M.realSpace (M.probe j)) i) x y) := by
    intro ws
    unfold sumModes
    congr 1
    funext x y
    rw [listSum_ofFn, listSum_ofFn]
    have := sum_modes_of_coherence (isLinear_comp (hlin ws) hrs) h x y
    simp only [hshot]
    refine Eq.trans ?_ this
    refine sum_congr rfl fun u _ => ?_
    have e : shotProbes M'.effectiveWeights idx (fun j => M'.realSpace (M'.probe j)) u =
      M.realSpace (shotProbes W idx P u) := hshot W P u
    rw [e]
    rfl
  have h1 : (M'.slices.mapM fun o => objWindow a b (M'.transmission o) ⌊M'.pixTrans idx t 0⌋ ⌊M'.pixTrans idx t 1⌋) =
    M.slices.mapM fun o => objWindow a b (M.transmission o) ⌊M.pixTrans idx t 0⌋ ⌊M.pixTrans idx t 1⌋ := rfl
  have h2 : M'.slices = M.slices := rfl
  have h3 : M'.propagator = M.propagator := rfl
  unfold Multislice.forward
  simp only [h1, h2, h3, hsum]
  rfl

/-- **C75** (`tidy_probes`): changes no pattern, and leaves orthogonal modes sorted by power. -/
theorem multislice_tidy (la : LinAlg) (M : Multislice n m a b N k) (M' : Σ k', Multislice n m a b N k')
    (h : M.tidy la = some M') (idx : Fin N) (t : Fin 3 → ℝ) :
    M'.2.forward idx t = M.forward idx t ∧
    (∀ i j, i ≠ j → waveInner (M'.2.probe i) (M'.2.probe j) = 0) ∧
    (∀ i j, i ≤ j → power (M'.2.probe j) ≤ power (M'.2.probe i)) := by
  have hcoh : ∃ (k' : ℕ) (P : Fin k' → Wave n m) (W : Weights N k'), M' = ⟨k', M.withProbe P W⟩ ∧
      mutualCoherence (flatten2 (shotProbes W idx P)) =
        mutualCoherence (flatten2 (shotProbes M.effectiveWeights idx M.probe)) ∧
      (∀ i j, i ≠ j → waveInner (P i) (P j) = 0) ∧ (∀ i j, i ≤ j → power (P j) ≤ power (P i)) := by
    let F : Fancy n m a b N k := M.asFancy ⟨0, 0, fun _ _ => 0⟩
    have hinj : ∀ {k1 k2 : ℕ} (P1 : Fin k1 → Wave n m) (W1 : Weights N k1) (P2 : Fin k2 → Wave n m) (W2 : Weights N k2),
        (⟨k1, F.withProbe P1 W1⟩ : Σ k', Fancy n m a b N k') = ⟨k2, F.withProbe P2 W2⟩ →
        (⟨k1, M.withProbe P1 W1⟩ : Σ k', Multislice n m a b N k') = ⟨k2, M.withProbe P2 W2⟩ := by
      intro k1 k2 P1 W1 P2 W2 he
      obtain ⟨rfl, he⟩ := Sigma.mk.inj_iff.1 he
      have he := eq_of_heq he
      have e1 : P1 = P2 := congrArg Fancy.probe he
      have e2 : W1 = W2 := congrArg Fancy.weights he
      rw [e1, e2]
    unfold Multislice.tidy at h
    split at h
    · exact (nomatch h)
    · rename_i w hw
      obtain rfl := Option.some.inj h
      have hFw : F.weights = .perShot w := by
        show M.effectiveWeights = _
        unfold Multislice.effectiveWeights; rw [hw]
      have hF : F.tidy la = some ⟨_, F.withProbe (tidySimple la F.probe) (.perShot w)⟩ := by
        unfold Fancy.tidy; rw [hFw]
      obtain ⟨k', P, W, he, hc, h1, h2, -⟩ := tidy_coherence la F _ hF idx
      exact ⟨k', P, W, hinj _ _ _ _ he, hc, h1, h2⟩
    · rename_i r W hW
      cases hq : tidyMatrices la M.probe W with
      | none => rw [hq] at h; exact (nomatch h)
      | some q =>
        rw [hq] at h
        obtain rfl := Option.some.inj h
        have hFw : F.weights = .matrices r W := by
          show M.effectiveWeights = _
          unfold Multislice.effectiveWeights; rw [hW]
        have hF : F.tidy la = some ⟨_, F.withProbe q.1 (.matrices _ q.2)⟩ := by
          unfold Fancy.tidy; rw [hFw]
          show (tidyMatrices la M.probe W).map _ = _
          rw [hq]; rfl
        obtain ⟨k', P, W', he, hc, h1, h2, -⟩ := tidy_coherence la F _ hF idx
        exact ⟨k', P, W', hinj _ _ _ _ he, hc, h1, h2⟩
  obtain ⟨k', P, W, rfl, hc, h1, h2⟩ := hcoh
  exact ⟨multislice_coherence M P W idx t hc, h1, h2⟩

/-- **C75** (corrected translations): simulating an exposure at its corrected translation without translation offsets
gives the same pattern as simulating it at the original translation with them (unless the translation of the probe is
simulated on the detector). -/
theorem multislice_corrected_translations (M : Multislice n m a b N k) (hz : M.normal 2 ≠ 0)
    (hT : Transverse M.objBasis M.normal) (hs : M.simulateTranslation = false) (idx : Fin N) (t : Fin 3 → ℝ) :
    Multislice.forward ({ M with offsets := none } : Multislice n m a b N k) idx (M.correctedTranslation idx t) =
      M.forward idx t := by
  obtain ⟨h1, -, h3, -⟩ := translations_pixels_inverse M.objBasis M.normal hz hT
  set M' : Multislice n m a b N k := { M with offsets := none } with hM'
  have hp : M'.pixTrans idx (M.correctedTranslation idx t) = M.pixTrans idx t := by
    unfold Multislice.pixTrans Multislice.correctedTranslation
    simp only [hM']
    cases M.offsets with
    | none => rfl
    | some o =>
      simp only
      have := h3 1 t (pixelToTranslations M.objBasis M.normal (M.translationScale • o idx))
      rw [one_smul, one_smul, h1] at this
      rw [this]
      abel
  have hr : M'.ramp (M.correctedTranslation idx t) = M.ramp t := by
    unfold Multislice.ramp
    simp only [hM', hs]
    rfl
  have hd : ∀ ws, M'.toDetector idx (M.correctedTranslation idx t) ws = M.toDetector idx t ws := by
    intro ws
    funext p
    simp only [Multislice.toDetector, hp, hr]
    rfl
  have e1 : ∀ o : Img ℂ, M'.transmission o = M.transmission o := fun _ => rfl
  have e2 : M'.slices = M.slices := rfl
  have e3 : M'.propagator = M.propagator := rfl
  unfold Multislice.forward
  simp only [hp, e1, e2, e3, hd]
  rfl

/-! ### C75: subpixel positions -/

theorem nearField_one (w : Wave a b) : nearField (fun _ _ => 1) w = w := by
  unfold nearField
  simp only [one_mul]
  exact ifft2_fft2 w

/-- **C75** (violated at fractional positions): the subpixel shift of the probe is applied again at every slice. Behind
`q` transparent slices at distance zero, an object slice is illuminated by the probe shifted by `q + 1` times the
fractional part of the position. -/
theorem multislice_subpixel_drift (M : Multislice n m a b N k) (idx : Fin N) (t : Fin 3 → ℝ) (q : ℕ) (e o : Img ℂ)
    (hsl : M.slices = List.replicate q e ++ [o]) (he : ∀ i j, (M.transmission e).px i j = 1)
    (hP : M.propagator.h = a ∧ M.propagator.w = b) (h1 : ∀ x y, M.prop x y = 1) (s r : ℕ)
    (hs : ⌊M.pixTrans idx t 0⌋ = s) (hr : ⌊M.pixTrans idx t 1⌋ = r)
    (hin : ∀ o ∈ M.slices, s + a ≤ o.h ∧ r + b ≤ o.w) :
    M.forward idx t = .ok (M.record fun x y => ∑ u, ‖farField (fun i j =>
      sincShift (M.incident idx t u) ((q + 1) * (M.pixTrans idx t 0 - s)) ((q + 1) * (M.pixTrans idx t 1 - r)) i j *
        (sliceWindow (M.transmission o) s r : Wave a b) i j) x y‖ ^ 2) := by
  have hprop : M.prop = fun _ _ => 1 := by funext x y; exact h1 x y
  have hw : (M.slices.mapM fun o => objWindow a b (M.transmission o) ⌊M.pixTrans idx t 0⌋ ⌊M.pixTrans idx t 1⌋) =
      .ok (M.slices.map fun o => sliceWindow (M.transmission o) s r) := by
    refine mapM_ok_map _ _ _ fun o ho => ?_
    have hsh := transmission_shape M o
    have := hin o ho
    rw [hs, hr, objWindow_inside ⟨by omega, by rw [hsh.1]; omega⟩ ⟨by omega, by rw [hsh.2]; omega⟩]
    simp only [Int.toNat_natCast]
    rfl
  rw [M.forward_eq idx t _ hw hP]
  refine congrArg (fun I => Except.ok (M.record I)) (funext fun x => funext fun y => ?_)
  refine sum_congr rfl fun u _ => ?_
  refine congrArg (fun z : Wave a b => ‖farField z x y‖ ^ 2) ?_
  have he' : (sliceWindow (M.transmission e) s r : Wave a b) = fun _ _ => 1 := by funext i j; exact he _ _
  have hrep : ∀ (q : ℕ) (w : Wave a b), passSlices (M.pixTrans idx t 0, M.pixTrans idx t 1) (fun _ _ => 1)
      (List.replicate q (fun _ _ => 1)) w =
      sincShift w (q * (M.pixTrans idx t 0 - s)) (q * (M.pixTrans idx t 1 - r)) := by
    intro q
    induction q with
    | zero =>
      intro w
      simp only [Nat.cast_zero, zero_mul]
      rw [(shifts_preserve_energy_and_compose w 0 0 0 0).2.2.1]
      rfl
    | succ q ih =>
      intro w
      rw [List.replicate_succ, passSlices_cons, nearField_one, sincApply_false, ih]
      simp only [mul_one, hs, hr]
      have := (shifts_preserve_energy_and_compose w (M.pixTrans idx t 0 - s) (M.pixTrans idx t 1 - r)
        (q * (M.pixTrans idx t 0 - s)) (q * (M.pixTrans idx t 1 - r))).2.1
      rw [show (((s : ℕ) : ℤ) : ℝ) = (s : ℝ) by push_cast; rfl, show (((r : ℕ) : ℤ) : ℝ) = (r : ℝ) by push_cast; rfl, this]
      congr 1 <;> push_cast <;> ring
  rw [hsl, List.map_append, List.map_replicate, he', hprop, passSlices_append, hrep, List.map_cons, List.map_nil,
    passSlices_cons, nearField_one, sincApply_false]
  simp only [hs, hr]
  rw [show (((s : ℕ) : ℤ) : ℝ) = (s : ℝ) by push_cast; rfl, show (((r : ℕ) : ℤ) : ℝ) = (r : ℝ) by push_cast; rfl,
    (shifts_preserve_energy_and_compose (M.incident idx t u) (q * (M.pixTrans idx t 0 - s)) (q * (M.pixTrans idx t 1 - r))
      (M.pixTrans idx t 0 - s) (M.pixTrans idx t 1 - r)).2.1]
  have h0 : ∀ z : ℝ, (q : ℝ) * z + z = (q + 1) * z := fun z => by ring
  simp only [h0]
  rfl

/-- A model of one exposure at the position half a pixel: a probe of two pixels and the given slices at distance
zero. -/
noncomputable def toyMultislice (slices : List (Img ℂ)) : Multislice 2 1 2 1 1 1 where
  probe := fun _ x _ => if x = 0 then 1 else 0
  probeNorm := 1
  support := fun _ _ => true
  weights := none
  fourierProbe := false
  slices := slices
  exponentiate := false
  propagator := waveImg (n := 2) (m := 1) fun _ _ => 1
  objBasis := !![0, -1; -1, 0; 0, 0]
  detBasis := !![0, -1; -1, 0; 0, 0]
  normal := ![0, 0, 1]
  minTranslation := ![-(1 / 2), 0]
  translationScale := 1
  offsets := none
  simulateTranslation := false
  oversampling := 1
  background := ⟨2, 1, fun _ _ => 0⟩
  saturation := none

/-- A slice that transmits only its first row. -/
def toySlice : Img ℂ := ⟨2, 1, fun i _ => if i = 0 then 1 else 0⟩

/-- A transparent slice. -/
def clearSlice : Img ℂ := ⟨2, 1, fun _ _ => 1⟩

theorem toyMultislice_pixTrans (l : List (Img ℂ)) : (toyMultislice l).pixTrans 0 0 = ![1 / 2, 0] := by
  unfold Multislice.pixTrans
  simp only [toyMultislice, translationsToPixel, Matrix.mulVec_zero]
  funext i; fin_cases i <;> simp

theorem toyMultislice_incident (l : List (Img ℂ)) (u) : (toyMultislice l).incident 0 0 u =
    fun x _ => if x = 0 then 1 else 0 := by
  unfold Multislice.incident
  rw [padProbe_self]
  funext x y
  simp [toyMultislice, Multislice.effectiveWeights, shotProbes, Multislice.realSpace, Multislice.ramp]

theorem toy_forward (q : ℕ) : (toyMultislice (List.replicate q clearSlice ++ [toySlice])).forward 0 0 =
    .ok ((toyMultislice []).record fun x y => ‖farField (fun i j =>
      sincShift (fun (x : ZMod 2) (_ : ZMod 1) => if x = 0 then (1 : ℂ) else 0) ((q + 1) * (1 / 2)) 0 i j *
        (if i = 0 then 1 else 0)) x y‖ ^ 2) := by
  have hp := toyMultislice_pixTrans (List.replicate q clearSlice ++ [toySlice])
  have hf0 : ⌊(toyMultislice (List.replicate q clearSlice ++ [toySlice])).pixTrans 0 0 0⌋ = ((0 : ℕ) : ℤ) := by
    rw [hp]
    norm_num
  have hf1 : ⌊(toyMultislice (List.replicate q clearSlice ++ [toySlice])).pixTrans 0 0 1⌋ = ((0 : ℕ) : ℤ) := by
    rw [hp]
    simp
  have h := multislice_subpixel_drift (toyMultislice (List.replicate q clearSlice ++ [toySlice])) 0 0 q clearSlice toySlice
    rfl (fun _ _ => rfl) ⟨rfl, rfl⟩ (fun _ _ => rfl) 0 0 hf0 hf1 (by
      intro o ho
      have : o = clearSlice ∨ o = toySlice := by
        rcases List.mem_append.1 ho with h | h
        · exact Or.inl (List.eq_of_mem_replicate h)
        · exact Or.inr (List.mem_singleton.1 h)
      rcases this with rfl | rfl <;> exact ⟨le_refl _, le_refl _⟩)
  have hrec : ∀ l, (toyMultislice l).record = (toyMultislice []).record := by
    intro l; unfold Multislice.record toyMultislice; rfl
  rw [h, hp, hrec]
  refine congrArg (fun I => Except.ok ((toyMultislice []).record I)) (funext fun x => funext fun y => ?_)
  have hrank : ∀ f : Fin (toyMultislice (List.replicate q clearSlice ++ [toySlice])).effectiveWeights.rank → ℝ,
      ∑ u, f u = f (0 : Fin 1) := fun f => Fin.sum_univ_one (f := f)
  simp only [toyMultislice_incident]
  rw [hrank]
  congr 3
  funext i j
  have hi : i = 0 ∨ i = 1 := by revert i; decide
  have hj : j = 0 := Subsingleton.elim _ _
  rcases hi with rfl | rfl <;> simp [hj, sliceWindow, Multislice.transmission, toyMultislice, toySlice, ZMod.val_one]

/-- **C75** (violated): a transparent slice at distance zero in front of the object changes the pattern, here from
1/4 (plus the constant 1e-7 of the detector) to nothing at every pixel. -/
theorem multislice_transparent_first_violated : ∃ P Q : Img ℝ,
    (toyMultislice [toySlice]).forward 0 0 = .ok P ∧ (toyMultislice [clearSlice, toySlice]).forward 0 0 = .ok Q ∧
    P.px 0 0 = 1 / 4 + 1e-7 ∧ Q.px 0 0 = 1e-7 := by
  have hrec : ∀ I : ZMod 2 → ZMod 1 → ℝ, ((toyMultislice []).record I).px 0 0 = I 0 0 + 1e-7 := by
    intro I
    simp [Multislice.record, measQuadratic, readOut, saturate, toyMultislice, Img.zip, Img.map, cutSlice, binPixels]
  refine ⟨_, _, toy_forward 0, toy_forward 1, ?_, ?_⟩
  · rw [hrec]
    congr 1
    rw [norm_farField]
    have hx : (0 : ZMod 2) - ((2 / 2 : ℕ) : ZMod 2) = 1 := by decide
    have hy : (0 : ZMod 1) - ((1 / 2 : ℕ) : ZMod 1) = 0 := by decide
    rw [hx, hy, (fft2_two _).2]
    have : (((0 : ℕ) : ℝ) + 1) * (1 / 2) = 1 / 2 := by norm_num
    rw [this, half_shift]
    simp only [if_true, one_ne_zero, if_false, mul_one, mul_zero, sub_zero, add_zero]
    rw [div_pow, Real.sq_sqrt (by positivity), ← Complex.normSq_eq_norm_sq]
    simp [Complex.normSq_apply]
    norm_num
  · rw [hrec]
    have : (((1 : ℕ) : ℝ) + 1) * (1 / 2) = ((1 : ℤ) : ℝ) := by norm_num
    rw [this]
    have h0 := integer_shift_is_roll (fun (x : ZMod 2) (_ : ZMod 1) => if x = 0 then (1 : ℂ) else 0) 1 0
    rw [show (((0 : ℤ)) : ℝ) = 0 by norm_num] at h0
    rw [h0]
    have hz : (fun (i : ZMod 2) (j : ZMod 1) => (if i - ((1 : ℤ) : ZMod 2) = 0 then (1 : ℂ) else 0) *
        (if i = 0 then 1 else 0)) = fun _ _ => 0 := by
      funext i j
      have hi : i = 0 ∨ i = 1 := by revert i; decide
      rcases hi with rfl | rfl
      · rw [if_neg (by decide)]; simp
      · simp
    rw [hz, norm_farField]
    have hfz : fft2 (fun (_ : ZMod 2) (_ : ZMod 1) => (0 : ℂ)) = fun _ _ => 0 := isLinear_fft2.map_zero
    rw [hfz]
    simp

/-! ### Non-vacuity -/

/-- Two slices, one of them transparent, at the integer position (0, 0): the hypotheses of the main theorems hold. -/
noncomputable def toyMultislice2 : Multislice 2 1 2 1 1 1 :=
  { toyMultislice [clearSlice, clearSlice] with minTranslation := ![0, 0] }

example : toyMultislice2.pixTrans 0 0 = ![((0 : ℕ) : ℝ), ((0 : ℕ) : ℝ)] ∧ toyMultislice2.slices ≠ [] ∧
    (∀ o ∈ toyMultislice2.slices, 0 + 2 ≤ o.h ∧ 0 + 1 ≤ o.w) ∧
    (toyMultislice2.propagator.h = 2 ∧ toyMultislice2.propagator.w = 1) ∧ (∀ x y, ‖toyMultislice2.prop x y‖ = 1) ∧
    (∀ o ∈ toyMultislice2.slices, ∀ i j, ‖(toyMultislice2.transmission o).px i j‖ = 1) := by
  refine ⟨?_, by simp [toyMultislice2, toyMultislice], ?_, ⟨rfl, rfl⟩, ?_, ?_⟩
  · unfold Multislice.pixTrans
    simp only [toyMultislice2, toyMultislice, translationsToPixel, Matrix.mulVec_zero]
    funext i; fin_cases i <;> simp
  · intro o ho
    simp only [toyMultislice2, toyMultislice, List.mem_cons, List.not_mem_nil, or_false, or_self] at ho
    subst ho
    simp [clearSlice]
  · intro x y; simp [toyMultislice2, toyMultislice, Multislice.prop, waveImg]
  · intro o ho i j
    simp only [toyMultislice2, toyMultislice, List.mem_cons, List.not_mem_nil, or_false, or_self] at ho
    subst ho
    simp [toyMultislice2, toyMultislice, Multislice.transmission, clearSlice]

end Cdtools
