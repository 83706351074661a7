/-
C85: `Multislice2DPtycho` (`models/multislice_2d_ptycho.py`).
-/
import Verif.Model.Multislice2D
import Verif.Props.Multislice
import Verif.Props.Upsample
import Verif.Props.Modes

set_option linter.unusedSectionVars false

namespace Cdtools
open Finset Matrix ZMod

variable {n m N k : ℕ} [NeZero n] [NeZero m]

/-! ### Specification -/

/-- The modes of the illumination of exposure `idx`, in real space. -/
noncomputable def Multi2D.incident (M : Multi2D n m N k) (W : Weights N k) (idx : Fin N) (u : Fin W.rank) : Wave n m :=
  fun x y => (M.probeNorm : ℂ) * shotProbes W idx (fun j => M.realSpace (M.probe j)) u x y

/-- What the detector records for an intensity distribution. -/
noncomputable def Multi2D.record (M : Multi2D n m N k) (I : ZMod n → ZMod m → ℝ) : Img ℝ :=
  M.measure ⟨n, m, fun x y => I x y⟩

/-! ### Lemmas -/

theorem mapM_forall {α β : Type} (P : β → Prop) (f : α → Except String β) (l : List α) (vs : List β)
    (h : l.mapM f = .ok vs) (hf : ∀ x ∈ l, ∀ v, f x = .ok v → P v) : ∀ v ∈ vs, P v := by
  induction l generalizing vs with
  | nil => obtain rfl := Except.ok.inj h; simp
  | cons a l ih =>
    rw [List.mapM_cons] at h
    cases h1 : f a with
    | error e => rw [h1] at h; exact (nomatch h)
    | ok v =>
      rw [h1] at h
      cases h2 : l.mapM f with
      | error e => rw [h2] at h; exact (nomatch h)
      | ok v' =>
        rw [h2] at h
        obtain rfl : v :: v' = vs := Except.ok.inj h
        intro x hx
        rcases List.mem_cons.1 hx with rfl | hx
        · exact hf a (by simp) _ h1
        · exact ih v' h2 (fun x hx v hv => hf x (by simp [hx]) v hv) x hx

theorem sumModes_ofFn {l : ℕ} (a b : ℕ) (f : Fin l → ℕ → ℕ → ℂ) :
    sumModes a b (List.ofFn f) = ⟨a, b, fun x y => ∑ u, ‖f u x y‖ ^ 2⟩ := by
  unfold sumModes
  refine congrArg (fun g => Img.mk a b g) (funext fun x => funext fun y => listSum_ofFn _ _ _)

theorem isLinear_pass (tr : ℝ × ℝ) (s : Pass n m) : IsLinearMap ℂ (s.run tr) := by
  unfold Pass.run
  cases s.sinc with
  | true => simp only [if_true]; exact isLinear_sincApply false tr s.sel
  | false => simp only [Bool.false_eq_true, if_false]; exact isLinear_mulRight s.sel

theorem isLinear_runPasses (tr : ℝ × ℝ) (p : Wave n m) (l : List (Pass n m)) : IsLinearMap ℂ (runPasses tr p l) := by
  induction l with
  | nil => exact ⟨fun _ _ => rfl, fun _ _ => rfl⟩
  | cons s l ih =>
    cases l with
    | nil => exact isLinear_pass tr s
    | cons s' l =>
      have h := isLinear_comp ih (isLinear_comp (isLinear_nearField p) (isLinear_pass tr s))
      exact h

theorem isLinear_fourierUpsample (u : ℕ) [NeZero u] (pm : Bool) :
    IsLinearMap ℂ (fourierUpsample u pm : Wave n m → Wave (u * n) (u * m)) := by
  haveI : NeZero (u * n) := ⟨Nat.mul_ne_zero (NeZero.ne u) (NeZero.ne n)⟩
  haveI : NeZero (u * m) := ⟨Nat.mul_ne_zero (NeZero.ne u) (NeZero.ne m)⟩
  suffices h : IsLinearMap ℂ fun p : Wave n m => (fun a b =>
    (if ((u - 1) * n) / 2 ≤ a.val ∧ a.val < ((u - 1) * n) / 2 + n ∧ ((u - 1) * m) / 2 ≤ b.val ∧ b.val < ((u - 1) * m) / 2 + m then
      farField p ((a.val - ((u - 1) * n) / 2 : ℕ) : ZMod n) ((b.val - ((u - 1) * m) / 2 : ℕ) : ZMod m) else 0) *
      (if pm then (u : ℂ) else 1) : Wave (u * n) (u * m)) by
    have h2 := isLinear_comp isLinear_inverseFarField h
    exact h2
  constructor
  · intro p q; funext x y
    simp only [Pi.add_apply, isLinear_farField.map_add]
    split_ifs <;> ring
  · intro c p; funext x y
    simp only [Pi.smul_apply, smul_eq_mul, isLinear_farField.map_smul]
    split_ifs <;> ring

theorem Multi2D.isLinear_realSpace (M : Multi2D n m N k) : IsLinearMap ℂ M.realSpace := by
  unfold Multi2D.realSpace
  cases M.fourierProbe
  · exact isLinear_mulRight _
  · exact isLinear_comp isLinear_inverseFarField (isLinear_mulRight _)

theorem shotProbes_linear {a b q : ℕ} [NeZero a] [NeZero b] {L : Wave n m → Wave a b} (hL : IsLinearMap ℂ L)
    (V : Weights N q) (idx : Fin N) (B : Fin q → Wave n m) (u : Fin V.rank) :
    shotProbes V idx (fun j => L (B j)) u = L (shotProbes V idx B u) := by
  cases V with
  | perShot w =>
    have : shotProbes (.perShot w) idx B u = (w idx : ℂ) • B u := rfl
    rw [this, hL.map_smul]
    rfl
  | matrices r V =>
    have : shotProbes (.matrices r V) idx B u = fun x y => ∑ j ∈ univ, V idx u j * B j x y := rfl
    rw [this, isLinear_sum hL]
    rfl

theorem Multi2D.transmission_shape (M : Multi2D n m N k) (o : Img ℂ) :
    (M.transmission o).h = o.h ∧ (M.transmission o).w = o.w := by
  unfold Multi2D.transmission; split_ifs <;> exact ⟨rfl, rfl⟩

/-- One mode of the illumination to the detector with aliasing prevention. -/
noncomputable def Multi2D.detect2 (M : Multi2D n m N k) (tr : ℝ × ℝ) (l : List (Pass (2 * n) (2 * m))) (p : Wave n m) :
    Wave n m := fun x y =>
  farField (runPasses tr M.prop2 l (fourierUpsample 2 false p)) ((n / 2 + x.val : ℕ) : ZMod (2 * n))
    ((m / 2 + y.val : ℕ) : ZMod (2 * m))

/-- The pattern without aliasing prevention, when all windows exist. -/
theorem Multi2D.forward_plain (M : Multi2D n m N k) (W : Weights N k) (hW : M.weights = some W)
    (hp : M.preventAliasing = false) (sl : List (Img ℂ)) (hsl : M.slices = .ok sl) (idx : Fin N) (t : Fin 3 → ℝ)
    (l : List (Pass n m)) (hl : sl.zipIdx.mapM (M.pass1 (M.pixTrans idx t 0, M.pixTrans idx t 1)) = .ok l) :
    M.forward idx t = .ok (M.record fun x y => ∑ u, ‖farField (runPasses (M.pixTrans idx t 0, M.pixTrans idx t 1) M.prop1 l
      (M.incident W idx u)) x y‖ ^ 2) := by
  unfold Multi2D.forward
  simp only [hW, hsl, hp, Except.bind, Bool.false_eq_true, if_false, hl, Except.map]
  rw [sumModes_ofFn]
  rfl

/-- The pattern with aliasing prevention, when all windows exist. -/
theorem Multi2D.forward_doubled (M : Multi2D n m N k) (W : Weights N k) (hW : M.weights = some W)
    (hp : M.preventAliasing = true) (sl : List (Img ℂ)) (hsl : M.slices = .ok sl) (idx : Fin N) (t : Fin 3 → ℝ)
    (l : List (Pass (2 * n) (2 * m)))
    (hl : sl.zipIdx.mapM (M.pass2 (M.pixTrans idx t 0, M.pixTrans idx t 1)) = .ok l) :
    M.forward idx t = .ok (M.record fun x y => ∑ u, ‖M.detect2 (M.pixTrans idx t 0, M.pixTrans idx t 1) l
      (M.incident W idx u) x y‖ ^ 2) := by
  unfold Multi2D.forward
  simp only [hW, hsl, hp, Except.bind, if_true, hl, Except.map]
  rw [sumModes_ofFn]
  have e : ∀ u : Fin W.rank, M.toDetector2 (M.pixTrans idx t 0, M.pixTrans idx t 1) l (fun j => M.realSpace (M.probe j)) W idx u =
      M.detect2 (M.pixTrans idx t 0, M.pixTrans idx t 1) l (M.incident W idx u) := by
    intro u
    unfold Multi2D.toDetector2 Multi2D.detect2
    have h3 := shotProbes_linear (isLinear_fourierUpsample 2 false) W idx (fun j => M.realSpace (M.probe j)) u
    simp only [h3]
    have h2 : M.incident W idx u = (M.probeNorm : ℂ) • shotProbes W idx (fun j => M.realSpace (M.probe j)) u := rfl
    rw [h2, (isLinear_fourierUpsample 2 false).map_smul]
    rfl
  simp only [e]
  rfl

theorem runPasses_plain (tr : ℝ × ℝ) (p : Wave n m) (l : List (Pass n m)) (ws : List (Wave n m))
    (h : l.map Pass.sel = ws) (hs : ∀ s ∈ l, ∀ w, s.run tr w = fun i j => w i j * s.sel i j) (w : Wave n m) :
    runPasses tr p l w = multisliceWave (nearField p) ws w := by
  subst h
  induction l generalizing w with
  | nil => rfl
  | cons s l ih =>
    cases l with
    | nil => exact hs s (by simp) w
    | cons s' l =>
      rw [runPasses, ih (fun x hx => hs x (by simp [hx])), hs s (by simp)]
      rfl

theorem pass_integer (s r : ℤ) (P : Pass n m) (w : Wave n m) :
    P.run ((s : ℝ), (r : ℝ)) w = fun i j => w i j * P.sel i j := by
  unfold Pass.run
  split_ifs
  · rw [sincApply_false]
    simp only [Int.floor_intCast, sub_self]
    rw [(shifts_preserve_energy_and_compose w 0 0 0 0).2.2.1]
  · rfl

/-! ### C85: predicted patterns -/

/-- **C85.** Without aliasing prevention, at integer positions inside the slices, the pattern is what the detector records of
the incoherent sum over the modes of the far field of the multislice exit wave: multiply by each slice, propagate between
slices by the angular spectrum propagator over `dz`. -/
theorem multi2D_forward_integer (M : Multi2D n m N k) (W : Weights N k) (hW : M.weights = some W)
    (hp : M.preventAliasing = false) (sl : List (Img ℂ)) (hsl : M.slices = .ok sl) (idx : Fin N) (t : Fin 3 → ℝ) (s r : ℕ)
    (hs : M.pixTrans idx t = ![(s : ℝ), (r : ℝ)]) (hin : ∀ o ∈ sl, s + n ≤ o.h ∧ r + m ≤ o.w) :
    M.forward idx t = .ok (M.record fun x y => ∑ u, ‖farField (multisliceWave
      (nearField (angularSpectrum n m (M.spacing 0) (M.spacing 1) M.wavelength M.dz none))
      (sl.map fun o => sliceWindow (M.transmission o) s r) (M.incident W idx u)) x y‖ ^ 2) := by
  have h0 : M.pixTrans idx t 0 = (s : ℝ) := by rw [hs]; rfl
  have h1 : M.pixTrans idx t 1 = (r : ℝ) := by rw [hs]; rfl
  have key : ∀ o ∈ sl.zipIdx, M.pass1 (M.pixTrans idx t 0, M.pixTrans idx t 1) o =
      .ok (⟨decide (o.2 = 0 ∧ M.subpixel = true), sliceWindow (M.transmission o.1) s r⟩ : Pass n m) := by
    intro o ho
    have hsh := M.transmission_shape o.1
    have := hin o.1 (List.fst_mem_of_mem_zipIdx ho)
    have hw : objWindow n m (M.transmission o.1) (s : ℤ) (r : ℤ) = .ok (sliceWindow (M.transmission o.1) s r) := by
      rw [objWindow_inside ⟨by omega, by rw [hsh.1]; omega⟩ ⟨by omega, by rw [hsh.2]; omega⟩]
      simp only [Int.toNat_natCast]
      rfl
    unfold Multi2D.pass1
    simp only [h0, h1, Int.floor_natCast]
    have e0 : roundHalfEven (s : ℝ) = (s : ℤ) := by exact_mod_cast roundHalfEven_int (s : ℤ)
    have e1 : roundHalfEven (r : ℝ) = (r : ℤ) := by exact_mod_cast roundHalfEven_int (r : ℤ)
    rw [e0, e1, hw]
    split_ifs with hc <;> simp [hc, Except.map]
  rw [M.forward_plain W hW hp sl hsl idx t _ (mapM_ok_map _ _ _ key)]
  refine congrArg (fun I => Except.ok (M.record I)) (funext fun x => funext fun y => sum_congr rfl fun u _ => ?_)
  rw [runPasses_plain _ _ _ (sl.map fun o => sliceWindow (M.transmission o) s r)]
  · rfl
  · rw [List.map_map]
    have : (Pass.sel ∘ fun o : Img ℂ × ℕ =>
      (⟨decide (o.2 = 0 ∧ M.subpixel = true), sliceWindow (M.transmission o.1) s r⟩ : Pass n m)) =
      (fun o => sliceWindow (M.transmission o) s r) ∘ Prod.fst := rfl
    rw [this, ← List.map_map, List.zipIdx_map_fst]
  · intro P _ w
    rw [h0, h1]
    exact_mod_cast pass_integer (s : ℤ) (r : ℤ) P w

theorem runPasses_power (tr : ℝ × ℝ) (p : Wave n m) (hp : ∀ x y, ‖p x y‖ = 1) (l : List (Pass n m))
    (hl : ∀ s ∈ l, ∀ x y, ‖s.sel x y‖ = 1) (w : Wave n m) : power (runPasses tr p l w) = power w := by
  have h1 : ∀ (s : Pass n m), (∀ x y, ‖s.sel x y‖ = 1) → ∀ w, power (s.run tr w) = power w := by
    intro s hs w
    unfold Pass.run
    split_ifs
    · rw [sincApply_false]
      unfold power
      simp only [norm_mul, hs, mul_one]
      exact (shifts_preserve_energy_and_compose w _ _ 0 0).1
    · unfold power
      simp only [norm_mul, hs, mul_one]
  induction l generalizing w with
  | nil => rfl
  | cons s l ih =>
    cases l with
    | nil => exact h1 s (hl s (by simp)) w
    | cons s' l =>
      rw [runPasses, ih (fun x hx => hl x (by simp [hx])), (near_field_unitary p hp _).1, h1 s (hl s (by simp))]

/-- **C85** (energy): without aliasing prevention, with pure phase slices and without evanescent waves, the detected
intensity adds up to the power of the illumination, at every position that can be simulated. -/
theorem multi2D_energy (M : Multi2D n m N k) (W : Weights N k) (hW : M.weights = some W)
    (hp : M.preventAliasing = false) (sl : List (Img ℂ)) (hsl : M.slices = .ok sl) (idx : Fin N) (t : Fin 3 → ℝ) (Q : Img ℝ)
    (h : M.forward idx t = .ok Q) (hph : ∀ o ∈ sl, ∀ i j, ‖(M.transmission o).px i j‖ = 1)
    (h1 : ∀ x y, ‖angularSpectrum n m (M.spacing 0) (M.spacing 1) M.wavelength M.dz none x y‖ = 1) :
    ∃ I : ZMod n → ZMod m → ℝ, Q = M.record I ∧ ∑ x, ∑ y, I x y = ∑ u, power (M.incident W idx u) := by
  cases hl : sl.zipIdx.mapM (M.pass1 (M.pixTrans idx t 0, M.pixTrans idx t 1)) with
  | error e =>
    unfold Multi2D.forward at h
    simp only [hW, hsl, hp, Except.bind, Bool.false_eq_true, if_false, hl, Except.map] at h
    exact (nomatch h)
  | ok l =>
    rw [M.forward_plain W hW hp sl hsl idx t l hl] at h
    obtain rfl := Except.ok.inj h
    refine ⟨_, rfl, ?_⟩
    have hsel : ∀ s ∈ l, ∀ x y, ‖s.sel x y‖ = 1 := by
      refine mapM_forall (fun s : Pass n m => ∀ x y, ‖s.sel x y‖ = 1) _ _ _ hl ?_
      intro o ho v hv
      have hpx := hph o.1 (List.fst_mem_of_mem_zipIdx ho)
      have hw : ∀ a b sel, objWindow n m (M.transmission o.1) a b = .ok sel → ∀ x y, ‖sel x y‖ = 1 := by
        intro a b sel hs
        unfold objWindow at hs
        simp only at hs
        split at hs
        · obtain rfl := Except.ok.inj hs
          exact fun x y => hpx _ _
        · exact (nomatch hs)
      unfold Multi2D.pass1 at hv
      split at hv
      · generalize hg : objWindow n m (M.transmission o.1) _ _ = e at hv
        cases e with
        | error e => exact (nomatch hv)
        | ok sel => obtain rfl := Except.ok.inj hv; exact hw _ _ _ hg
      · generalize hg : objWindow n m (M.transmission o.1) _ _ = e at hv
        cases e with
        | error e => exact (nomatch hv)
        | ok sel => obtain rfl := Except.ok.inj hv; exact hw _ _ _ hg
    have hsw : ∀ f : ZMod n → ZMod m → Fin W.rank → ℝ,
        ∑ x, ∑ y, ∑ u, f x y u = ∑ u, ∑ x, ∑ y, f x y u := by
      intro f
      rw [sum_comm (s := (univ : Finset (Fin W.rank)))]
      exact sum_congr rfl fun x _ => sum_comm
    rw [hsw]
    refine sum_congr rfl fun u _ => ?_
    have e := far_field_unitary.2.2.1 (runPasses (M.pixTrans idx t 0, M.pixTrans idx t 1) M.prop1 l (M.incident W idx u))
    rw [runPasses_power _ M.prop1 h1 _ hsel] at e
    rw [← e]
    rfl

/-! ### C85: one slice -/

/-- The `FancyPtycho` model with the parameters of a model and one slice as object. -/
noncomputable def Multi2D.asFancy (M : Multi2D n m N k) (W : Weights N k) (o : Img ℂ) : Fancy n m n m N k where
  probe := M.probe
  probeNorm := M.probeNorm
  support := M.support
  weights := W
  fourierProbe := M.fourierProbe
  obj := o
  exponentiate := M.exponentiate
  phaseOnly := M.phaseOnly
  nearField := false
  propagator := fun _ _ => 1
  objBasis := M.basis
  detBasis := 0
  normal := M.normal
  minTranslation := M.minTranslation
  translationScale := M.translationScale
  offsets := M.offsets
  fourierShifts := none
  simulateTranslation := false
  oversampling := M.oversampling
  background := M.background
  qe := none
  saturation := M.saturation

/-- **C85** (one slice): with one slice, subpixel shifts, no aliasing prevention and the whole detector, the model predicts
exactly what `FancyPtycho` with the same parameters predicts, at all positions, including its errors. -/
theorem multi2D_single_slice (M : Multi2D n m N k) (W : Weights N k) (hW : M.weights = some W)
    (hp : M.preventAliasing = false) (o : Img ℂ) (hsl : M.slices = .ok [o]) (hsub : M.subpixel = true)
    (hd : M.detectorSlice = none) (idx : Fin N) (t : Fin 3 → ℝ) :
    M.forward idx t = (M.asFancy W o).forward idx t := by
  have hpt : (M.asFancy W o).pixTrans idx t = M.pixTrans idx t := rfl
  have htr : (M.asFancy W o).transmission = M.transmission o := rfl
  have hcond : ¬ ((M.asFancy W o).simulateTranslation = true ∧ (M.asFancy W o).fourierShifts = none) := fun h =>
    Bool.false_ne_true h.1
  unfold Fancy.forward
  rw [if_neg hcond]
  simp only [hpt, htr]
  have hpass : M.pass1 (M.pixTrans idx t 0, M.pixTrans idx t 1) (o, 0) =
      (objWindow n m (M.transmission o) ⌊M.pixTrans idx t 0⌋ ⌊M.pixTrans idx t 1⌋).map fun sel => ⟨true, sel⟩ := by
    unfold Multi2D.pass1
    rw [if_pos ⟨rfl, hsub⟩]
  cases hw : objWindow n m (M.transmission o) ⌊M.pixTrans idx t 0⌋ ⌊M.pixTrans idx t 1⌋ with
  | error e =>
    rw [hw] at hpass
    unfold Multi2D.forward
    have : [o].zipIdx.mapM (M.pass1 (M.pixTrans idx t 0, M.pixTrans idx t 1)) = .error e := by
      show [(o, 0)].mapM _ = _
      rw [List.mapM_cons, hpass]
      rfl
    simp only [hW, hsl, hp, Except.bind, Bool.false_eq_true, if_false, this]
    rfl
  | ok sel =>
    rw [hw] at hpass
    have : [o].zipIdx.mapM (M.pass1 (M.pixTrans idx t 0, M.pixTrans idx t 1)) = .ok [⟨true, sel⟩] := by
      show [(o, 0)].mapM _ = _
      rw [List.mapM_cons, hpass]
      rfl
    rw [M.forward_plain W hW hp _ hsl idx t _ this]
    simp only [Except.map]
    rw [sumModes_ofFn]
    unfold Multi2D.record Multi2D.measure
    rw [hd]
    refine congrArg (fun I => Except.ok (measQuadratic _ _ _ (Img.mk n m I))) (funext fun x => funext fun y => ?_)
    refine sum_congr rfl fun u _ => ?_
    refine congrArg (fun z : ℂ => ‖z‖ ^ 2) ?_
    have hl := (isLinear_sincApply false (M.pixTrans idx t 0, M.pixTrans idx t 1) sel).map_smul (M.probeNorm : ℂ)
      (shotProbes W idx (fun j => M.realSpace (M.probe j)) u)
    have e : M.incident W idx u = (M.probeNorm : ℂ) • shotProbes W idx (fun j => M.realSpace (M.probe j)) u := rfl
    have hr : runPasses (M.pixTrans idx t 0, M.pixTrans idx t 1) M.prop1 [⟨true, sel⟩] (M.incident W idx u) =
      sincApply false (M.pixTrans idx t 0, M.pixTrans idx t 1) sel (M.incident W idx u) := rfl
    rw [hr, e, hl]
    unfold Fancy.toDetector Fancy.propagate
    have hnf : (M.asFancy W o).nearField = false := rfl
    have hra : (M.asFancy W o).ramp idx t = fun _ _ => 1 := rfl
    simp only [hpt, hra, hnf, Bool.false_eq_true, if_false, mul_one]
    rw [padProbe_self]
    rfl

/-! ### C85: modes -/

/-- The model with other probes and weights. -/
def Multi2D.withProbe {k' : ℕ} (M : Multi2D n m N k) (P : Fin k' → Wave n m) (W : Weights N k') : Multi2D n m N k' where
  probe := P
  weights := some W
  probeNorm := M.probeNorm
  support := M.support
  fourierProbe := M.fourierProbe
  obj := M.obj
  nz := M.nz
  exponentiate := M.exponentiate
  phaseOnly := M.phaseOnly
  subpixel := M.subpixel
  preventAliasing := M.preventAliasing
  wavelength := M.wavelength
  dz := M.dz
  bandlimit := M.bandlimit
  basis := M.basis
  normal := M.normal
  minTranslation := M.minTranslation
  translationScale := M.translationScale
  offsets := M.offsets
  detectorSlice := M.detectorSlice
  oversampling := M.oversampling
  background := M.background
  saturation := M.saturation

theorem Multi2D.withProbe_facts {k' : ℕ} (M : Multi2D n m N k) (P : Fin k' → Wave n m) (W : Weights N k') :
    (M.withProbe P W).slices = M.slices ∧ (M.withProbe P W).pixTrans = M.pixTrans ∧
    (M.withProbe P W).pass1 = M.pass1 ∧ (M.withProbe P W).pass2 = M.pass2 ∧
    (M.withProbe P W).record = M.record ∧ (M.withProbe P W).prop1 = M.prop1 ∧
    (M.withProbe P W).detect2 = M.detect2 ∧ (M.withProbe P W).preventAliasing = M.preventAliasing ∧
    (M.withProbe P W).realSpace = M.realSpace ∧ (M.withProbe P W).probeNorm = M.probeNorm ∧
    (M.withProbe P W).weights = some W ∧ (M.withProbe P W).probe = P :=
  ⟨rfl, rfl, rfl, rfl, rfl, rfl, rfl, rfl, rfl, rfl, rfl, rfl⟩

theorem Multi2D.forward_error (M : Multi2D n m N k) (W : Weights N k) (hW : M.weights = some W) (idx : Fin N)
    (t : Fin 3 → ℝ) (e : String)
    (h : (M.slices.bind fun sl => if M.preventAliasing then
        (sl.zipIdx.mapM (M.pass2 (M.pixTrans idx t 0, M.pixTrans idx t 1))).map fun _ => ()
      else (sl.zipIdx.mapM (M.pass1 (M.pixTrans idx t 0, M.pixTrans idx t 1))).map fun _ => ()) = .error e) :
    M.forward idx t = .error e := by
  unfold Multi2D.forward
  simp only [hW]
  generalize M.slices = z at h ⊢
  cases z with
  | error e' => exact congrArg _ (Except.error.inj h)
  | ok sl =>
    simp only [Except.bind] at h ⊢
    split_ifs at h ⊢
    · generalize sl.zipIdx.mapM (M.pass2 (M.pixTrans idx t 0, M.pixTrans idx t 1)) = z at h ⊢
      cases z with
      | error e' => exact congrArg _ (Except.error.inj h)
      | ok l => exact (nomatch h)
    · generalize sl.zipIdx.mapM (M.pass1 (M.pixTrans idx t 0, M.pixTrans idx t 1)) = z at h ⊢
      cases z with
      | error e' => exact congrArg _ (Except.error.inj h)
      | ok l => exact (nomatch h)

/-- **C85** (modes): with and without aliasing prevention, the patterns depend on the probe modes and weights of an exposure
only through their mutual coherence. -/
theorem multi2D_coherence {k' : ℕ} (M : Multi2D n m N k) (W : Weights N k) (hW : M.weights = some W)
    (P : Fin k' → Wave n m) (W' : Weights N k') (idx : Fin N) (t : Fin 3 → ℝ)
    (h : mutualCoherence (flatten2 (shotProbes W' idx P)) = mutualCoherence (flatten2 (shotProbes W idx M.probe))) :
    (M.withProbe P W').forward idx t = M.forward idx t := by
  obtain ⟨f1, f2, f3, f4, f5, f6, f7, f8, f9, f10, f11, f12⟩ := M.withProbe_facts P W'
  generalize M.withProbe P W' = M' at *
  have hinc : ∀ u, M'.incident W' idx u = (M.probeNorm : ℂ) • M.realSpace (shotProbes W' idx P u) := by
    intro u
    have e := shotProbes_linear M.isLinear_realSpace W' idx P u
    unfold Multi2D.incident
    rw [← e, f9, f10, f12]
    rfl
  have hinc' : ∀ u, M.incident W idx u = (M.probeNorm : ℂ) • M.realSpace (shotProbes W idx M.probe u) := by
    intro u
    have e := shotProbes_linear M.isLinear_realSpace W idx M.probe u
    rw [← e]
    rfl
  have key : ∀ L : Wave n m → Wave n m, IsLinearMap ℂ L → ∀ x y, ∑ u, ‖L (M'.incident W' idx u) x y‖ ^ 2 =
      ∑ u, ‖L (M.incident W idx u) x y‖ ^ 2 := by
    intro L hL x y
    simp only [hinc, hinc']
    have h2 := sum_modes_of_coherence (isLinear_comp hL (isLinear_comp
      (isLinear_mulLeft (n := n) (m := m) (M.probeNorm : ℂ)) M.isLinear_realSpace)) h x y
    exact h2
  cases hsl : M.slices with
  | error e =>
    rw [M.forward_error W hW idx t e (by rw [hsl]; rfl), M'.forward_error W' f11 idx t e (by rw [f1, hsl]; rfl)]
  | ok sl =>
    by_cases hp : M.preventAliasing = true
    · cases hl : sl.zipIdx.mapM (M.pass2 (M.pixTrans idx t 0, M.pixTrans idx t 1)) with
      | error e =>
        rw [M.forward_error W hW idx t e (by simp only [hsl, Except.bind, hp, if_true, hl]; rfl),
          M'.forward_error W' f11 idx t e (by simp only [f1, f2, f4, f8, hsl, Except.bind, hp, if_true, hl]; rfl)]
      | ok l =>
        rw [M.forward_doubled W hW hp sl hsl idx t l hl,
          M'.forward_doubled W' f11 (f8.trans hp) sl (f1.trans hsl) idx t l (by rw [f2, f4]; exact hl), f5, f7, f2]
        refine congrArg (fun I => Except.ok (M.record I)) (funext fun x => funext fun y => ?_)
        have hlin : IsLinearMap ℂ (M.detect2 (M.pixTrans idx t 0, M.pixTrans idx t 1) l) := by
          have hc : IsLinearMap ℂ fun F : Wave (2 * n) (2 * m) => (fun x y =>
            F ((n / 2 + x.val : ℕ) : ZMod (2 * n)) ((m / 2 + y.val : ℕ) : ZMod (2 * m)) : Wave n m) :=
            ⟨fun _ _ => rfl, fun _ _ => rfl⟩
          have h := isLinear_comp hc (isLinear_comp isLinear_farField (isLinear_comp
            (isLinear_runPasses (M.pixTrans idx t 0, M.pixTrans idx t 1) M.prop2 l) (isLinear_fourierUpsample 2 false)))
          exact h
        exact key _ hlin x y
    · have hp : M.preventAliasing = false := by simpa using hp
      cases hl : sl.zipIdx.mapM (M.pass1 (M.pixTrans idx t 0, M.pixTrans idx t 1)) with
      | error e =>
        rw [M.forward_error W hW idx t e (by simp only [hsl, Except.bind, hp, Bool.false_eq_true, if_false, hl]; rfl),
          M'.forward_error W' f11 idx t e
            (by simp only [f1, f2, f3, f8, hsl, Except.bind, hp, Bool.false_eq_true, if_false, hl]; rfl)]
      | ok l =>
        rw [M.forward_plain W hW hp sl hsl idx t l hl,
          M'.forward_plain W' f11 (f8.trans hp) sl (f1.trans hsl) idx t l (by rw [f2, f3]; exact hl), f5, f6, f2]
        refine congrArg (fun I => Except.ok (M.record I)) (funext fun x => funext fun y => ?_)
        have hlin := isLinear_comp isLinear_farField (isLinear_runPasses (M.pixTrans idx t 0, M.pixTrans idx t 1) M.prop1 l)
        exact key _ hlin x y

/-! ### C85: aliasing prevention -/

theorem upsample_one (hn : Even n) (hm : Even m) :
    fourierUpsample 2 true (fun _ _ => 1 : Wave n m) = fun _ _ => 1 := by
  have hc := (far_field_unitary (n := n) (m := m)).2.2.2.2.2 1
  have hc2 := (far_field_unitary (n := 2 * n) (m := 2 * m)).2.2.2.2.2 1
  have hinv := (far_field_unitary (n := 2 * n) (m := 2 * m)).1 fun _ _ => 1
  rw [← hinv]
  unfold fourierUpsample
  refine congrArg inverseFarField (funext fun x => funext fun y => ?_)
  simp only [hc, hc2, if_true]
  have hl0 := aligned_left (u := 2) (n := n) (by norm_num) (Or.inl hn)
  have hl1 := aligned_left (u := 2) (n := m) (by norm_num) (Or.inl hm)
  have hs := sqrt_ratio (n := n) (m := m) 2
  have npos := NeZero.pos n
  have mpos := NeZero.pos m
  have hx := x.val_lt
  have hy := y.val_lt
  have cx : ∀ {q : ℕ} [NeZero q] (x : ZMod (2 * q)), ((2 - 1) * q / 2) + q / 2 = 2 * q / 2 → 0 < q →
      (2 - 1) * q / 2 ≤ x.val → x.val < (2 - 1) * q / 2 + q →
      ((((x.val - (2 - 1) * q / 2 : ℕ) : ZMod q) = ((q / 2 : ℕ) : ZMod q)) ↔ x = ((2 * q / 2 : ℕ) : ZMod (2 * q))) := by
    intro q _ x h hq h1 h2
    constructor
    · intro e
      have := congrArg ZMod.val e
      rw [ZMod.val_natCast_of_lt (by omega), ZMod.val_natCast_of_lt (by omega)] at this
      apply ZMod.val_injective
      rw [ZMod.val_natCast_of_lt (by omega)]
      omega
    · intro e
      rw [e, ZMod.val_natCast_of_lt (by omega)]
      congr 1
      omega
  have cy : ∀ {q : ℕ} [NeZero q] (x : ZMod (2 * q)), ((2 - 1) * q / 2) + q / 2 = 2 * q / 2 → 0 < q →
      ¬ ((2 - 1) * q / 2 ≤ x.val ∧ x.val < (2 - 1) * q / 2 + q) → x ≠ ((2 * q / 2 : ℕ) : ZMod (2 * q)) := by
    intro q _ x h hq h1 e
    rw [e, ZMod.val_natCast_of_lt (by omega)] at h1
    omega
  by_cases h0 : (2 - 1) * n / 2 ≤ x.val ∧ x.val < (2 - 1) * n / 2 + n
  · by_cases h1 : (2 - 1) * m / 2 ≤ y.val ∧ y.val < (2 - 1) * m / 2 + m
    · rw [if_pos ⟨h0.1, h0.2, h1.1, h1.2⟩]
      simp only [cx x hl0 npos h0.1 h0.2, cx y hl1 mpos h1.1 h1.2]
      rw [hs]
      split_ifs
      · push_cast; ring
      · ring
    · rw [if_neg (fun h => h1 ⟨h.2.2.1, h.2.2.2⟩), if_neg (fun h => cy y hl1 mpos h1 h.2)]
      ring
  · rw [if_neg (fun h => h0 ⟨h.1, h.2.1⟩), if_neg (fun h => cy x hl0 npos h0 h.1)]
    ring

/-- The middle of the far field of an upsampled wave is the far field of the wave. -/
theorem crop_upsample (w : Wave n m) (x : ZMod n) (y : ZMod m) :
    farField (fourierUpsample 2 false w) ((n / 2 + x.val : ℕ) : ZMod (2 * n)) ((m / 2 + y.val : ℕ) : ZMod (2 * m)) =
      farField w x y := by
  unfold fourierUpsample
  rw [far_field_unitary.2.1]
  have hx := x.val_lt
  have hy := y.val_lt
  rw [ZMod.val_natCast_of_lt (show n / 2 + x.val < 2 * n by omega), ZMod.val_natCast_of_lt (show m / 2 + y.val < 2 * m by omega)]
  have e0 : (2 - 1) * n / 2 = n / 2 := by simp
  have e1 : (2 - 1) * m / 2 = m / 2 := by simp
  rw [e0, e1, if_pos (by omega), Nat.add_sub_cancel_left, Nat.add_sub_cancel_left, ZMod.natCast_zmod_val,
    ZMod.natCast_zmod_val]
  simp

theorem runPasses_clear (tr : ℝ × ℝ) (p : Wave n m) (hp : ∀ x y, ‖p x y‖ = 1) (l : List (Pass n m))
    (hl : ∀ s ∈ l, ∀ w, s.run tr w = w) (w : Wave n m) (x : ZMod n) (y : ZMod m) :
    ‖farField (runPasses tr p l w) x y‖ = ‖farField w x y‖ := by
  induction l generalizing w with
  | nil => rfl
  | cons s l ih =>
    cases l with
    | nil => rw [runPasses, hl s (by simp)]
    | cons s' l =>
      rw [runPasses, ih (fun x hx => hl x (by simp [hx])), hl s (by simp), norm_farField_nearField, hp, one_mul]

/-- **C85** (aliasing prevention, without subpixel shifts): for probes of even size in front of transparent slices, and
without evanescent waves, the pattern is the far field of the illumination, whatever the number of slices and their
distance. -/
theorem multi2D_clear_doubled_partial (M : Multi2D n m N k) (W : Weights N k) (hW : M.weights = some W)
    (hp : M.preventAliasing = true) (hsub : M.subpixel = false) (sl : List (Img ℂ)) (hsl : M.slices = .ok sl)
    (hn : Even n) (hm : Even m) (hclear : ∀ o ∈ sl, ∀ i j, (M.transmission o).px i j = 1)
    (h1 : ∀ x y, ‖angularSpectrum (2 * n) (2 * m) (M.spacing 0 / 2) (M.spacing 1 / 2) M.wavelength M.dz none x y‖ = 1)
    (idx : Fin N) (t : Fin 3 → ℝ) (Q : Img ℝ) (h : M.forward idx t = .ok Q) :
    Q = M.record fun x y => ∑ u, ‖farField (M.incident W idx u) x y‖ ^ 2 := by
  cases hl : sl.zipIdx.mapM (M.pass2 (M.pixTrans idx t 0, M.pixTrans idx t 1)) with
  | error e =>
    unfold Multi2D.forward at h
    simp only [hW, hsl, hp, Except.bind, if_true, hl, Except.map] at h
    exact (nomatch h)
  | ok l =>
    rw [M.forward_doubled W hW hp sl hsl idx t l hl] at h
    obtain rfl := Except.ok.inj h
    have hsel : ∀ s ∈ l, ∀ w, s.run (M.pixTrans idx t 0, M.pixTrans idx t 1) w = w := by
      refine mapM_forall (fun s : Pass (2 * n) (2 * m) => ∀ w, s.run (M.pixTrans idx t 0, M.pixTrans idx t 1) w = w) _ _ _ hl ?_
      intro o ho v hv
      have hpx := hclear o.1 (List.fst_mem_of_mem_zipIdx ho)
      unfold Multi2D.pass2 at hv
      rw [if_neg (by simp [hsub])] at hv
      generalize hg : objWindow n m (M.transmission o.1) _ _ = e at hv
      cases e with
      | error e => exact (nomatch hv)
      | ok sel =>
        obtain rfl := Except.ok.inj hv
        have : sel = fun _ _ => 1 := by
          unfold objWindow at hg
          simp only at hg
          split at hg
          · obtain rfl := Except.ok.inj hg
            funext x y
            exact hpx _ _
          · exact (nomatch hg)
        intro w
        beta_reduce
        rw [this, upsample_one hn hm]
        simp [Pass.run]
    refine congrArg M.record (funext fun x => funext fun y => sum_congr rfl fun u _ => ?_)
    unfold Multi2D.detect2
    rw [runPasses_clear _ M.prop2 h1 _ hsel, crop_upsample]

/-- **C85, violated part** (the default settings): with aliasing prevention and subpixel shifts, the first slice is not
upsampled: object pixels of the full size are multiplied with pixels of the upsampled wave, which are half as large. -/
theorem multi2D_default_scale_violated (M : Multi2D n m N k) (W : Weights N k) (hW : M.weights = some W)
    (hp : M.preventAliasing = true) (hsub : M.subpixel = true) (o : Img ℂ) (hsl : M.slices = .ok [o])
    (idx : Fin N) (t : Fin 3 → ℝ) (s r : ℕ) (hs : M.pixTrans idx t = ![(s : ℝ), (r : ℝ)]) :
    (s + 2 * n ≤ o.h ∧ r + 2 * m ≤ o.w → M.forward idx t = .ok (M.record fun x y => ∑ u,
      ‖farField (fun (i : ZMod (2 * n)) (j : ZMod (2 * m)) => fourierUpsample 2 false (M.incident W idx u) i j *
        (M.transmission o).px (s + i.val) (r + j.val))
        ((n / 2 + x.val : ℕ) : ZMod (2 * n)) ((m / 2 + y.val : ℕ) : ZMod (2 * m))‖ ^ 2)) ∧
    (s ≤ o.h → r ≤ o.w → ¬ (s + 2 * n ≤ o.h ∧ r + 2 * m ≤ o.w) → M.forward idx t = .error "RuntimeError") := by
  have h0 : M.pixTrans idx t 0 = (s : ℝ) := by rw [hs]; rfl
  have h1 : M.pixTrans idx t 1 = (r : ℝ) := by rw [hs]; rfl
  have hsh := M.transmission_shape o
  have hpass : [o].zipIdx.mapM (M.pass2 (M.pixTrans idx t 0, M.pixTrans idx t 1)) =
      (objWindow (2 * n) (2 * m) (M.transmission o) s r).map fun sel => [⟨true, sel⟩] := by
    have e : M.pass2 (M.pixTrans idx t 0, M.pixTrans idx t 1) (o, 0) =
        (objWindow (2 * n) (2 * m) (M.transmission o) s r).map fun sel => ⟨true, sel⟩ := by
      unfold Multi2D.pass2
      rw [if_pos ⟨rfl, hsub⟩, h0, h1]
      simp only [Int.floor_natCast]
    show [(o, 0)].mapM _ = _
    rw [List.mapM_cons, e]
    generalize objWindow (2 * n) (2 * m) (M.transmission o) s r = z
    cases z <;> rfl
  constructor
  · intro hin
    have hw : objWindow (2 * n) (2 * m) (M.transmission o) (s : ℤ) (r : ℤ) = .ok (sliceWindow (M.transmission o) s r) := by
      rw [objWindow_inside ⟨by omega, by rw [hsh.1]; push_cast; omega⟩ ⟨by omega, by rw [hsh.2]; push_cast; omega⟩]
      simp only [Int.toNat_natCast]
      rfl
    rw [hw] at hpass
    rw [M.forward_doubled W hW hp _ hsl idx t _ hpass]
    refine congrArg (fun I => Except.ok (M.record I)) (funext fun x => funext fun y => sum_congr rfl fun u _ => ?_)
    unfold Multi2D.detect2
    rw [runPasses, h0, h1]
    have := pass_integer (s : ℤ) (r : ℤ) (⟨true, sliceWindow (M.transmission o) s r⟩ : Pass (2 * n) (2 * m))
      (fourierUpsample 2 false (M.incident W idx u))
    push_cast at this
    rw [this]
    rfl
  · intro hs' hr' hin
    have hw : objWindow (2 * n) (2 * m) (M.transmission o) (s : ℤ) (r : ℤ) = .error "RuntimeError" := by
      unfold objWindow
      simp only
      rw [if_neg]
      intro hc
      apply hin
      have e0 := hc.1
      have e1 := hc.2
      simp only [sliceExtent, sliceBound, hsh.1, hsh.2] at e0 e1
      have n0 := NeZero.pos n
      have m0 := NeZero.pos m
      constructor
      · rw [if_neg (by omega), if_neg (by omega)] at e0
        omega
      · rw [if_neg (by omega), if_neg (by omega)] at e1
        omega
    rw [hw] at hpass
    unfold Multi2D.forward
    simp only [hW, hsl, hp, Except.bind, if_true, hpass]
    rfl

/-- **C85, violated part**: the band limit has no effect. -/
theorem multi2D_bandlimit_violated (M : Multi2D n m N k) (b : Option ℝ) (idx : Fin N) (t : Fin 3 → ℝ) :
    ({ M with bandlimit := b } : Multi2D n m N k).forward idx t = M.forward idx t := rfl

/-- **C85**, the slices used: the first `nz` of a stack (a longer stack predicts the same as its first `nz` slices), IndexError
for a shorter stack; a single object is used `nz` times. -/
theorem multi2D_slices_used (M : Multi2D n m N k) (first rest : List (Img ℂ)) (o : Img ℂ) (idx : Fin N) (t : Fin 3 → ℝ) :
    (first.length = M.nz → ({ M with obj := .inr (first ++ rest) } : Multi2D n m N k).forward idx t =
      ({ M with obj := .inr first } : Multi2D n m N k).forward idx t) ∧
    (first.length < M.nz → M.weights ≠ none →
      ({ M with obj := .inr first } : Multi2D n m N k).forward idx t = .error "IndexError") ∧
    (({ M with obj := .inl o } : Multi2D n m N k).forward idx t =
      ({ M with obj := .inr (List.replicate M.nz o) } : Multi2D n m N k).forward idx t) := by
  have key : ∀ x y : Img ℂ ⊕ List (Img ℂ), ({ M with obj := x } : Multi2D n m N k).slices = ({ M with obj := y } : Multi2D n m N k).slices →
      ({ M with obj := x } : Multi2D n m N k).forward idx t = ({ M with obj := y } : Multi2D n m N k).forward idx t := by
    intro x y h
    unfold Multi2D.forward
    rw [h]
    rfl
  refine ⟨fun h => key _ _ ?_, fun h hw => ?_, key _ _ ?_⟩
  · unfold Multi2D.slices
    simp only
    rw [if_pos (by rw [List.length_append]; omega), if_pos (by omega), ← h, List.take_left, List.take_length]
  · have hs : ({ M with obj := .inr first } : Multi2D n m N k).slices = .error "IndexError" := by
      unfold Multi2D.slices
      simp only
      rw [if_neg (by omega)]
    unfold Multi2D.forward
    rw [hs]
    simp only
    cases hW : M.weights with
    | none => exact absurd hW hw
    | some W => rfl
  · unfold Multi2D.slices
    simp only
    rw [if_pos (by rw [List.length_replicate]), List.take_of_length_le (by rw [List.length_replicate])]

/-- **C85**, the propagation between slices is that of the physical pixel sizes, the lengths of the columns of the basis (halved on
the doubled grid), over the slice distance. -/
theorem multi2D_propagator (M : Multi2D n m N k) :
    let size : Fin 2 → ℝ := fun c => ‖(WithLp.toLp 2 fun i => M.basis i c : EuclideanSpace ℝ (Fin 3))‖
    M.prop1 = angularSpectrum n m (size 0) (size 1) M.wavelength M.dz none ∧
    M.prop2 = angularSpectrum (2 * n) (2 * m) (size 0 / 2) (size 1 / 2) M.wavelength M.dz none := by
  have h : ∀ c, M.spacing c = ‖(WithLp.toLp 2 fun i => M.basis i c : EuclideanSpace ℝ (Fin 3))‖ := by
    intro c
    rw [EuclideanSpace.norm_eq]
    unfold Multi2D.spacing
    congr 1
    rw [Fin.sum_univ_three]
    simp
  simp only [← h]
  exact ⟨rfl, rfl⟩

/-! ### C85: subpixel positions -/

/-- **C85, violated part**: at positions with a fractional part above one half the slices behind the first are read one pixel
further than the first: here for two slices and the first axis. -/
theorem multi2D_rounding_violated (M : Multi2D n m N k) (W : Weights N k) (hW : M.weights = some W)
    (hp : M.preventAliasing = false) (hsub : M.subpixel = true) (o o' : Img ℂ) (hsl : M.slices = .ok [o, o'])
    (idx : Fin N) (t : Fin 3 → ℝ) (s r : ℕ) (f : ℝ) (hf : 1 / 2 < f) (hf1 : f < 1)
    (hs : M.pixTrans idx t = ![s + f, (r : ℝ)]) (h1 : s + n ≤ o.h ∧ r + m ≤ o.w) (h2 : s + 1 + n ≤ o'.h ∧ r + m ≤ o'.w) :
    M.forward idx t = .ok (M.record fun x y => ∑ u, ‖farField (fun i j =>
      nearField M.prop1 (fun i j => sincShift (M.incident W idx u) f 0 i j * (M.transmission o).px (s + i.val) (r + j.val)) i j *
        (M.transmission o').px (s + 1 + i.val) (r + j.val)) x y‖ ^ 2) := by
  have e0 : M.pixTrans idx t 0 = s + f := by rw [hs]; rfl
  have e1 : M.pixTrans idx t 1 = (r : ℝ) := by rw [hs]; rfl
  have fl : ⌊(s : ℝ) + f⌋ = (s : ℤ) := by
    rw [Int.floor_eq_iff]
    push_cast
    constructor <;> linarith
  have hr : roundHalfEven ((s : ℝ) + f) = (s : ℤ) + 1 := by
    unfold roundHalfEven
    rw [fl]
    push_cast
    rw [if_neg (by linarith), if_pos (by linarith)]
  have hr1 : roundHalfEven (r : ℝ) = (r : ℤ) := by exact_mod_cast roundHalfEven_int (r : ℤ)
  have hsh := M.transmission_shape o
  have hsh' := M.transmission_shape o'
  have hw : objWindow n m (M.transmission o) (s : ℤ) (r : ℤ) = .ok (sliceWindow (M.transmission o) s r) := by
    rw [objWindow_inside ⟨by omega, by rw [hsh.1]; omega⟩ ⟨by omega, by rw [hsh.2]; omega⟩]
    simp only [Int.toNat_natCast]
    rfl
  have hw' : objWindow n m (M.transmission o') ((s : ℤ) + 1) (r : ℤ) = .ok (sliceWindow (M.transmission o') (s + 1) r) := by
    rw [objWindow_inside ⟨by omega, by rw [hsh'.1]; omega⟩ ⟨by omega, by rw [hsh'.2]; omega⟩]
    have : ((s : ℤ) + 1).toNat = s + 1 := by omega
    simp only [Int.toNat_natCast, this]
    rfl
  have p0 : M.pass1 (M.pixTrans idx t 0, M.pixTrans idx t 1) (o, 0) = .ok ⟨true, sliceWindow (M.transmission o) s r⟩ := by
    unfold Multi2D.pass1
    rw [if_pos ⟨rfl, hsub⟩]
    simp only [e0, e1, fl, Int.floor_natCast, hw]
    rfl
  have p1 : M.pass1 (M.pixTrans idx t 0, M.pixTrans idx t 1) (o', 1) =
      .ok ⟨false, sliceWindow (M.transmission o') (s + 1) r⟩ := by
    unfold Multi2D.pass1
    rw [if_neg (fun h => Nat.one_ne_zero h.1)]
    simp only [e0, e1, hr, hr1, hw']
    rfl
  have hl : [o, o'].zipIdx.mapM (M.pass1 (M.pixTrans idx t 0, M.pixTrans idx t 1)) =
      .ok [⟨true, sliceWindow (M.transmission o) s r⟩, ⟨false, sliceWindow (M.transmission o') (s + 1) r⟩] := by
    show [(o, 0), (o', 1)].mapM _ = _
    rw [List.mapM_cons, p0, List.mapM_cons, p1]
    rfl
  rw [M.forward_plain W hW hp _ hsl idx t _ hl]
  refine congrArg (fun I => Except.ok (M.record I)) (funext fun x => funext fun y => sum_congr rfl fun u _ => ?_)
  have hrun : ∀ w : Wave n m, (⟨true, sliceWindow (M.transmission o) s r⟩ : Pass n m).run
      (M.pixTrans idx t 0, M.pixTrans idx t 1) w = fun i j => sincShift w f 0 i j * (M.transmission o).px (s + i.val) (r + j.val) := by
    intro w
    unfold Pass.run
    rw [if_pos rfl, sincApply_false]
    simp only [e0, e1, fl, Int.floor_natCast]
    have : (s : ℝ) + f - ((s : ℤ) : ℝ) = f := by push_cast; ring
    have h' : (r : ℝ) - ((r : ℤ) : ℝ) = 0 := by push_cast; ring
    rw [this, h']
    rfl
  rw [runPasses, hrun]
  rfl

/-! ### C85: `tidy_probes` -/

/-- **C85, violated part**: without weights (`weights=None` is accepted on construction) nothing can be simulated or tidied. -/
theorem multi2D_without_weights_violated (la : LinAlg) (M : Multi2D n m N k) (hW : M.weights = none) :
    (∀ idx t, M.forward idx t = .error "TypeError") ∧ M.tidy la = .error "AttributeError" := by
  refine ⟨fun idx t => ?_, ?_⟩
  · unfold Multi2D.forward; rw [hW]
  · unfold Multi2D.tidy; rw [hW]

/-- **C85, violated part**: with one number per exposure, `tidy_probes` does nothing. -/
theorem multi2D_tidy_numbers_violated (la : LinAlg) (M : Multi2D n m N k) (w : Fin N → ℝ) (hW : M.weights = some (.perShot w)) :
    M.tidy la = .ok M := by
  unfold Multi2D.tidy
  rw [hW]

theorem tidyShot_single (la : LinAlg) (σ : Fin 1 → ℝ) (hσ : σ 0 ≠ 0) (W : Matrix (Fin 1) (Fin 1) ℂ) :
    ‖tidyShot la σ W ⟨0, by decide⟩ 0‖ = ‖W 0 0‖ := by
  have h := la.svd_spec (Matrix.of fun i j => W i j * (σ j : ℂ))
  set s := la.svd (Matrix.of fun i j => W i j * (σ j : ℂ)) with hs
  let z : Fin (min 1 1) := ⟨0, by decide⟩
  have hsum : ∀ f : Fin (min 1 1) → ℂ, ∑ i, f i = f z := fun f => Fin.sum_univ_one f
  have e := congrFun (congrFun h.eq 0) 0
  have l := congrFun (congrFun h.left z) z
  rw [Matrix.mul_apply, hsum, Matrix.mul_diagonal] at e
  rw [Matrix.mul_apply, Fin.sum_univ_one, Matrix.one_apply_eq, Matrix.conjTranspose_apply] at l
  have l1 : ‖s.1 0 z‖ = 1 := by
    have h2 : ((‖s.1 0 z‖ ^ 2 : ℝ) : ℂ) = 1 := by
      rw [← l]
      push_cast
      rw [← Complex.conj_mul']
      rfl
    have h3 : ‖s.1 0 z‖ ^ 2 = 1 := by exact_mod_cast h2
    nlinarith [norm_nonneg (s.1 0 z)]
  have e2 := congrArg norm e
  rw [Matrix.of_apply, norm_mul, norm_mul, norm_mul, l1, one_mul] at e2
  show ‖(s.2.1 z : ℂ) * (s.2.2 z 0 / (σ 0 : ℂ))‖ = ‖W 0 0‖
  have h0 : ‖(σ 0 : ℂ)‖ ≠ 0 := by simpa using hσ
  rw [norm_mul, norm_div, mul_div_assoc', ← e2]
  field_simp

/-- **C85, violated part**: with weight matrices it replaces the weights but not the probes: for a single mode, the light of
every exposure is multiplied by `N / Σ |w|²`. -/
theorem multi2D_tidy_matrices_violated (la : LinAlg) (M : Multi2D n m (N + 1) 1)
    (V : Fin (N + 1) → Matrix (Fin 1) (Fin 1) ℂ) (hW : M.weights = some (.matrices 1 V)) (hlit : ∃ x y, M.probe 0 x y ≠ 0) :
    ∃ V' : Fin (N + 1) → Matrix (Fin 1) (Fin 1) ℂ, M.tidy la = .ok { M with weights := some (.matrices 1 V') } ∧
      ∀ idx, ‖V' idx 0 0‖ ^ 2 * ∑ i, ‖V i 0 0‖ ^ 2 = (N + 1) * ‖V idx 0 0‖ ^ 2 := by
  obtain ⟨px, py, hpx⟩ := hlit
  have npos := NeZero.pos n
  have mpos := NeZero.pos m
  have hnm : 0 < n * m := Nat.mul_pos npos mpos
  have hk : tidyModes (N + 1) 1 1 (n * m) = 1 := by
    unfold tidyModes
    generalize n * m = z at hnm
    omega
  have hσ : ∀ i, sqrtIntensities M.probe i ≠ 0 := by
    intro i
    obtain rfl : i = 0 := Subsingleton.elim _ _
    unfold sqrtIntensities
    refine (Real.sqrt_pos.2 ?_).ne'
    refine sum_pos' (fun x _ => sum_nonneg fun y _ => by positivity) ⟨px, mem_univ _, ?_⟩
    exact sum_pos' (fun y _ => by positivity) ⟨py, mem_univ _, by positivity⟩
  set i0 : Fin (tidyModes (N + 1) 1 1 (n * m)) := Fin.cast hk.symm 0 with hi0
  have hu : ∀ j : Fin (tidyModes (N + 1) 1 1 (n * m)), j = i0 := by
    intro j
    apply Fin.ext
    have := j.2
    rw [hi0]
    simp only [Fin.val_cast, Fin.val_zero]
    omega
  have hO := orthogonalize_probes_weights_correct la (flatten2 M.probe) (catWeights V)
  set O := orthogonalizeProbesW la (flatten2 M.probe) (catWeights V) with hOdef
  set a := flat n m (px, py) with ha
  have hpa : flatten2 M.probe 0 a = M.probe 0 px py := by simp [flatten2, ha]
  have hre : ∀ i, O.2 (finProdFinEquiv (i, 0)) i0 * O.1 i0 a = V i 0 0 * M.probe 0 px py := by
    intro i
    have := hO.reexpressed (finProdFinEquiv (i, 0)) a
    rw [Fintype.sum_eq_single i0 (fun j hj => absurd (hu j) hj)] at this
    rw [this, Matrix.mul_apply, Fin.sum_univ_one, hpa]
    rw [show catWeights V (finProdFinEquiv (i, 0)) 0 = V i 0 0 by
      simp only [catWeights, Matrix.of_apply, Equiv.symm_apply_apply]]
  have hiso : ∑ i, ‖O.2 (finProdFinEquiv (i, 0)) i0‖ ^ 2 = 1 := by
    have := hO.isometry i0 i0
    rw [if_pos rfl, ← finProdFinEquiv.sum_comp, Fintype.sum_prod_type] at this
    simp only [Fin.sum_univ_one] at this
    have h2 : ((∑ i, ‖O.2 (finProdFinEquiv (i, 0)) i0‖ ^ 2 : ℝ) : ℂ) = 1 := by
      rw [← this]
      push_cast
      refine sum_congr rfl fun i _ => ?_
      rw [← Complex.conj_mul']
      rfl
    exact_mod_cast h2
  have hsq : ∀ i, ‖O.2 (finProdFinEquiv (i, 0)) i0‖ ^ 2 * ‖O.1 i0 a‖ ^ 2 = ‖V i 0 0‖ ^ 2 * ‖M.probe 0 px py‖ ^ 2 := by
    intro i
    rw [← mul_pow, ← mul_pow, ← norm_mul, ← norm_mul, hre]
  have hc : ‖O.1 i0 a‖ ^ 2 = (∑ i, ‖V i 0 0‖ ^ 2) * ‖M.probe 0 px py‖ ^ 2 := by
    rw [sum_mul, ← sum_congr rfl fun i _ => hsq i, ← sum_mul, hiso, one_mul]
  have hp2 : ‖M.probe 0 px py‖ ^ 2 ≠ 0 := by positivity
  have hU : ∀ i, ‖O.2 (finProdFinEquiv (i, 0)) i0‖ ^ 2 * ∑ i, ‖V i 0 0‖ ^ 2 = ‖V i 0 0‖ ^ 2 := by
    intro i
    have := hsq i
    rw [hc, ← mul_assoc] at this
    exact mul_right_cancel₀ hp2 this
  refine ⟨fun i => tidyShot la (sqrtIntensities M.probe)
    (((tidyBasis la M.probe V).2 i).submatrix id (Fin.cast hk.symm)), ?_, ?_⟩
  · unfold Multi2D.tidy
    rw [hW]
    simp only
    rw [dif_pos hk, if_pos hσ]
    rfl
  · intro idx
    show ‖tidyShot la (sqrtIntensities M.probe)
      (((tidyBasis la M.probe V).2 idx).submatrix id (Fin.cast hk.symm)) ⟨0, by decide⟩ 0‖ ^ 2 * _ = _
    rw [tidyShot_single la _ (hσ 0)]
    have : (((tidyBasis la M.probe V).2 idx).submatrix id (Fin.cast hk.symm)) 0 0 =
        (Real.sqrt ((N + 1 : ℕ) : ℝ) : ℂ) * O.2 (finProdFinEquiv (idx, 0)) i0 := rfl
    rw [this, norm_mul, mul_pow, mul_assoc, hU, Complex.norm_real, Real.norm_eq_abs, sq_abs, Real.sq_sqrt (by positivity)]
    push_cast
    ring

/-! ### C85: translations and construction -/

/-- **C85** (corrected translations): simulating an exposure at its corrected translation without offsets gives the same
pattern as simulating it at the original translation with them; without offsets there is a TypeError. -/
theorem multi2D_corrected_translations (M : Multi2D n m N k) (hz : M.normal 2 ≠ 0) (hT : Transverse M.basis M.normal)
    (idx : Fin N) (t : Fin 3 → ℝ) :
    (∀ t', M.correctedTranslation idx t = .ok t' →
      ({ M with offsets := none } : Multi2D n m N k).forward idx t' = M.forward idx t) ∧
    (M.correctedTranslation idx t = .error "TypeError" ↔ M.offsets = none) := by
  obtain ⟨h1, -, h3, -⟩ := translations_pixels_inverse M.basis M.normal hz hT
  refine ⟨fun t' ht => ?_, ?_⟩
  · have hp : ({ M with offsets := none } : Multi2D n m N k).pixTrans idx t' = M.pixTrans idx t := by
      unfold Multi2D.correctedTranslation at ht
      unfold Multi2D.pixTrans
      cases ho : M.offsets with
      | none => rw [ho] at ht; exact (nomatch ht)
      | some o =>
        rw [ho] at ht
        obtain rfl := Except.ok.inj ht
        have := h3 1 t (pixelToTranslations M.basis M.normal (M.translationScale • o idx))
        rw [one_smul, one_smul, h1] at this
        simp only
        rw [this]
        abel
    unfold Multi2D.forward
    simp only [hp]
    rfl
  · unfold Multi2D.correctedTranslation
    cases M.offsets <;> simp

/-- **C85, violated part**: `from_dataset` raises TypeError for every dataset. -/
theorem multi2D_from_dataset_violated {α β : Type} (rest : α → Except PyExc β) (dataset : α) :
    multi2DFromDataset rest dataset = .error .typeError := by
  unfold multi2DFromDataset bindKeywords exitWaveGeometryParams
  rw [if_neg (by decide)]
  rfl

/-! ### Non-vacuity -/

/-- Two transparent slices in front of which a probe of 2×2 pixels stands at the position (0, 0); spacing 1, wavelength 1,
distance 0. -/
noncomputable def toyMulti2D (double sub : Bool) : Multi2D 2 2 1 1 where
  probe := fun _ x y => if x = 0 ∧ y = 0 then 1 else 2
  probeNorm := 3
  support := fun _ _ => true
  weights := some (.matrices 1 fun _ => 2)
  fourierProbe := false
  obj := .inl ⟨9, 9, fun _ _ => 1⟩
  nz := 2
  exponentiate := false
  phaseOnly := false
  subpixel := sub
  preventAliasing := double
  wavelength := 1
  dz := 0
  bandlimit := none
  basis := !![0, -1; -1, 0; 0, 0]
  normal := ![0, 0, 1]
  minTranslation := ![0, 0]
  translationScale := 1
  offsets := some fun _ => ![0, 0]
  detectorSlice := none
  oversampling := 1
  background := ⟨2, 2, fun _ _ => 0⟩
  saturation := none

theorem toyMulti2D_slices (d s : Bool) :
    (toyMulti2D d s).slices = .ok [⟨9, 9, fun _ _ => 1⟩, ⟨9, 9, fun _ _ => 1⟩] := rfl

theorem toyMulti2D_pos (d s : Bool) : (toyMulti2D d s).pixTrans 0 0 = ![((0 : ℕ) : ℝ), ((0 : ℕ) : ℝ)] := by
  unfold Multi2D.pixTrans
  simp only [toyMulti2D, translationsToPixel, Matrix.mulVec_zero]
  funext i; fin_cases i <;> simp

theorem angularSpectrum_zero (a b : ℕ) [NeZero a] [NeZero b] (dx dy lam : ℝ) (h0 : 0 < dx) (h1 : 0 < dy)
    (hw : 0 < lam) (x : ZMod a) (y : ZMod b) : ‖angularSpectrum a b dx dy lam 0 none x y‖ = 1 := by
  rw [angularSpectrum_eq _ _ _ _ h0 h1 hw]
  simp

/-- The toy models can be simulated with and without aliasing prevention, and meet the hypotheses of `multi2D_energy` and
`multi2D_clear_doubled_partial`. -/
example : (∃ Q, (toyMulti2D false true).forward 0 0 = .ok Q) ∧
    (∀ o ∈ [(⟨9, 9, fun _ _ => 1⟩ : Img ℂ), ⟨9, 9, fun _ _ => 1⟩], ∀ i j,
      ((toyMulti2D false true).transmission o).px i j = 1) ∧
    (∀ x y, ‖angularSpectrum 2 2 ((toyMulti2D false true).spacing 0) ((toyMulti2D false true).spacing 1) 1 0 none x y‖ = 1) := by
  refine ⟨⟨_, multi2D_forward_integer _ _ rfl rfl _ (toyMulti2D_slices _ _) 0 0 0 0 (toyMulti2D_pos _ _) ?_⟩, ?_, ?_⟩
  · intro o ho
    simp only [List.mem_cons, List.not_mem_nil, or_false, or_self] at ho
    subst ho; simp
  · intro o ho i j
    simp only [List.mem_cons, List.not_mem_nil, or_false, or_self] at ho
    subst ho; simp [toyMulti2D, Multi2D.transmission]
  · intro x y
    exact angularSpectrum_zero _ _ _ _ _ (by simp [Multi2D.spacing, toyMulti2D]) (by simp [Multi2D.spacing, toyMulti2D]) one_pos x y

example : (∃ Q, (toyMulti2D true false).forward 0 0 = .ok Q) ∧
    (∃ x y, (toyMulti2D true false).probe 0 x y ≠ 0) ∧ (toyMulti2D true false).offsets ≠ none := by
  refine ⟨?_, ⟨0, 0, by simp [toyMulti2D]⟩, by simp [toyMulti2D]⟩
  refine ⟨_, Multi2D.forward_doubled _ _ rfl rfl _ (toyMulti2D_slices _ _) 0 0
    [⟨false, fourierUpsample 2 true fun _ _ => 1⟩, ⟨false, fourierUpsample 2 true fun _ _ => 1⟩] ?_⟩
  · have h0 := congrFun (toyMulti2D_pos true false) 0
    have h1 := congrFun (toyMulti2D_pos true false) 1
    have e : ∀ i : ℕ, (toyMulti2D true false).pass2
        ((toyMulti2D true false).pixTrans 0 0 0, (toyMulti2D true false).pixTrans 0 0 1) (⟨9, 9, fun _ _ => 1⟩, i) =
        .ok ⟨false, fourierUpsample 2 true fun _ _ => 1⟩ := by
      intro i
      rw [h0, h1]
      unfold Multi2D.pass2
      rw [if_neg (by simp [toyMulti2D])]
      simp only [Matrix.cons_val_zero, Matrix.cons_val_one, Nat.cast_zero]
      have hr : roundHalfEven 0 = 0 := by
        have := roundHalfEven_int 0
        simpa using this
      rw [hr, objWindow_inside]
      · rfl
      all_goals simp [toyMulti2D, Multi2D.transmission]
    simp only [List.zipIdx_cons, List.zipIdx_nil, List.mapM_cons, List.mapM_nil, e]
    rfl

end Cdtools
