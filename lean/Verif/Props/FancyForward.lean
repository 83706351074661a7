/-
**C63, C65**: the forward model of `FancyPtycho`: corrected translations, gauge freedoms, padding of the
object.
-/
import Verif.Props.TidyProbes
import Verif.Props.Geometry
import Verif.Props.Interactions

set_option linter.unusedSectionVars false

namespace Cdtools
open Finset Matrix

variable {n m a b N k : ℕ} [NeZero n] [NeZero m] [NeZero a] [NeZero b]

/-! ### Consistency of the model -/

/-- The exit wave of `Fancy.forward` is that of `ptycho_2D_sinc`. -/
theorem sincExit_eq (sb : Bool) (p : Wave n m) (obj : Img ℂ) (tr : ℝ × ℝ) :
    sincExit sb p obj tr = (objWindow n m obj ⌊tr.1⌋ ⌊tr.2⌋).map fun sel => sincApply sb tr sel p := rfl

/-- The resampling of the probe does nothing when the shapes agree. -/
theorem padProbe_self (p : Wave n m) : padProbe n m p = p := by
  unfold padProbe
  simp only [Nat.sub_self, Nat.zero_div]
  have : (fun (x : ZMod n) (y : ZMod m) => if 0 ≤ x.val ∧ x.val < 0 + n ∧ 0 ≤ y.val ∧ y.val < 0 + m then
      farField p ((x.val - 0 : ℕ) : ZMod n) ((y.val - 0 : ℕ) : ZMod m) else 0) = farField p := by
    funext x y
    rw [if_pos ⟨Nat.zero_le _, by have := ZMod.val_lt x; omega, Nat.zero_le _, by have := ZMod.val_lt y; omega⟩]
    simp only [Nat.sub_zero, ZMod.natCast_zmod_val]
  rw [this]
  exact far_field_unitary.1 p

/-- Two models that agree in everything that enters the pattern. -/
theorem forward_congr {k' : ℕ} (M : Fancy n m a b N k) (M' : Fancy n m a b N k') (idx : Fin N) (t t' : Fin 3 → ℝ)
    (hc : (M'.simulateTranslation = true ∧ M'.fourierShifts = none) ↔
      (M.simulateTranslation = true ∧ M.fourierShifts = none))
    (hp : M'.pixTrans idx t' = M.pixTrans idx t) (ht : M'.transmission = M.transmission)
    (hm : M'.saturation = M.saturation ∧ M'.oversampling = M.oversampling ∧ M'.background = M.background ∧ M'.qe = M.qe)
    (hI : ∀ sel x y, ∑ u, ‖M'.toDetector idx t' sel (shotProbes M'.weights idx M'.basisProbes u) x y‖ ^ 2 =
      ∑ u, ‖M.toDetector idx t sel (shotProbes M.weights idx M.basisProbes u) x y‖ ^ 2) :
    M'.forward idx t' = M.forward idx t := by
  unfold Fancy.forward
  by_cases h : M.simulateTranslation = true ∧ M.fourierShifts = none
  · rw [if_pos h, if_pos (hc.2 h)]
  · rw [if_neg h, if_neg (hc.not.2 h)]
    simp only [hp, ht]
    congr 1
    funext sel
    rw [hm.1, hm.2.1, hm.2.2.1, hm.2.2.2]
    have hs : sumModes a b (List.ofFn fun i => fun x y => M'.toDetector idx t' sel
          (shotProbes M'.weights idx M'.basisProbes i) x y) =
        sumModes a b (List.ofFn fun i => fun x y => M.toDetector idx t sel
          (shotProbes M.weights idx M.basisProbes i) x y) := by
      unfold sumModes
      congr 1
      funext x y
      rw [listSum_ofFn, listSum_ofFn]
      exact hI sel x y
    rw [hs]

/-! ### Corrected translations -/

/-- The model without translation offsets and with the given Fourier shifts. -/
def Fancy.withShifts (M : Fancy n m a b N k) (offsets fourierShifts : Option (Fin N → Fin 2 → ℝ)) :
    Fancy n m a b N k :=
  { M with offsets := offsets, fourierShifts := fourierShifts }

/-- **C63**: for every model that does not simulate the translation of the probe, on any oblique
geometry, simulating an exposure at its corrected translation without translation offsets gives the same
pattern (or the same error) as simulating it at the original translation with them. -/
theorem corrected_translations_forward (M : Fancy n m a b N k) (hz : M.normal 2 ≠ 0)
    (hT : Transverse M.objBasis M.normal) (hs : M.simulateTranslation = false) (idx : Fin N) (t : Fin 3 → ℝ) :
    (M.withShifts none M.fourierShifts).forward idx (M.correctedTranslation idx t) = M.forward idx t := by
  obtain ⟨h1, -, h3, -⟩ := translations_pixels_inverse M.objBasis M.normal hz hT
  have hp : (M.withShifts none M.fourierShifts).pixTrans idx (M.correctedTranslation idx t) = M.pixTrans idx t := by
    unfold Fancy.pixTrans Fancy.correctedTranslation Fancy.withShifts
    cases M.offsets with
    | none => rfl
    | some o =>
      simp only
      have := h3 1 t (pixelToTranslations M.objBasis M.normal (M.translationScale • o idx))
      rw [one_smul, one_smul, h1] at this
      rw [this]
      abel
  have hr : (M.withShifts none M.fourierShifts).ramp idx (M.correctedTranslation idx t) = M.ramp idx t := by
    unfold Fancy.ramp
    simp only [Fancy.withShifts, hs]
    rfl
  have hd : ∀ sel, (M.withShifts none M.fourierShifts).toDetector idx (M.correctedTranslation idx t) sel =
      M.toDetector idx t sel := by
    intro sel
    funext p
    simp only [Fancy.toDetector, hp, hr]
    rfl
  refine forward_congr M _ idx t _ Iff.rfl hp rfl ⟨rfl, rfl, rfl, rfl⟩ fun sel x y => ?_
  rw [hd]
  rfl

/-- **C63** (violated when the probe translation is simulated): the ramp on the detector is computed from
the original translations, so the corrected translations reproduce the pattern only together with a
correction of the Fourier shifts. -/
theorem corrected_translations_simulated (M : Fancy n m a b N k) (hz : M.normal 2 ≠ 0)
    (hT : Transverse M.objBasis M.normal) (o f : Fin N → Fin 2 → ℝ) (ho : M.offsets = some o)
    (hf : M.fourierShifts = some f) (hs : M.simulateTranslation = true) (idx : Fin N) (t : Fin 3 → ℝ) :
    (M.withShifts none (some fun i => f i - translationsToPixel M.detBasis M.normal
      (pixelToTranslations M.objBasis M.normal (M.translationScale • o i)))).forward idx (M.correctedTranslation idx t) =
    M.forward idx t := by
  obtain ⟨h1, -, h3, -⟩ := translations_pixels_inverse M.objBasis M.normal hz hT
  set c : Fin N → Fin 3 → ℝ := fun i => pixelToTranslations M.objBasis M.normal (M.translationScale • o i) with hc
  set M' := M.withShifts none (some fun i => f i - translationsToPixel M.detBasis M.normal (c i)) with hM'
  have hct : M.correctedTranslation idx t = t + c idx := by
    unfold Fancy.correctedTranslation; rw [ho]
  have hp : M'.pixTrans idx (M.correctedTranslation idx t) = M.pixTrans idx t := by
    rw [hct]
    unfold Fancy.pixTrans
    rw [ho]
    show translationsToPixel M.objBasis M.normal (t + c idx) - M.minTranslation = _
    have := h3 1 t (c idx)
    rw [one_smul, one_smul, hc, h1] at this
    rw [hc, this]
    funext i
    simp only [Pi.add_apply, Pi.sub_apply]
    ring
  have hlin : translationsToPixel M.detBasis M.normal (t + c idx) =
      translationsToPixel M.detBasis M.normal t + translationsToPixel M.detBasis M.normal (c idx) := by
    unfold translationsToPixel; rw [mulVec_add]
  have hr : M'.ramp idx (M.correctedTranslation idx t) = M.ramp idx t := by
    rw [hct]
    unfold Fancy.ramp
    rw [hf]
    simp only [hM', Fancy.withShifts, hs, if_true]
    rw [hlin]
    have : f idx - translationsToPixel M.detBasis M.normal (c idx) +
        (translationsToPixel M.detBasis M.normal t + translationsToPixel M.detBasis M.normal (c idx)) =
        f idx + translationsToPixel M.detBasis M.normal t := by abel
    rw [this]
  have e1 : ¬(M'.simulateTranslation = true ∧ M'.fourierShifts = none) := fun h => by
    have := h.2; simp [hM', Fancy.withShifts] at this
  have e2 : ¬(M.simulateTranslation = true ∧ M.fourierShifts = none) := fun h => by
    have := h.2; rw [hf] at this; cases this
  have hd : ∀ sel, M'.toDetector idx (M.correctedTranslation idx t) sel = M.toDetector idx t sel := by
    intro sel
    funext p
    simp only [Fancy.toDetector, hp, hr]
    rfl
  refine forward_congr M M' idx t _ ⟨fun h => absurd h e1, fun h => absurd h e2⟩ hp rfl ⟨rfl, rfl, rfl, rfl⟩
    fun sel x y => ?_
  rw [hd]
  rfl

/-- **C54** (violated): `simulate_probe_translation` without probe Fourier shifts always fails. -/
theorem simulate_translation_violated (M : Fancy n m a b N k) (hs : M.simulateTranslation = true)
    (hf : M.fourierShifts = none) (idx : Fin N) (t : Fin 3 → ℝ) : M.forward idx t = .error "RuntimeError" := by
  unfold Fancy.forward
  rw [if_pos ⟨hs, hf⟩]

/-! ### Gauge freedoms -/

/-- **C65** (change of basis): the patterns depend on the basis probes and the weight matrices only
through the light fields of the exposures; any invertible change of basis, and any unitary mixing of the
modes of each exposure, leaves all patterns unchanged. -/
theorem forward_basis_change {k' r r' : ℕ} (M : Fancy n m a b N k) (W : Fin N → Matrix (Fin r) (Fin k) ℂ)
    (hW : M.weights = .matrices r W) (A : Matrix (Fin k') (Fin k) ℂ) (B : Matrix (Fin k) (Fin k') ℂ) (hBA : B * A = 1)
    (U : Fin N → Matrix (Fin r') (Fin r) ℂ) (hU : ∀ i, (U i)ᴴ * U i = 1) (idx : Fin N) (t : Fin 3 → ℝ) :
    (M.withProbe (fun i x y => ∑ j, A i j * M.probe j x y) (.matrices r' fun i => U i * W i * B)).forward idx t =
      M.forward idx t := by
  refine forward_of_coherence M _ _ idx t ?_
  unfold Fancy.lightField
  rw [hW, flatten2_shot_matrices, flatten2_shot_matrices]
  have hA : flatten2 (fun i x y => ∑ j, A i j * M.probe j x y) = A * flatten2 M.probe := by
    funext i s; exact (mul_apply (M := A) (N := flatten2 M.probe) (i := i) (k := s)).symm
  rw [hA, ← Matrix.mul_assoc, Matrix.mul_assoc _ B A, hBA, Matrix.mul_one, Matrix.mul_assoc, coherence_mul, hU,
    Matrix.mul_one, mutualCoherence_eq]

/-- **C65** (weight schemes): identity weight matrices of full rank are the same as unit weights. -/
theorem forward_identity_weights (M : Fancy n m a b N k) (hW : M.weights = .perShot fun _ => 1) (W : Weights N k)
    (h : initialWeights N k (some (-1)) = .ok W) (idx : Fin N) (t : Fin 3 → ℝ) :
    (M.withProbe M.probe W).forward idx t = M.forward idx t := by
  refine forward_of_coherence M _ _ idx t ?_
  unfold initialWeights at h
  simp only at h
  rw [if_pos (by decide), if_neg (by omega), if_neg (by rw [if_pos trivial]; omega)] at h
  simp only [Except.ok.injEq] at h
  unfold Fancy.lightField
  rw [hW, flatten2_shot_perShot, ← h, flatten2_shot_matrices, Complex.ofReal_one, one_smul]
  have h1 : ∀ d : ℕ, d = k → mutualCoherence ((Matrix.of fun (i : Fin d) (j : Fin k) => if i.val = j.val then (1 : ℂ) else 0) *
      flatten2 M.probe) = mutualCoherence (flatten2 M.probe) := by
    intro d hd
    subst hd
    have : (Matrix.of fun (i j : Fin d) => if i.val = j.val then (1 : ℂ) else 0) = 1 := by
      ext i j
      rw [Matrix.of_apply, one_apply]
      simp only [Fin.ext_iff]
    rw [this, Matrix.one_mul]
  exact h1 _ (by simp)

theorem objWindow_map_mul (obj : Img ℂ) (c : ℂ) (i j : ℤ) :
    objWindow a b (obj.map fun z => c * z) i j = (objWindow a b obj i j).map fun sel => (fun x y => c * sel x y) := by
  unfold objWindow Img.map
  simp only
  split_ifs <;> rfl

theorem sincApply_sel (sb : Bool) (tr : ℝ × ℝ) (sel p : Wave n m) (c : ℂ) :
    sincApply sb tr (fun x y => c * sel x y) p = sincApply sb tr sel (fun x y => c * p x y) := by
  have h := (isLinear_sincApply sb tr sel).map_smul c p
  have h2 : (c • p) = (fun x y => c * p x y : Wave n m) := rfl
  rw [← h2, h]
  cases sb with
  | false =>
    funext x y
    simp only [sincApply, Bool.false_eq_true, if_false, Pi.smul_apply, smul_eq_mul]
    ring
  | true =>
    simp only [sincApply, if_true]
    have h3 : ∀ (q : Wave n m), (fun i j => q i j * (c * sel i j) : Wave n m) = c • (fun i j => q i j * sel i j : Wave n m) := by
      intro q; funext i j; simp only [Pi.smul_apply, smul_eq_mul]; ring
    rw [h3, isLinear_fft2.map_smul, isLinear_fftshift2.map_smul]
    have h4 : ∀ (q w : Wave n m), (fun i j => (c • q) i j * (starRingEnd ℂ) (w i j) : Wave n m) =
        c • (fun i j => q i j * (starRingEnd ℂ) (w i j) : Wave n m) := by
      intro q w; funext i j; simp only [Pi.smul_apply, smul_eq_mul]; ring
    rw [h4, isLinear_ifftshift2.map_smul, isLinear_ifft2.map_smul]

/-- The model with another object and probe. -/
def Fancy.withObj (M : Fancy n m a b N k) (obj : Img ℂ) (probe : Fin k → Wave n m) : Fancy n m a b N k :=
  { M with obj := obj, probe := probe }

/-- Scaling the transmission by `c` and the probes by `d` with `|c d| = 1` changes no pattern. -/
theorem forward_scaled (M M' : Fancy n m a b N k) (c d : ℂ) (hcd : ‖c * d‖ = 1)
    (hM : M' = M.withObj M'.obj fun j x y => d * M.probe j x y)
    (ht : M'.transmission = M.transmission.map fun z => c * z) (idx : Fin N) (t : Fin 3 → ℝ) :
    M'.forward idx t = M.forward idx t := by
  have hf : M'.probe = fun j x y => d * M.probe j x y := by rw [hM]; rfl
  have hw : M'.weights = M.weights := by rw [hM]; rfl
  have hsb : shotProbes M'.weights idx M'.basisProbes = fun i => M'.realSpace (M'.lightField idx i) := M'.shot_basis idx
  unfold Fancy.forward
  rw [hsb, M.shot_basis idx, ht]
  have hp : M'.pixTrans idx t = M.pixTrans idx t := by rw [hM]; rfl
  have hcond : (M'.simulateTranslation = true ∧ M'.fourierShifts = none) =
      (M.simulateTranslation = true ∧ M.fourierShifts = none) := by rw [hM]; rfl
  simp only [hp, hcond, objWindow_map_mul]
  split_ifs with hc
  · rfl
  · have hmap : ∀ (r : Except String (Wave a b)) (F : Wave a b → Wave a b) (G : Wave a b → Img ℝ),
        (r.map F).map G = r.map fun s => G (F s) := by
      intro r F G; cases r <;> rfl
    rw [hmap]
    congr 1
    funext sel
    have hrs : M'.realSpace = M.realSpace := by rw [hM]; rfl
    have hmeas : (M'.saturation, M'.oversampling, M'.background, M'.qe) =
        (M.saturation, M.oversampling, M.background, M.qe) := by rw [hM]; rfl
    simp only [Prod.mk.injEq] at hmeas
    rw [hmeas.1, hmeas.2.1, hmeas.2.2.1, hmeas.2.2.2, hrs]
    congr 1
    have htd : ∀ q : Wave n m, M'.toDetector idx t (fun x y => c * sel x y) (d • q) = (c * d) • M.toDetector idx t sel q := by
      intro q
      have e : M'.toDetector idx t (fun x y => c * sel x y) (d • q) =
          M.toDetector idx t (fun x y => c * sel x y) (d • q) := by rw [hM]; rfl
      rw [e, mul_smul, ← (M.isLinear_toDetector idx t sel).map_smul]
      rw [(M.isLinear_toDetector idx t _).map_smul, (M.isLinear_toDetector idx t _).map_smul]
      rw [smul_comm]
      congr 1
      unfold Fancy.toDetector
      simp only
      rw [sincApply_sel]
      have : IsLinearMap ℂ fun w : Wave a b => M.propagate fun x y => (M.probeNorm : ℂ) * w x y := by
        have hpl : IsLinearMap ℂ M.propagate := by
          unfold Fancy.propagate
          cases M.nearField
          · exact isLinear_farField
          · exact isLinear_nearField _
        have h := isLinear_comp hpl (isLinear_mulLeft (M.probeNorm : ℂ))
        exact h
      have h2 := (isLinear_sincApply M.nearField (M.pixTrans idx t 0, M.pixTrans idx t 1) sel).map_smul c
        (padProbe a b fun x y => q x y * M.ramp idx t x y)
      have h3 : (fun x y => c * padProbe a b (fun x y => q x y * M.ramp idx t x y) x y : Wave a b) =
        c • padProbe a b (fun x y => q x y * M.ramp idx t x y) := rfl
      rw [h3, h2]
      exact this.map_smul c _
    have hlf : ∀ (W : Weights N k) (i : Fin W.rank), shotProbes W idx (fun j x y => d * M.probe j x y) i =
        d • shotProbes W idx M.probe i := by
      intro W i
      cases W with
      | perShot w => funext x y; simp only [shotProbes, Pi.smul_apply, smul_eq_mul]; ring
      | matrices r V =>
        funext x y
        simp only [shotProbes, Pi.smul_apply, smul_eq_mul, mul_sum]
        exact sum_congr rfl fun j _ => by ring
    unfold sumModes
    congr 1
    funext x y
    rw [listSum_ofFn, listSum_ofFn]
    unfold Fancy.lightField
    rw [hf]
    have hsum : ∀ W : Weights N k, ∑ u : Fin W.rank, ‖M'.toDetector idx t (fun x y => c * sel x y)
          (M.realSpace (shotProbes W idx (fun j x y => d * M.probe j x y) u)) x y‖ ^ 2 =
        ∑ u : Fin W.rank, ‖M.toDetector idx t sel (M.realSpace (shotProbes W idx M.probe u)) x y‖ ^ 2 := by
      intro W
      refine sum_congr rfl fun u _ => ?_
      rw [hlf, M.isLinear_realSpace.map_smul, htd]
      simp only [Pi.smul_apply, smul_eq_mul]
      rw [norm_mul, hcd, one_mul]
    rw [hw]
    exact hsum M.weights

/-- **C65** (scale and phase, linear object): multiplying the object by `c` and all probes by `d` with
`|c d| = 1` changes no pattern; in particular a global phase of either and a rescaling of probe against
object. -/
theorem forward_gauge_linear (M : Fancy n m a b N k) (he : M.exponentiate = false) (c d : ℂ) (hcd : ‖c * d‖ = 1)
    (idx : Fin N) (t : Fin 3 → ℝ) :
    (M.withObj (M.obj.map fun z => c * z) fun j x y => d * M.probe j x y).forward idx t = M.forward idx t := by
  refine forward_scaled M _ c d hcd rfl ?_ idx t
  simp only [Fancy.transmission, Fancy.withObj, he, Bool.false_eq_true, if_false]

/-- **C65** (scale and phase, exponentiated object): adding the constant `z` to the object and multiplying the
probes by `d` with `|exp(i z) d| = 1` changes no pattern (with `phase_only`, for real `z`). -/
theorem forward_gauge_exponentiated (M : Fancy n m a b N k) (he : M.exponentiate = true) (z d : ℂ)
    (hr : M.phaseOnly = true → z.im = 0) (hcd : ‖Complex.exp (Complex.I * z) * d‖ = 1) (idx : Fin N) (t : Fin 3 → ℝ) :
    (M.withObj (M.obj.map fun w => w + z) fun j x y => d * M.probe j x y).forward idx t = M.forward idx t := by
  refine forward_scaled M _ (Complex.exp (Complex.I * z)) d hcd rfl ?_ idx t
  simp only [Fancy.transmission, Fancy.withObj, he, if_true]
  split_ifs with hp
  · have hz : ((z.re : ℝ) : ℂ) = z := Complex.ext (by simp) (by simp [hr hp])
    simp only [Img.map]
    congr 1
    funext i j
    rw [← Complex.exp_add, Complex.add_re]
    push_cast
    rw [hz]
    congr 1
    ring
  · simp only [Img.map]
    congr 1
    funext i j
    rw [← Complex.exp_add]
    congr 1
    ring

/-- **C65** (padding of the object): embedding the object in a larger array, with the origin moved
accordingly, changes no pattern whose window lies inside the object. -/
theorem forward_object_padding (M : Fancy n m a b N k) (obj : Img ℂ) (u v : ℕ)
    (hpx : ∀ i < M.obj.h, ∀ j < M.obj.w, obj.px (i + u) (j + v) = M.obj.px i j)
    (hh : M.obj.h + u ≤ obj.h) (hw : M.obj.w + v ≤ obj.w) (idx : Fin N) (t : Fin 3 → ℝ)
    (h0 : 0 ≤ ⌊M.pixTrans idx t 0⌋ ∧ ⌊M.pixTrans idx t 0⌋ + a ≤ M.obj.h)
    (h1 : 0 ≤ ⌊M.pixTrans idx t 1⌋ ∧ ⌊M.pixTrans idx t 1⌋ + b ≤ M.obj.w) :
    Fancy.forward { M with obj := obj, minTranslation := M.minTranslation - ![(u : ℝ), (v : ℝ)] } idx t =
      M.forward idx t := by
  set M' : Fancy n m a b N k := { M with obj := obj, minTranslation := M.minTranslation - ![(u : ℝ), (v : ℝ)] } with hM'
  have hp : M'.pixTrans idx t = M.pixTrans idx t + ![(u : ℝ), (v : ℝ)] := by
    unfold Fancy.pixTrans
    simp only [hM']
    cases M.offsets with
    | none => simp only; abel
    | some o => simp only; abel
  have hp0 : M'.pixTrans idx t 0 = M.pixTrans idx t 0 + (u : ℝ) := by rw [hp]; rfl
  have hp1 : M'.pixTrans idx t 1 = M.pixTrans idx t 1 + (v : ℝ) := by rw [hp]; rfl
  have hf0 : ⌊M'.pixTrans idx t 0⌋ = ⌊M.pixTrans idx t 0⌋ + u := by rw [hp0]; exact Int.floor_add_natCast _ _
  have hf1 : ⌊M'.pixTrans idx t 1⌋ = ⌊M.pixTrans idx t 1⌋ + v := by rw [hp1]; exact Int.floor_add_natCast _ _
  have hth : ∀ Q : Fancy n m a b N k, Q.transmission.h = Q.obj.h ∧ Q.transmission.w = Q.obj.w := by
    intro Q; unfold Fancy.transmission; split_ifs <;> exact ⟨rfl, rfl⟩
  have htp : ∀ i < M.obj.h, ∀ j < M.obj.w, M'.transmission.px (i + u) (j + v) = M.transmission.px i j := by
    intro i hi j hj
    have := hpx i hi j hj
    have h2 : M'.obj.px (i + u) (j + v) = M.obj.px i j := this
    have e1 : M'.exponentiate = M.exponentiate := rfl
    have e2 : M'.phaseOnly = M.phaseOnly := rfl
    unfold Fancy.transmission
    rw [e1, e2]
    split_ifs
    · simp only [Img.map, h2]
    · simp only [Img.map, h2]
    · exact h2
  have hw1 : objWindow a b M.transmission ⌊M.pixTrans idx t 0⌋ ⌊M.pixTrans idx t 1⌋ = .ok fun i j =>
      M.transmission.px (⌊M.pixTrans idx t 0⌋.toNat + i.val) (⌊M.pixTrans idx t 1⌋.toNat + j.val) :=
    objWindow_inside (by rw [(hth M).1]; exact h0) (by rw [(hth M).2]; exact h1)
  have hobj : M'.obj = obj := rfl
  have hw2 : objWindow a b M'.transmission ⌊M'.pixTrans idx t 0⌋ ⌊M'.pixTrans idx t 1⌋ = .ok fun i j =>
      M'.transmission.px (⌊M'.pixTrans idx t 0⌋.toNat + i.val) (⌊M'.pixTrans idx t 1⌋.toNat + j.val) :=
    objWindow_inside (by rw [(hth M').1, hobj, hf0]; omega) (by rw [(hth M').2, hobj, hf1]; omega)
  have hsel : (fun (i : ZMod a) (j : ZMod b) => M'.transmission.px (⌊M'.pixTrans idx t 0⌋.toNat + i.val)
        (⌊M'.pixTrans idx t 1⌋.toNat + j.val)) =
      fun i j => M.transmission.px (⌊M.pixTrans idx t 0⌋.toNat + i.val) (⌊M.pixTrans idx t 1⌋.toNat + j.val) := by
    funext i j
    have hi := ZMod.val_lt i
    have hj := ZMod.val_lt j
    rw [hf0, hf1, ← htp _ (by omega) _ (by omega)]
    congr 1 <;> omega
  unfold Fancy.forward
  simp only [hw1, hw2, hsel]
  have hcond : (M'.simulateTranslation = true ∧ M'.fourierShifts = none) =
      (M.simulateTranslation = true ∧ M.fourierShifts = none) := rfl
  simp only [hcond]
  split_ifs
  · rfl
  · simp only [Except.map]
    have htd : ∀ sel, M'.toDetector idx t sel = M.toDetector idx t sel := by
      intro sel
      funext p
      unfold Fancy.toDetector
      simp only [hp0, hp1]
      have hs : ∀ q, sincApply M'.nearField (M.pixTrans idx t 0 + (u : ℝ), M.pixTrans idx t 1 + (v : ℝ)) sel q =
          sincApply M.nearField (M.pixTrans idx t 0, M.pixTrans idx t 1) sel q := by
        intro q
        have e1 : M.pixTrans idx t 0 + (u : ℝ) - (⌊M.pixTrans idx t 0 + (u : ℝ)⌋ : ℝ) =
            M.pixTrans idx t 0 - ⌊M.pixTrans idx t 0⌋ := by rw [Int.floor_add_natCast]; push_cast; ring
        have e2 : M.pixTrans idx t 1 + (v : ℝ) - (⌊M.pixTrans idx t 1 + (v : ℝ)⌋ : ℝ) =
            M.pixTrans idx t 1 - ⌊M.pixTrans idx t 1⌋ := by rw [Int.floor_add_natCast]; push_cast; ring
        unfold sincApply
        simp only [e1, e2]
        rfl
      rw [hs]
      rfl
    simp only [htd]
    rfl

/-! ### Non-vacuity -/

/-- A small model with translation offsets: a 2 × 2 probe in one mode on a 5 × 5 object. -/
noncomputable def toyFancy : Fancy 2 2 2 2 2 1 where
  probe := fun _ x y => if x = 0 ∧ y = 0 then 1 else 2
  probeNorm := 3
  support := fun _ _ => true
  weights := .matrices 1 fun _ => 1
  fourierProbe := false
  obj := ⟨5, 5, fun i j => i + 2 * j + 1⟩
  exponentiate := false
  phaseOnly := false
  nearField := false
  propagator := fun _ _ => 1
  objBasis := !![0, -1; -1, 0; 0, 0]
  detBasis := !![0, -1; -1, 0; 0, 0]
  normal := ![0, 0, 1]
  minTranslation := ![-1, -1]
  translationScale := 2
  offsets := some fun _ => ![1 / 4, 1 / 8]
  fourierShifts := none
  simulateTranslation := false
  oversampling := 1
  background := ⟨2, 2, fun _ _ => 0⟩
  qe := none
  saturation := none

/-- The hypotheses of `corrected_translations_forward` are met by a model with offsets. -/
example : toyFancy.normal 2 ≠ 0 ∧ Transverse toyFancy.objBasis toyFancy.normal ∧
    toyFancy.simulateTranslation = false ∧ toyFancy.offsets ≠ none := by
  refine ⟨by simp [toyFancy], ?_, rfl, by simp [toyFancy]⟩
  unfold Transverse toyFancy
  simp [Vec3.dot, Vec3.cross, col]

/-- `tidy_probes` succeeds on a model with weight matrices. -/
example (la : LinAlg) : ∃ M', toyFancy.tidy la = some M' := by
  have h : tidyMatrices la toyFancy.probe (fun _ : Fin 2 => (1 : Matrix (Fin 1) (Fin 1) ℂ)) ≠ none := by
    rw [Ne, tidy_probes_fails_iff la (by norm_num)]
    simp only [not_lt]
    have hne : catWeights (fun _ : Fin 2 => (1 : Matrix (Fin 1) (Fin 1) ℂ)) * flatten2 toyFancy.probe ≠ 0 := by
      intro h0
      have h1 := congrFun (congrFun h0 (finProdFinEquiv ((0 : Fin 2), (0 : Fin 1)))) (flat 2 2 (0, 0))
      rw [mul_apply] at h1
      simp only [catWeights_apply] at h1
      simp [flatten2, toyFancy] at h1
    have : (catWeights (fun _ : Fin 2 => (1 : Matrix (Fin 1) (Fin 1) ℂ)) * flatten2 toyFancy.probe).rank ≠ 0 := by
      intro h0
      apply hne
      rw [Matrix.rank, Submodule.finrank_eq_zero, LinearMap.range_eq_bot] at h0
      ext i j
      have := congrFun (congrArg (fun f => f (Pi.single j 1)) h0) i
      rw [Matrix.mulVecLin_apply, mulVec_single_one] at this
      exact this
    omega
  obtain ⟨q, hq⟩ := Option.ne_none_iff_exists'.1 h
  unfold Fancy.tidy
  refine ⟨⟨_, toyFancy.withProbe q.1 (.matrices _ q.2)⟩, ?_⟩
  · show Option.map _ (tidyMatrices la toyFancy.probe (fun _ : Fin 2 => (1 : Matrix (Fin 1) (Fin 1) ℂ))) = _
    rw [hq]; rfl

end Cdtools
