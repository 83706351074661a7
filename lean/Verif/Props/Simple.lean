/-
C80: SimplePtycho.
-/
import Verif.Model.Simple
import Verif.Props.Probes
import Verif.Props.Interactions
import Verif.Props.Geometry
import Verif.Props.Gauge
import Verif.Props.FancyForward
import Verif.Props.Bragg

set_option linter.unusedSectionVars false
set_option linter.unusedSimpArgs false

namespace Cdtools
open Finset Matrix

variable {n m : ℕ} [NeZero n] [NeZero m]

/-! ### The pattern -/

/-- **C80** (pattern): at a position whose rounded window lies in the object, the detector records in pixel `(x, y)` the
intensity of the far field of probe × object, plus `1e-7`. -/
theorem simple_forward (M : Simple n m) (t : Fin 3 → ℝ) (s r : ℕ) (hs : roundHalfEven (M.pixTrans t 0) = s)
    (hr : roundHalfEven (M.pixTrans t 1) = r) (hin : s + n ≤ M.obj.h ∧ r + m ≤ M.obj.w) :
    M.forward t = .ok ⟨n, m, fun x y => ‖farField (fun (u : ZMod n) (v : ZMod m) =>
      (M.probeNorm : ℂ) * M.probe u v * M.obj.px (s + u.val) (r + v.val)) x y‖ ^ 2 + 1e-7⟩ := by
  unfold Simple.forward roundExit
  simp only [hs, hr]
  rw [objWindow_inside ⟨by omega, by omega⟩ ⟨by omega, by omega⟩]
  simp only [Except.map, Int.toNat_natCast]
  unfold measIntensity readOut
  simp only [saturate, cutSlice, binPixels, ne_eq, not_true_eq_false, if_false, Img.map]

/-- The window of every exposure of the scan. -/
theorem simple_windows (M : Simple n m) (t0 : Fin 3 → ℝ) (rest : List (Fin 3 → ℝ))
    (hh : M.obj.h = (simpleSetup n M.basis t0 rest 0).1.toNat) (hw : M.obj.w = (simpleSetup m M.basis t0 rest 1).1.toNat)
    (hm : M.minTranslation = ![(simpleSetup n M.basis t0 rest 0).2, (simpleSetup m M.basis t0 rest 1).2])
    (t : Fin 3 → ℝ) (ht : t ∈ t0 :: rest) :
    ∃ s r : ℕ, roundHalfEven (M.pixTrans t 0) = s ∧ roundHalfEven (M.pixTrans t 1) = r ∧
      s + n ≤ M.obj.h ∧ r + m ≤ M.obj.w := by
  have mem : ∀ c : Fin 2, translationsToPixel M.basis ![0, 0, 1] t c ∈ translationsToPixel M.basis ![0, 0, 1] t0 c ::
      rest.map fun t => translationsToPixel M.basis ![0, 0, 1] t c := by
    intro c
    rw [← List.map_cons (f := fun t => translationsToPixel M.basis ![0, 0, 1] t c)]
    exact List.mem_map_of_mem (f := fun t => translationsToPixel M.basis ![0, 0, 1] t c) ht
  have hm0 := congrFun hm 0
  have hm1 := congrFun hm 1
  simp only [Matrix.cons_val_zero, Matrix.cons_val_one] at hm0 hm1
  have key : ∀ (k h : ℕ) (c : Fin 2), h = (simpleSetup k M.basis t0 rest c).1.toNat →
      M.minTranslation c = (simpleSetup k M.basis t0 rest c).2 →
      ∃ s : ℕ, roundHalfEven (M.pixTrans t c) = s ∧ s + k ≤ h := by
    intro k h c h1 h2
    obtain ⟨a1, a2⟩ := setup_bounds k _ _ 0 _ (mem c)
    unfold simpleSetup at h1 h2
    rw [← h2] at a1 a2
    have e : M.pixTrans t c = translationsToPixel M.basis ![0, 0, 1] t c - M.minTranslation c := rfl
    rw [← e] at a1 a2
    obtain ⟨b1, b2⟩ := roundHalfEven_mem a1 a2
    exact ⟨(roundHalfEven (M.pixTrans t c)).toNat, (Int.toNat_of_nonneg b1).symm, by omega⟩
  obtain ⟨s, hs, hs'⟩ := key n _ 0 hh hm0
  obtain ⟨r, hr, hr'⟩ := key m _ 1 hw hm1
  exact ⟨s, r, hs, hr, hs', hr'⟩

/-- **C80** (positions): a translation by `p` object pixels within the plane of the object, plus anything along the beam, is
the position `p` on the object, counted from the smallest one. -/
theorem simple_position (M : Simple n m) (hT : Transverse M.basis ![0, 0, 1]) (h0 : M.basis 2 0 = 0) (h1 : M.basis 2 1 = 0)
    (p : Fin 2 → ℝ) (z : ℝ) :
    M.pixTrans (M.basis.mulVec p + z • ![0, 0, 1]) = p - M.minTranslation := by
  have hz : (![0, 0, 1] : Fin 3 → ℝ) 2 ≠ 0 := by simp
  unfold Simple.pixTrans translationsToPixel
  rw [pixelProjection_mulVec _ _ _ hz]
  have hl : lift ![0, 0, 1] (M.basis.mulVec p + z • ![0, 0, 1]) = M.basis.mulVec p := by
    funext i
    fin_cases i <;> simp [lift, mulVec, dotProduct, Fin.sum_univ_two, h0, h1]
  rw [hl, pinvTall_mulVec_mulVec (gram_unit hT)]

/-! ### Construction -/

/-- The initial guess is the inverse far field of the square root of the mean pattern. -/
theorem simpleGuess_eq (mask : RealIm n m) (patterns : List (RealIm n m)) (background : Option (RealIm n m)) :
    simpleGuess mask patterns background = inverseFarField fun k l =>
      (Real.sqrt (sharpIntensities mask patterns background k l) : ℂ) := by
  funext i j
  unfold simpleGuess sharpProbe
  have hi := i.val_lt
  have hj := j.val_lt
  have vi : ((i.val : ℕ) : ZMod (1 * n)).val = i.val := by
    rw [ZMod.val_natCast, one_mul, Nat.mod_eq_of_lt hi]
  have vj : ((j.val : ℕ) : ZMod (1 * m)).val = j.val := by
    rw [ZMod.val_natCast, one_mul, Nat.mod_eq_of_lt hj]
  have e0 : 1 * n / 2 - n / 2 = 0 := by rw [one_mul, Nat.sub_self]
  have e1 : 1 * m / 2 - m / 2 = 0 := by rw [one_mul, Nat.sub_self]
  simp only [vi, vj, e0, e1, Nat.sub_zero, zero_le, true_and, zero_add, hi, hj, if_true]
  rw [ZMod.natCast_zmod_val, ZMod.natCast_zmod_val]

theorem sharpIntensities_eq (mask : RealIm n m) (patterns : List (RealIm n m)) (background : Option (RealIm n m))
    (hm : ∀ i j, 0 ≤ mask i j) (hp : ∀ p ∈ patterns, ∀ i j, 0 ≤ p i j) (i : ZMod n) (j : ZMod m) :
    sharpIntensities mask patterns background i j = meanCounts mask patterns (background.getD fun _ _ => 0) i j := by
  have hmul : (patterns.map fun p => mask i j * p i j).sum =
      mask i j * (patterns.map fun p => p i j).sum := List.sum_map_mul_left ..
  have hnn : 0 ≤ (patterns.map fun p => p i j).sum := by
    refine List.sum_nonneg ?_
    intro x hx
    obtain ⟨p, hp', rfl⟩ := List.mem_map.1 hx
    exact hp p hp' i j
  unfold sharpIntensities meanCounts
  cases background with
  | none =>
    simp only [Option.getD_none, sub_zero]
    rw [hmul, mul_div_assoc, max_eq_left]
    exact mul_nonneg (hm i j) (div_nonneg hnn (Nat.cast_nonneg _))
  | some b =>
    simp only [Option.getD_some]
    rw [hmul, mul_div_assoc]

theorem Simple.init_eq_none (basis : Matrix (Fin 3) (Fin 2) ℝ) (guess : Wave n m) (obj : Img ℂ) (mt : Fin 2 → ℝ) :
    Simple.init basis guess obj mt = none ↔ ∀ i j, guess i j = 0 := by
  unfold Simple.init
  simp only
  have hle := fun p : ZMod n × ZMod m => le_ciSup (Set.finite_range fun p : ZMod n × ZMod m => ‖guess p.1 p.2‖).bddAbove p
  constructor
  · intro h i j
    split_ifs at h with h0
    have := hle (i, j)
    rw [h0] at this
    exact norm_le_zero_iff.1 this
  · intro h
    rw [if_pos]
    simp [h]

/-- **C80** (construction): the probe is scaled to a largest modulus of 1, and the model transmits the guess. It becomes NaN
for the zero guess only. -/
theorem simple_init (basis : Matrix (Fin 3) (Fin 2) ℝ) (guess : Wave n m) (obj : Img ℂ) (mt : Fin 2 → ℝ) :
    (Simple.init basis guess obj mt = none ↔ ∀ i j, guess i j = 0) ∧
    ∀ M, Simple.init basis guess obj mt = some M →
      (∀ i j, (M.probeNorm : ℂ) * M.probe i j = guess i j) ∧ (∀ i j, ‖M.probe i j‖ ≤ 1) ∧
      (∃ i j, ‖M.probe i j‖ = 1) ∧ M.obj = obj ∧ M.basis = basis ∧ M.minTranslation = mt := by
  refine ⟨Simple.init_eq_none basis guess obj mt, fun M hM => ?_⟩
  have hfin := Set.finite_range fun p : ZMod n × ZMod m => ‖guess p.1 p.2‖
  have hle := fun p : ZMod n × ZMod m => le_ciSup hfin.bddAbove p
  obtain ⟨q, hq⟩ := exists_eq_ciSup_of_finite (f := fun p : ZMod n × ZMod m => ‖guess p.1 p.2‖)
  unfold Simple.init at hM
  simp only at hM
  set nu := ⨆ p : ZMod n × ZMod m, ‖guess p.1 p.2‖ with hnu
  split_ifs at hM with h0
  obtain rfl := Option.some.inj hM
  have hpos : 0 < nu := lt_of_le_of_ne (by rw [← hq]; exact norm_nonneg _) (Ne.symm h0)
  have hc : (nu : ℂ) ≠ 0 := by exact_mod_cast h0
  have hn : ∀ i j, ‖guess i j / (nu : ℂ)‖ = ‖guess i j‖ / nu := by
    intro i j
    rw [norm_div, Complex.norm_real, Real.norm_of_nonneg hpos.le]
  refine ⟨fun i j => mul_div_cancel₀ _ hc, fun i j => ?_, ⟨q.1, q.2, ?_⟩, rfl, rfl, rfl⟩
  · show ‖guess i j / (nu : ℂ)‖ ≤ 1
    rw [hn, div_le_one hpos]
    exact hle (i, j)
  · show ‖guess q.1 q.2 / (nu : ℂ)‖ = 1
    rw [hn, hq, div_self h0]

/-- **C80** (initial model): the model made from a dataset predicts, for every exposure of the dataset, exactly the mean of
the (masked, background-subtracted) recorded patterns, plus `1e-7`. -/
theorem simple_initial_prediction (basis : Matrix (Fin 3) (Fin 2) ℝ) (t0 : Fin 3 → ℝ) (rest : List (Fin 3 → ℝ))
    (mask : RealIm n m) (patterns : List (RealIm n m)) (background : Option (RealIm n m))
    (hm : ∀ i j, 0 ≤ mask i j) (hp : ∀ p ∈ patterns, ∀ i j, 0 ≤ p i j) (M : Simple n m)
    (hM : simpleFromDataset basis t0 rest mask patterns background = some M) (t : Fin 3 → ℝ) (ht : t ∈ t0 :: rest) :
    M.forward t = .ok ⟨n, m, fun x y =>
      meanCounts mask patterns (background.getD fun _ _ => 0) (x : ZMod n) (y : ZMod m) + 1e-7⟩ := by
  obtain ⟨hg, -, -, ho, hb, hmt⟩ := (simple_init _ _ _ _).2 M hM
  obtain ⟨s, r, hs, hr, hin⟩ := simple_windows M t0 rest (by rw [ho, hb]) (by rw [ho, hb]) (by rw [hmt, hb]) t ht
  rw [simple_forward M t s r hs hr hin]
  refine congrArg (fun I => Except.ok (⟨n, m, I⟩ : Img ℝ)) (funext fun x => funext fun y => ?_)
  have hw : (fun (u : ZMod n) (v : ZMod m) => (M.probeNorm : ℂ) * M.probe u v * M.obj.px (s + u.val) (r + v.val)) =
      simpleGuess mask patterns background := by
    funext u v
    rw [hg, ho, mul_one]
  rw [hw, simpleGuess_eq, far_field_unitary.2.1, Complex.norm_real, Real.norm_of_nonneg (Real.sqrt_nonneg _),
    Real.sq_sqrt (by rw [sharpIntensities_eq mask patterns background hm hp]; exact le_max_right _ _),
    sharpIntensities_eq mask patterns background hm hp]

/-- **C80** (dark data): the construction fails (with a probe of NaNs) exactly if no counts are left. -/
theorem simple_dark_data (basis : Matrix (Fin 3) (Fin 2) ℝ) (t0 : Fin 3 → ℝ) (rest : List (Fin 3 → ℝ))
    (mask : RealIm n m) (patterns : List (RealIm n m)) (background : Option (RealIm n m))
    (hm : ∀ i j, 0 ≤ mask i j) (hp : ∀ p ∈ patterns, ∀ i j, 0 ≤ p i j) :
    simpleFromDataset basis t0 rest mask patterns background = none ↔
      ∀ i j, meanCounts mask patterns (background.getD fun _ _ => 0) i j = 0 := by
  unfold simpleFromDataset
  rw [Simple.init_eq_none, simpleGuess_eq]
  have hint := sharpIntensities_eq mask patterns background hm hp
  constructor
  · intro h i j
    have hz : inverseFarField (fun k l => (Real.sqrt (sharpIntensities mask patterns background k l) : ℂ)) = (0 : Wave n m) := by
      funext i j; exact h i j
    have h2 := congrArg farField hz
    rw [far_field_unitary.2.1] at h2
    have h3 := congrFun (congrFun h2 i) j
    have hf : farField (0 : Wave n m) i j = 0 := by
      have := congrFun (congrFun (farField_scale (n := n) (m := m) 0 0) i) j
      simp only [zero_mul] at this
      exact this
    rw [hf] at h3
    have h4 : Real.sqrt (sharpIntensities mask patterns background i j) = 0 := by exact_mod_cast h3
    rw [← hint]
    exact (Real.sqrt_eq_zero (by rw [hint]; exact le_max_right _ _)).1 h4
  · intro h
    have : (fun k l => (Real.sqrt (sharpIntensities mask patterns background k l) : ℂ)) = (0 : Wave n m) := by
      funext k l
      rw [hint, h]
      simp
    rw [this]
    intro i j
    simp [inverseFarField, fftshift2, ifftshift2, ifft2]

/-- **C80** (scan): a model made from a dataset simulates every exposure of the dataset, whatever the probe and the object
have become during the reconstruction, and the patterns have the shape of the data. -/
theorem simple_forward_succeeds (basis : Matrix (Fin 3) (Fin 2) ℝ) (t0 : Fin 3 → ℝ) (rest : List (Fin 3 → ℝ))
    (mask : RealIm n m) (patterns : List (RealIm n m)) (background : Option (RealIm n m)) (M : Simple n m)
    (hM : simpleFromDataset basis t0 rest mask patterns background = some M) (probe : Wave n m) (px : ℕ → ℕ → ℂ)
    (t : Fin 3 → ℝ) (ht : t ∈ t0 :: rest) :
    ∃ I, Simple.forward { M with probe := probe, obj := ⟨M.obj.h, M.obj.w, px⟩ } t = .ok ⟨n, m, I⟩ := by
  obtain ⟨-, -, -, ho, hb, hmt⟩ := (simple_init _ _ _ _).2 M hM
  set M' : Simple n m := { M with probe := probe, obj := ⟨M.obj.h, M.obj.w, px⟩ } with hM'
  have e1 : M'.obj.h = M.obj.h := rfl
  have e2 : M'.obj.w = M.obj.w := rfl
  have e3 : M'.basis = M.basis := rfl
  have e4 : M'.minTranslation = M.minTranslation := rfl
  obtain ⟨s, r, hs, hr, hin⟩ := simple_windows M' t0 rest (by rw [e1, e3, ho, hb]) (by rw [e2, e3, ho, hb])
    (by rw [e4, e3, hmt, hb]) t ht
  exact ⟨_, simple_forward M' t s r hs hr hin⟩

/-! ### Freedoms of the solution -/

/-- Two models whose exit waves differ by a phase in every window predict the same patterns. -/
theorem simple_forward_congr (M M' : Simple n m) (hn : M'.probeNorm = M.probeNorm) (hh : M'.obj.h = M.obj.h)
    (hw : M'.obj.w = M.obj.w) (hb : M'.basis = M.basis) (hm : M'.minTranslation = M.minTranslation) (c : ℕ → ℕ → ℂ)
    (hc : ∀ a b, ‖c a b‖ = 1) (h : ∀ a b i j, M'.probe i j * M'.obj.px (a + i.val) (b + j.val) =
      c a b * (M.probe i j * M.obj.px (a + i.val) (b + j.val))) (t : Fin 3 → ℝ) : M'.forward t = M.forward t := by
  have hp : M'.pixTrans t = M.pixTrans t := by unfold Simple.pixTrans; rw [hb, hm]
  unfold Simple.forward roundExit objWindow
  rw [hp, hh, hw, hn]
  simp only
  split
  · simp only [Except.map]
    refine congrArg Except.ok ?_
    unfold measIntensity
    refine congrArg (readOut {}) ?_
    unfold Img.map
    refine congrArg (fun I => (⟨n, m, I⟩ : Img ℝ)) (funext fun x => funext fun y => ?_)
    set a := (sliceExtent M.obj.h (roundHalfEven (M.pixTrans t 0)) (roundHalfEven (M.pixTrans t 0) + n)).1
    set b := (sliceExtent M.obj.w (roundHalfEven (M.pixTrans t 1)) (roundHalfEven (M.pixTrans t 1) + m)).1
    have : (fun (i : ZMod n) (j : ZMod m) => (M.probeNorm : ℂ) * M'.probe i j * M'.obj.px (a + i.val) (b + j.val)) =
        fun i j => c a b * ((M.probeNorm : ℂ) * M.probe i j * M.obj.px (a + i.val) (b + j.val)) := by
      funext i j
      rw [mul_assoc, h]
      ring
    simp only [this]
    rw [farField_scale, norm_mul, hc, one_mul]
  · rfl

/-- **C80** (scale): multiplying the probe by `d` and the object by `c` with `|c d| = 1` changes no pattern. -/
theorem simple_scale_gauge (M : Simple n m) (c d : ℂ) (hc : ‖c * d‖ = 1) (t : Fin 3 → ℝ) :
    Simple.forward { M with probe := fun i j => d * M.probe i j, obj := M.obj.map fun z => c * z } t = M.forward t := by
  refine simple_forward_congr M { M with probe := fun i j => d * M.probe i j, obj := M.obj.map fun z => c * z } rfl rfl rfl
    rfl rfl (fun _ _ => c * d) (fun _ _ => hc) (fun a b i j => ?_) t
  simp only [Img.map]
  ring

/-- **C80** (phase ramp): multiplying the object by a phase ramp and the probe by the opposite one changes no pattern, at any
position of the scan. -/
theorem simple_ramp_gauge (M : Simple n m) (f0 f1 : ℝ) (t : Fin 3 → ℝ) :
    Simple.forward { M with probe := fun i j => phaseRamp (-f0) (-f1) i.val j.val * M.probe i j,
                            obj := ⟨M.obj.h, M.obj.w, fun i j => phaseRamp f0 f1 i j * M.obj.px i j⟩ } t = M.forward t := by
  refine simple_forward_congr M { M with probe := fun i j => phaseRamp (-f0) (-f1) i.val j.val * M.probe i j,
                                         obj := ⟨M.obj.h, M.obj.w, fun i j => phaseRamp f0 f1 i j * M.obj.px i j⟩ }
    rfl rfl rfl rfl rfl (fun a b => phaseRamp f0 f1 a b) (fun a b => phaseRamp_norm _ _ _ _) (fun a b i j => ?_) t
  simp only
  rw [phaseRamp_add]
  linear_combination (phaseRamp f0 f1 a b * M.probe i j * M.obj.px (a + i.val) (b + j.val)) *
    phaseRamp_neg f0 f1 i.val j.val

/-- **C80** (energy): for an object of pure phase the pattern contains all the light of the probe. -/
theorem simple_energy (M : Simple n m) (hph : ∀ i j, ‖M.obj.px i j‖ = 1) (t : Fin 3 → ℝ) (Q : Img ℝ)
    (h : M.forward t = .ok Q) :
    ∑ x : ZMod n, ∑ y : ZMod m, (Q.px x.val y.val - 1e-7) = M.probeNorm ^ 2 * ∑ i, ∑ j, ‖M.probe i j‖ ^ 2 := by
  unfold Simple.forward roundExit objWindow at h
  simp only at h
  split at h
  · simp only [Except.map] at h
    obtain rfl := Except.ok.inj h
    unfold measIntensity readOut
    simp only [saturate, cutSlice, binPixels, ne_eq, not_true_eq_false, if_false, Img.map, ZMod.natCast_val, ZMod.cast_id',
      id_eq, add_sub_cancel_right]
    have hp := (far_field_unitary (n := n) (m := m)).2.2.1
    unfold power at hp
    rw [hp]
    simp only [norm_mul, hph, mul_one, mul_pow, Complex.norm_real, Real.norm_eq_abs, sq_abs, mul_sum]
  · exact (nomatch h)

/-- The `FancyPtycho` model with the same probe and object. -/
noncomputable def Simple.asFancy (M : Simple n m) (N : ℕ) : Fancy n m n m N 1 where
  probe := fun _ => M.probe
  probeNorm := M.probeNorm
  support := fun _ _ => true
  weights := .perShot fun _ => 1
  fourierProbe := false
  obj := M.obj
  exponentiate := false
  phaseOnly := false
  nearField := false
  propagator := fun _ _ => 1
  objBasis := M.basis
  detBasis := M.basis
  normal := ![0, 0, 1]
  minTranslation := M.minTranslation
  translationScale := 1
  offsets := none
  fourierShifts := none
  simulateTranslation := false
  oversampling := 1
  background := ⟨n, m, fun _ _ => 0⟩
  qe := none
  saturation := none

/-- **C80** (FancyPtycho): at whole pixel positions the simple model predicts what `FancyPtycho` does. -/
theorem simple_is_fancy (M : Simple n m) (N : ℕ) (idx : Fin N) (t : Fin 3 → ℝ) (s r : ℕ)
    (hs : M.pixTrans t = ![(s : ℝ), (r : ℝ)]) (hin : s + n ≤ M.obj.h ∧ r + m ≤ M.obj.w) :
    M.forward t = (M.asFancy N).forward idx t := by
  have h0 : M.pixTrans t 0 = (s : ℝ) := by rw [hs]; rfl
  have h1 : M.pixTrans t 1 = (r : ℝ) := by rw [hs]; rfl
  have hF : (M.asFancy N).pixTrans idx t = M.pixTrans t := rfl
  have hT : (M.asFancy N).transmission = M.obj := rfl
  rw [simple_forward M t s r (by rw [h0]; exact_mod_cast roundHalfEven_int s) (by rw [h1]; exact_mod_cast roundHalfEven_int r)
    hin]
  unfold Fancy.forward
  rw [if_neg (by simp [Simple.asFancy])]
  simp only [hF, hT, h0, h1, Int.floor_natCast]
  rw [objWindow_inside ⟨by omega, by omega⟩ ⟨by omega, by omega⟩]
  simp only [Except.map, Int.toNat_natCast]
  refine congrArg Except.ok ?_
  have hdet : ∀ (sel : Wave n m) (p : Wave n m), (M.asFancy N).toDetector idx t sel p =
      farField fun i j => (M.probeNorm : ℂ) * (p i j * sel i j) := by
    intro sel p
    unfold Fancy.toDetector
    simp only [hF, h0, h1]
    have hr1 : (M.asFancy N).ramp idx t = fun _ _ => 1 := rfl
    have hr2 : (M.asFancy N).nearField = false := rfl
    have hr3 : (M.asFancy N).probeNorm = M.probeNorm := rfl
    rw [hr1, hr2, hr3, sincApply_false, padProbe_self]
    simp only [Int.floor_natCast, Int.cast_natCast, sub_self, mul_one]
    unfold Fancy.propagate
    rw [hr2, if_neg Bool.false_ne_true]
    have hz := integer_shift_is_roll p 0 0
    simp only [Int.cast_zero, sub_zero] at hz
    rw [hz]
  have hshot : ∀ i, shotProbes (M.asFancy N).weights idx (M.asFancy N).basisProbes i = M.probe := by
    intro i
    funext x y
    simp [shotProbes, Simple.asFancy, Fancy.basisProbes]
  simp only [hdet, hshot]
  unfold measQuadratic readOut sumModes
  have hsat : (M.asFancy N).saturation = none := rfl
  have hos : (M.asFancy N).oversampling = 1 := rfl
  have hqe : (M.asFancy N).qe = none := rfl
  have hbg : (M.asFancy N).background = ⟨n, m, fun _ _ => 0⟩ := rfl
  have hlen : (M.asFancy N).weights.rank = 1 := rfl
  simp only [hsat, hos, hqe, hbg, hlen, saturate, cutSlice, binPixels, ne_eq, not_true_eq_false, if_false, Img.map, Img.zip]
  simp [mul_assoc]

/-- Non-vacuity: two exposures of constant patterns, one pixel apart. -/
example : ∃ M, simpleFromDataset (n := 4) (m := 2) !![0, -1; -1, 0; 0, 0] ![0, 0, 0] [![0, 1, 0]] (fun _ _ => 1)
    [fun _ _ => 3, fun _ _ => 5] (some fun _ _ => 1) = some M := by
  refine Option.ne_none_iff_exists'.1 fun h => ?_
  have := (simple_dark_data (n := 4) (m := 2) _ _ _ _ _ _ (fun _ _ => zero_le_one) (by simp)).1 h 0 0
  simp [meanCounts] at this
  norm_num at this

/-- Non-vacuity: the untilted basis meets the hypotheses of `simple_position`. -/
example : Transverse !![0, -1; -1, 0; 0, 0] ![0, 0, 1] := by
  simp [Transverse, col, Vec3.cross, Vec3.dot]

end Cdtools
