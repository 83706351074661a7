/-
C107: `standardize_reconstruction_set` and `standardize_reconstruction_pair` as whole functions: what they return, what
repeated reconstructions give, and what they leave inconsistent.
-/
import Verif.Model.StdSets
import Verif.Props.Gauge
import Verif.Props.GenFrc
import Verif.Props.Synthesis

set_option linter.unusedSectionVars false

namespace Cdtools
open Finset ZMod

section
variable {r n m a b c d : ℕ} [NeZero n] [NeZero m] [NeZero a] [NeZero b] [NeZero c] [NeZero d]

/-! ### Specification -/

/-- Two pairs of object and probe predict the same diffraction patterns: at every scan position whose rounded window lies
inside the object with `ptycho_2D_round`, at every position of whole pixels with every interaction model. -/
def SamePredictions (obj : Wave a b) (probe : Fin (r + 1) → Wave n m) (obj' : Wave a b)
    (probe' : Fin (r + 1) → Wave n m) : Prop :=
  (∀ (w : ℝ) (tr : ℝ × ℝ), ReadsInside n m (toImg obj) (roundHalfEven tr.1) (roundHalfEven tr.2) →
    predicted roundExit w probe' (toImg obj') tr = predicted roundExit w probe (toImg obj) tr) ∧
  ∀ (I : Interaction) (w : ℝ) (s t : ℕ), s + n ≤ a → t + m ≤ b →
    predicted I.exit w probe' (toImg obj') (s, t) = predicted I.exit w probe (toImg obj) (s, t)

/-- The pixels `r0 + i, c0 + j` of an object for `i < c`, `j < d`, times `sin²(π i / (d - 1)) sin²(π j / (c - 1))`. -/
noncomputable def apodized (c d r0 c0 : ℕ) (w : Wave a b) : Wave c d := fun i j =>
  w ((r0 + i.val : ℕ) : ZMod a) ((c0 + j.val : ℕ) : ZMod b) *
    ((Real.sin (Real.pi * i.val / (d - 1)) ^ 2 * Real.sin (Real.pi * j.val / (c - 1)) ^ 2 : ℝ) : ℂ)

/-- The sum of the object over the window. -/
noncomputable def windowSum (c d r0 c0 : ℕ) (w : Wave a b) : ℂ :=
  ∑ i ∈ range c, ∑ j ∈ range d, w ((r0 + i : ℕ) : ZMod a) ((c0 + j : ℕ) : ZMod b)

/-! ### Lemmas -/

theorem hann_crop (r0 c0 : ℕ) (w : Wave a b) : hannWave (cropWave c d r0 c0 w) = apodized c d r0 c0 w := by
  funext i j
  simp [hannWave, cropWave, apodized, hannWindow]

theorem hann_abs_crop (r0 c0 : ℕ) (w : Wave a b) :
    hannWave (absWave (cropWave c d r0 c0 w)) = apodized c d r0 c0 fun i j => ((‖w i j‖ : ℝ) : ℂ) := by
  funext i j
  simp [hannWave, absWave, cropWave, apodized, hannWindow]

theorem predicted_toImg (im : Img ℂ) (hh : im.h = a) (hw : im.w = b) (w : ℝ) (probe : Fin (r + 1) → Wave n m) :
    (∀ tr : ℝ × ℝ, ReadsInside n m im (roundHalfEven tr.1) (roundHalfEven tr.2) →
      predicted roundExit w probe (toImg (ofImg im : Wave a b)) tr = predicted roundExit w probe im tr) ∧
    ∀ (I : Interaction) (s t : ℕ), s + n ≤ a → t + m ≤ b →
      predicted I.exit w probe (toImg (ofImg im : Wave a b)) (s, t) = predicted I.exit w probe im (s, t) := by
  have hv : ∀ i j : ℕ, i < a → j < b → (toImg (ofImg im : Wave a b)).px i j = im.px i j := by
    intro i j hi hj
    simp only [toImg, ofImg]
    rw [ZMod.val_cast_of_lt hi, ZMod.val_cast_of_lt hj]
  refine ⟨fun tr h => ?_, fun I s t hs ht => ?_⟩
  · have h' : ReadsInside n m (toImg (ofImg im : Wave a b)) (roundHalfEven tr.1) (roundHalfEven tr.2) :=
      ⟨h.1, by have := h.2; rw [hh] at this; exact this, h.3, by have := h.4; rw [hw] at this; exact this⟩
    rw [predicted_of_product (round_product h), predicted_of_product (round_product h')]
    have e : ∀ (i : ZMod n) (j : ZMod m), (toImg (ofImg im : Wave a b)).px ((roundHalfEven tr.1).toNat + i.val)
        ((roundHalfEven tr.2).toNat + j.val) = im.px ((roundHalfEven tr.1).toNat + i.val)
        ((roundHalfEven tr.2).toNat + j.val) := by
      intro i j
      have h2 := h'.2; have h4 := h'.4
      simp only [toImg] at h2 h4
      have := ZMod.val_lt i; have := ZMod.val_lt j; have := h.1; have := h.3
      exact hv _ _ (by omega) (by omega)
    simp only [e]
  · rw [predicted_of_product (integer_product I (obj := im) (by rw [hh]; exact hs) (by rw [hw]; exact ht)),
      predicted_of_product (integer_product I (obj := toImg (ofImg im : Wave a b)) hs ht)]
    have e : ∀ (i : ZMod n) (j : ZMod m), (toImg (ofImg im : Wave a b)).px (s + i.val) (t + j.val) =
        im.px (s + i.val) (t + j.val) := by
      intro i j
      have := ZMod.val_lt i; have := ZMod.val_lt j
      exact hv _ _ (by omega) (by omega)
    simp only [e]

/-- The gauge corrections of a set are those of a pair. -/
theorem setGauge_pairGauge {minimize : ((Fin 2 → ℝ) → ℝ) → (Fin 2 → ℝ) → (Fin 2 → ℝ)}
    {minimizeA : ((Fin 3 → ℝ) → ℝ) → (Fin 3 → ℝ) → (Fin 3 → ℝ)} {o : SetOpts} {keys : List String} {W : Win}
    {obj : Wave a b} {probe : Fin (r + 1) → Wave n m} {g : Img ℂ × (Fin (r + 1) → Wave n m)}
    (h : setGauge minimize minimizeA o keys W (toImg obj) probe = .ok g) :
    ((ofImg g.1 : Wave a b), g.2) = pairGauge minimize minimizeA o W obj probe := by
  unfold setGauge at h
  split at h
  · exact (nomatch h)
  · unfold pairGauge
    by_cases ho : o.amplitudeExponent = true
    · simp only [ho, if_true] at h ⊢
      cases hk : requireKeys keys ["weights", "basis", "translations"] with
      | error e => rw [hk] at h; simp [Except.map] at h
      | ok _ =>
        rw [hk] at h
        simp only [Except.map, Except.ok.injEq] at h
        rw [← h]
    · simp only [ho, Bool.false_eq_true, if_false, Except.map, Except.ok.injEq] at h ⊢
      rw [← h]

theorem crop_window (r0 c0 : ℕ) (hr : r0 + c ≤ a) (hc : c0 + d ≤ b) (im : Img ℂ) :
    (im.crop (winOf c d r0 c0)).total = windowSum c d r0 c0 (ofImg im : Wave a b) := by
  simp only [Img.total, Img.crop, winOf, windowSum, ofImg]
  refine sum_congr rfl fun i hi => sum_congr rfl fun j hj => ?_
  rw [mem_range] at hi hj
  rw [ZMod.val_cast_of_lt (show r0 + i < a by omega), ZMod.val_cast_of_lt (show c0 + j < b by omega)]

/-- What the corrections do to one reconstruction, without the amplitude correction. -/
theorem pairGauge_spec (minimize : ((Fin 2 → ℝ) → ℝ) → (Fin 2 → ℝ) → (Fin 2 → ℝ))
    (minimizeA : ((Fin 3 → ℝ) → ℝ) → (Fin 3 → ℝ) → (Fin 3 → ℝ)) (o : SetOpts) (ho : o.amplitudeExponent = false)
    (r0 c0 : ℕ) (hr : r0 + c ≤ a) (hc : c0 + d ≤ b) (obj : Wave a b) (probe : Fin (r + 1) → Wave n m) :
    let g := pairGauge minimize minimizeA o (winOf c d r0 c0) obj probe
    SamePredictions obj probe g.1 g.2 ∧ (∀ i j, ‖g.1 i j‖ = ‖obj i j‖) ∧ (∀ k i j, ‖g.2 k i j‖ = ‖probe k i j‖) ∧
    (o.phaseOffset = true → windowSum c d r0 c0 g.1 = (‖windowSum c d r0 c0 g.1‖ : ℂ)) := by
  intro g
  obtain ⟨im, pr, h1, h2, h3, h4⟩ := set_gauge_predictions minimize minimizeA o ho (winOf c d r0 c0) (toImg obj) probe
  have e := setGauge_pairGauge h1
  simp only at e
  have hg : g = ((ofImg im : Wave a b), pr) := e.symm
  have hsz : im.h = a ∧ im.w = b ∧ (∀ i j, ‖im.px i j‖ = ‖(toImg obj).px i j‖) ∧ ∀ k i j, ‖pr k i j‖ = ‖probe k i j‖ := by
    have hk : requireKeys fancySaveKeys ["obj", "probe", "weights"] = .ok () := by decide
    unfold setGauge at h1
    rw [hk] at h1
    simp only [ho, Bool.false_eq_true, if_false, Except.map, Except.ok.injEq, Prod.mk.injEq] at h1
    obtain ⟨e1, e2⟩ := h1
    have hp : ∀ q : Img ℂ × (Fin (r + 1) → Wave n m),
        q = (if o.phaseRamp then removePhaseRamp minimize (toImg obj) (winOf c d r0 c0) probe else (toImg obj, probe)) →
        q.1.h = a ∧ q.1.w = b ∧ (∀ i j, ‖q.1.px i j‖ = ‖(toImg obj).px i j‖) ∧ ∀ k i j, ‖q.2 k i j‖ = ‖probe k i j‖ := by
      rintro q rfl
      by_cases hr : o.phaseRamp = true
      · rw [if_pos hr]
        refine ⟨rfl, rfl, fun i j => ?_, fun k i j => ?_⟩
        · simp only [removePhaseRamp, rampObj]; rw [norm_mul, phaseRamp_norm, mul_one]
        · simp only [removePhaseRamp, rampProbe]; rw [norm_mul, phaseRamp_norm, mul_one]
      · rw [if_neg hr]
        exact ⟨rfl, rfl, fun _ _ => rfl, fun _ _ _ => rfl⟩
    obtain ⟨p1, p2, p3, p4⟩ := hp _ rfl
    rw [← e2]
    refine ⟨?_, ?_, ?_, p4⟩
    · rw [← e1]; split <;> exact p1
    · rw [← e1]; split <;> exact p2
    · rw [← e1]
      intro i j
      split
      · simp only [Img.map]; rw [unphase_norm]; exact p3 i j
      · exact p3 i j
  obtain ⟨hh, hw, m1, m2⟩ := hsz
  rw [hg]
  refine ⟨⟨fun w tr h => ?_, fun I w s t hs ht => ?_⟩, fun i j => ?_, m2, fun hf => ?_⟩
  · rw [← h2 w tr h]
    exact (predicted_toImg im hh hw w pr).1 tr ⟨h.1, by rw [hh]; exact h.2, h.3, by rw [hw]; exact h.4⟩
  · rw [← h3 I w s t hs ht]
    exact (predicted_toImg im hh hw w pr).2 I s t hs ht
  · simp only [ofImg]
    rw [m1]
    simp [toImg]
  · have := h4 hf
    rw [crop_window (a := a) (b := b) r0 c0 hr hc] at this
    exact this

theorem norm_one_mul_conj {u : ℂ} (hu : ‖u‖ = 1) : (starRingEnd ℂ) u * u = 1 := by
  rw [Complex.conj_mul', hu]; simp

theorem unphase_unit {u z : ℂ} (hu : ‖u‖ = 1) (hz : z ≠ 0) (y : ℂ) : unphase (u * z) (u * y) = unphase z y := by
  have hu' : u = Complex.exp (Complex.I * (Complex.arg u : ℝ)) := by
    have := Complex.norm_mul_exp_arg_mul_I u
    rw [hu, Complex.ofReal_one, one_mul] at this
    rw [mul_comm Complex.I]; exact this.symm
  have := unphase_mul (c := 1) one_pos (Complex.arg u) hz y
  rw [Complex.ofReal_one, one_mul, ← hu'] at this
  exact this

/-- Reconstructions that differ by phases are corrected in the same way. -/
theorem pairGauge_phase (minimize : ((Fin 2 → ℝ) → ℝ) → (Fin 2 → ℝ) → (Fin 2 → ℝ))
    (minimizeA : ((Fin 3 → ℝ) → ℝ) → (Fin 3 → ℝ) → (Fin 3 → ℝ)) (o : SetOpts) (r0 c0 : ℕ) (hr : r0 + c ≤ a)
    (hc : c0 + d ≤ b) (obj : Wave a b) (probe : Fin (r + 1) → Wave n m) {u : ℂ} (hu : ‖u‖ = 1) (v : Fin (r + 1) → ℂ) :
    let g := pairGauge minimize minimizeA o (winOf c d r0 c0) obj probe
    let g' := pairGauge minimize minimizeA o (winOf c d r0 c0) (fun i j => u * obj i j) (fun k i j => v k * probe k i j)
    (∀ k i j, g'.2 k i j = v k * g.2 k i j) ∧
    ∃ u' : ℂ, ‖u'‖ = 1 ∧ (∀ i j, g'.1 i j = u' * g.1 i j) ∧
      (o.phaseOffset = true → windowSum c d r0 c0 g.1 ≠ 0 → u' = 1) ∧ (u = 1 → u' = 1) := by
  intro g g'
  set W := winOf c d r0 c0 with hW
  let P : Img ℂ × (Fin (r + 1) → Wave n m) → Img ℂ × (Fin (r + 1) → Wave n m) := fun q =>
    (q.1.map (u * ·), fun k i j => v k * q.2 k i j)
  have h1 : ∀ (q : Img ℂ) (pr : Fin (r + 1) → Wave n m),
      removePhaseRamp minimize (P (q, pr)).1 W (P (q, pr)).2 = P (removePhaseRamp minimize q W pr) := by
    intro q pr
    have hcost : zeroFreqCost ((P (q, pr)).1.crop W) = zeroFreqCost (q.crop W) := by
      funext f
      unfold zeroFreqCost
      have : (Img.zip (· * ·) ⟨((P (q, pr)).1.crop W).h, ((P (q, pr)).1.crop W).w, phaseRamp (f 0) (f 1)⟩
          ((P (q, pr)).1.crop W)).total = u * (Img.zip (· * ·) ⟨(q.crop W).h, (q.crop W).w, phaseRamp (f 0) (f 1)⟩
          (q.crop W)).total := by
        simp only [Img.total, Img.zip, Img.crop, Img.map, P, mul_sum]
        exact sum_congr rfl fun i _ => sum_congr rfl fun j _ => by ring
      rw [this, norm_mul, hu, one_mul]
    simp only [removePhaseRamp, hcost]
    simp only [P, rampObj, rampProbe, Img.map, Prod.mk.injEq, Img.mk.injEq, true_and]
    refine ⟨?_, ?_⟩
    · funext i j; ring
    · funext k i j; exact mul_assoc _ _ _
  have h2 : ∀ (q : Img ℂ) (pr : Fin (r + 1) → Wave n m),
      removeAmplitudeExponent minimizeA (P (q, pr)).1 W (P (q, pr)).2 = P (removeAmplitudeExponent minimizeA q W pr) := by
    intro q pr
    have hfit : fitGrowth minimizeA (P (q, pr)).1 W = fitGrowth minimizeA q W := by
      have : ((P (q, pr)).1.crop W).map (fun z => ‖z‖) = (q.crop W).map fun z => ‖z‖ := by
        simp only [Img.map, Img.crop, P, norm_mul, hu, one_mul]
      unfold fitGrowth
      rw [this]
    simp only [removeAmplitudeExponent, hfit]
    simp only [P, decayObj, growProbe, Img.map, Prod.mk.injEq, Img.mk.injEq, true_and]
    refine ⟨?_, ?_⟩
    · funext i j; ring
    · funext k i j; exact mul_assoc _ _ _
  let chain : Wave a b → (Fin (r + 1) → Wave n m) → Img ℂ × (Fin (r + 1) → Wave n m) := fun ob pr =>
    let p := if o.phaseRamp then removePhaseRamp minimize (toImg ob) W pr else (toImg ob, pr)
    if o.amplitudeExponent then removeAmplitudeExponent minimizeA p.1 W p.2 else p
  have hchain : chain (fun i j => u * obj i j) (fun k i j => v k * probe k i j) = P (chain obj probe) := by
    simp only [chain]
    have hp : (if o.phaseRamp = true then removePhaseRamp minimize (toImg fun i j => u * obj i j) W
        (fun k i j => v k * probe k i j) else (toImg fun i j => u * obj i j, fun k i j => v k * probe k i j)) =
        P (if o.phaseRamp = true then removePhaseRamp minimize (toImg obj) W probe else (toImg obj, probe)) := by
      by_cases hr : o.phaseRamp = true
      · rw [if_pos hr, if_pos hr]; exact h1 (toImg obj) probe
      · rw [if_neg hr, if_neg hr]; rfl
    rw [hp]
    by_cases ha : o.amplitudeExponent = true
    · rw [if_pos ha, if_pos ha]; exact h2 _ _
    · rw [if_neg ha, if_neg ha]
  have eg : g = (ofImg (if o.phaseOffset then (chain obj probe).1.map (unphase ((chain obj probe).1.crop W).total)
      else (chain obj probe).1), (chain obj probe).2) := rfl
  have eg' : g' = (ofImg (if o.phaseOffset then (P (chain obj probe)).1.map
      (unphase ((P (chain obj probe)).1.crop W).total) else (P (chain obj probe)).1), (P (chain obj probe)).2) := by
    rw [← hchain]; rfl
  refine ⟨fun k i j => by rw [eg, eg'], ?_⟩
  have htot : ((P (chain obj probe)).1.crop W).total = u * ((chain obj probe).1.crop W).total := by
    simp only [P, Img.total, Img.crop, Img.map, mul_sum]
  by_cases hf : o.phaseOffset = true
  · by_cases hz : ((chain obj probe).1.crop W).total = 0
    · refine ⟨u, hu, fun i j => ?_, fun _ hne => ?_, id⟩
      · rw [eg, eg']
        simp only [hf, if_true]
        rw [htot, hz, mul_zero]
        have h0 : ∀ y, unphase 0 y = y := fun y => by simpa using unphase_real le_rfl y
        simp only [ofImg, Img.map, P, h0]
      · exfalso
        refine hne ?_
        rw [eg]
        simp only [hf, if_true]
        rw [← crop_window (a := a) (b := b) r0 c0 hr hc, ← hW,
          crop_map_total (unphase ((chain obj probe).1.crop W).total) _ W _ fun x => rfl, hz, zero_mul]
    · refine ⟨1, norm_one, fun i j => ?_, fun _ _ => rfl, fun _ => rfl⟩
      rw [eg, eg', one_mul]
      simp only [hf, if_true]
      rw [htot]
      simp only [ofImg, Img.map, P]
      exact unphase_unit hu hz _
  · refine ⟨u, hu, fun i j => ?_, fun h => absurd h hf, id⟩
    rw [eg, eg', if_neg hf, if_neg hf]
    rfl

/-! ### C107: pairs -/

section Pair
variable (la : LinAlg) (minimize : ((Fin 2 → ℝ) → ℝ) → (Fin 2 → ℝ) → (Fin 2 → ℝ))
  (minimizeA : ((Fin 3 → ℝ) → ℝ) → (Fin 3 → ℝ) → (Fin 3 → ℝ))

theorem standardizePair_inv {o : SetOpts} {r0 c0 : ℕ} {nbins probeNbins : Option ℕ} {limit : String} {d0 d1 p0 p1 : ℝ}
    {half1 half2 : SavedHalf r n m a b} {out : PairOut r n m a b}
    (h : standardizePair la minimize minimizeA o c d r0 c0 nbins probeNbins limit d0 d1 p0 p1 half1 half2 = .ok out) :
    let g1 := pairGauge minimize minimizeA o (winOf c d r0 c0) half1.obj half1.probe
    let g2 := pairGauge minimize minimizeA o (winOf c d r0 c0) half2.obj half2.probe
    ∃ s p : ℝ × ℝ, findShift 10 (apodized c d r0 c0 g1.1) (apodized c d r0 c0 g2.1) = .ok s ∧
      findShift 10 (g1.2 0) (g2.2 0) = .ok p ∧
      out.obj1 = g1.1 ∧ out.probe1 = g1.2 ∧ out.obj2 = sincShift g2.1 s.1 s.2 ∧
      (∀ k, out.probe2 k = sincShift (g2.2 k) p.1 p.2) ∧
      calcFrc nbins limit 1 d0 d1 (apodized c d r0 c0 out.obj1) (apodized c d r0 c0 out.obj2) = .ok out.frc ∧
      out.ssnr = out.frc.map (fun q => q.2.1.bind ssnrPair) ∧
      calcGeneralizedFrc la probeNbins limit 1 p0 p1 out.probe1 out.probe2 = .ok out.probeFrc ∧
      (out.nmse = if totalPower (flatten2 out.probe1) * totalPower (flatten2 out.probe2) = 0 then none
        else some (1 - calcFidelity la (flatten2 out.probe1) (flatten2 out.probe2) /
          (totalPower (flatten2 out.probe1) * totalPower (flatten2 out.probe2)))) ∧
      (out.nrms = if totalPower (flatten2 out.probe1) = 0 then none
        else some (generalizedRms la true (flatten2 out.probe1) (flatten2 out.probe2))) ∧
      out.weights1 = half1.weights ∧ out.translations1 = half1.translations ∧ out.background1 = half1.background ∧
      out.weights2 = half2.weights ∧ out.translations2 = half2.translations ∧ out.background2 = half2.background ∧
      out.callerProbe2 = if o.phaseRamp || o.amplitudeExponent then half2.probe else out.probe2 := by
  intro g1 g2
  have hpow : ∀ P : Fin (r + 1) → Wave n m, totalPower (flatten2 P) = ∑ k, ∑ i, ∑ j, ‖P k i j‖ ^ 2 := by
    intro P
    unfold totalPower flatten2
    simp only [Matrix.of_apply]
    exact sum_congr rfl fun k _ => sum_flat fun i j => ‖P k i j‖ ^ 2
  simp only [hpow]
  unfold standardizePair at h
  simp only at h
  split at h
  · exact (nomatch h)
  split at h
  · exact (nomatch h)
  split at h
  · exact (nomatch h)
  rename_i s hs
  split at h
  · exact (nomatch h)
  rename_i p hp
  split at h
  · exact (nomatch h)
  rename_i frc hf
  split at h
  · exact (nomatch h)
  rename_i pf hpf
  obtain rfl := Except.ok.inj h
  rw [hann_crop, hann_crop] at hs hf
  exact ⟨s, p, hs, hp, rfl, rfl, rfl, fun _ => rfl, hf, rfl, hpf, rfl, rfl, rfl, rfl, rfl, rfl, rfl, rfl, rfl⟩

/-- **C107** (pairs, what is returned): without the amplitude correction, both reconstructions are first replaced by ones
with the same predictions and the same moduli; the second object is then moved as a whole by the shift found between
the apodized windows, and all modes of the second probe by the one shift found between the first modes. The reported FRC
and errors are those of the returned objects and probes, weights, translations and backgrounds are copies of the inputs,
and with `correct_phase_offset` the first object has a non-negative sum over the window. -/
theorem pair_result {o : SetOpts} (ho : o.amplitudeExponent = false) {r0 c0 : ℕ} (hr : r0 + c ≤ a) (hc : c0 + d ≤ b)
    {nbins probeNbins : Option ℕ} {limit : String} {d0 d1 p0 p1 : ℝ} {half1 half2 : SavedHalf r n m a b}
    {out : PairOut r n m a b}
    (h : standardizePair la minimize minimizeA o c d r0 c0 nbins probeNbins limit d0 d1 p0 p1 half1 half2 = .ok out) :
    SamePredictions half1.obj half1.probe out.obj1 out.probe1 ∧ (∀ i j, ‖out.obj1 i j‖ = ‖half1.obj i j‖) ∧
    (∀ k i j, ‖out.probe1 k i j‖ = ‖half1.probe k i j‖) ∧
    (o.phaseOffset = true → windowSum c d r0 c0 out.obj1 = (‖windowSum c d r0 c0 out.obj1‖ : ℂ)) ∧
    (∃ (obj2 : Wave a b) (probe2 : Fin (r + 1) → Wave n m) (s p : ℝ × ℝ),
      SamePredictions half2.obj half2.probe obj2 probe2 ∧ (∀ i j, ‖obj2 i j‖ = ‖half2.obj i j‖) ∧
      (∀ k i j, ‖probe2 k i j‖ = ‖half2.probe k i j‖) ∧
      (o.phaseOffset = true → windowSum c d r0 c0 obj2 = (‖windowSum c d r0 c0 obj2‖ : ℂ)) ∧
      findShift 10 (apodized c d r0 c0 out.obj1) (apodized c d r0 c0 obj2) = .ok s ∧
      findShift 10 (out.probe1 0) (probe2 0) = .ok p ∧
      out.obj2 = sincShift obj2 s.1 s.2 ∧ ∀ k, out.probe2 k = sincShift (probe2 k) p.1 p.2) ∧
    calcFrc nbins limit 1 d0 d1 (apodized c d r0 c0 out.obj1) (apodized c d r0 c0 out.obj2) = .ok out.frc ∧
    calcGeneralizedFrc la probeNbins limit 1 p0 p1 out.probe1 out.probe2 = .ok out.probeFrc ∧
    out.weights1 = half1.weights ∧ out.translations1 = half1.translations ∧ out.background1 = half1.background ∧
    out.weights2 = half2.weights ∧ out.translations2 = half2.translations ∧ out.background2 = half2.background := by
  obtain ⟨s, p, hs, hp, e1, e2, e3, e4, hf, -, hg, -, -, w1, t1, b1, w2, t2, b2, -⟩ :=
    standardizePair_inv la minimize minimizeA h
  obtain ⟨a1, a2, a3, a4⟩ := pairGauge_spec minimize minimizeA o ho r0 c0 hr hc half1.obj half1.probe
  obtain ⟨q1, q2, q3, q4⟩ := pairGauge_spec minimize minimizeA o ho r0 c0 hr hc half2.obj half2.probe
  rw [← e1, ← e2] at a1
  rw [← e1] at a2 a4 hs
  rw [← e2] at a3 hp
  exact ⟨a1, a2, a3, a4, ⟨_, _, s, p, q1, q2, q3, q4, hs, hp, e3, e4⟩, hf, hg, w1, t1, b1, w2, t2, b2⟩

/-- **C107** (pairs, ranges): whatever the inputs and options, every reported FRC value has modulus at most 1, the signal-to-noise
ratios are non-negative and equal `|f| / (1 - |f|)` of the FRC, the probe FRC lies between 0 and 1, so does the normalized
mean square error of the probes, and the normalized r.m.s. error is non-negative. -/
theorem pair_ranges {o : SetOpts} {r0 c0 : ℕ} {nbins probeNbins : Option ℕ} {limit : String} {d0 d1 p0 p1 : ℝ}
    {half1 half2 : SavedHalf r n m a b} {out : PairOut r n m a b}
    (h : standardizePair la minimize minimizeA o c d r0 c0 nbins probeNbins limit d0 d1 p0 p1 half1 half2 = .ok out) :
    (∀ q ∈ out.frc, ∀ x, q.2.1 = some x → ‖x‖ ≤ 1) ∧
    (out.ssnr.length = out.frc.length ∧ ∀ i (h1 : i < out.ssnr.length) (h2 : i < out.frc.length), ∀ y,
      out.ssnr[i] = some y → 0 ≤ y ∧ ∃ x, out.frc[i].2.1 = some x ∧ ‖x‖ < 1 ∧ y = ‖x‖ / (1 - ‖x‖)) ∧
    (∀ q ∈ out.probeFrc, ∀ x, q.2.1 = some x → 0 ≤ x ∧ x ≤ 1) ∧
    (∀ x, out.nmse = some x → 0 ≤ x ∧ x ≤ 1) ∧ ∀ x, out.nrms = some x → 0 ≤ x := by
  obtain ⟨s, p, -, -, -, -, -, -, hf, hss, hg, hm, hn, -⟩ := standardizePair_inv la minimize minimizeA h
  have hF : ∀ q ∈ out.frc, ∀ x, q.2.1 = some x → ‖x‖ ≤ 1 := by
    intro q hq x hx
    unfold calcFrc at hf
    simp only at hf
    split at hf
    · split at hf
      · exact (nomatch hf)
      · obtain e := Except.ok.inj hf
        rw [← e, List.mem_map] at hq
        obtain ⟨i, -, rfl⟩ := hq
        exact frc_bounded hx
    · exact (nomatch hf)
  refine ⟨hF, ⟨by rw [hss]; simp, fun i h1 h2 y hy => ?_⟩, ?_, ?_, ?_⟩
  · simp only [hss, List.getElem_map] at hy
    rw [Option.bind_eq_some_iff] at hy
    obtain ⟨x, hx, hy⟩ := hy
    have hb := hF _ (List.getElem_mem h2) x hx
    unfold ssnrPair at hy
    split at hy
    · exact (nomatch hy)
    · rename_i hne
      have hlt : ‖x‖ < 1 := lt_of_le_of_ne hb fun e => hne (by rw [e]; ring)
      have := Option.some.inj hy
      exact ⟨by rw [← this]; exact div_nonneg (norm_nonneg _) (by linarith), x, hx, hlt, this.symm⟩
  · intro q hq x hx
    unfold calcGeneralizedFrc at hg
    split at hg
    · exact (nomatch hg)
    · split at hg
      · split at hg
        · exact (nomatch hg)
        · obtain e := Except.ok.inj hg
          rw [← e, List.mem_map] at hq
          obtain ⟨i, -, rfl⟩ := hq
          exact gen_frc_range la hx
      · exact (nomatch hg)
  · intro x hx
    rw [hm] at hx
    split at hx
    · exact (nomatch hx)
    · rename_i hne
      have hpos := lt_of_le_of_ne (mul_nonneg (totalPower_nonneg (flatten2 out.probe1))
        (totalPower_nonneg (flatten2 out.probe2))) (Ne.symm hne)
      obtain ⟨l1, l2⟩ := fidelity_range la (flatten2 out.probe1) (flatten2 out.probe2)
      have := Option.some.inj hx
      rw [← this]
      have h1 := div_nonneg l1 hpos.le
      have h2 := (div_le_one hpos).2 l2
      constructor <;> linarith
  · intro x hx
    rw [hn] at hx
    split at hx
    · exact (nomatch hx)
    · have := Option.some.inj hx
      rw [← this]
      exact Real.sqrt_nonneg _

theorem flatten2_phase (P : Fin (r + 1) → Wave n m) (v : Fin (r + 1) → ℂ) :
    flatten2 (fun k i j => v k * P k i j) = Matrix.diagonal v * flatten2 P := by
  ext k x
  rw [Matrix.diagonal_mul]
  rfl

theorem diagonal_unit {v : Fin (r + 1) → ℂ} (hv : ∀ k, ‖v k‖ = 1) :
    (Matrix.diagonal v).conjTranspose * Matrix.diagonal v = 1 := by
  rw [Matrix.diagonal_conjTranspose, Matrix.diagonal_mul_diagonal, ← Matrix.diagonal_one]
  congr 1
  funext k
  exact norm_one_mul_conj (hv k)

/-- **C107** (pairs, repeats): for two reconstructions that differ only by a global phase of the object and phases of the probe
modes, in windows and probes of at least 30 × 30 pixels, any options and any minimizers: nothing is moved, the two returned
reconstructions again differ by phases only (with `correct_phase_offset` and an object whose window does not sum to zero the
two objects are equal), every FRC value that is defined has modulus 1 (is 1 for equal objects), every SSNR is infinite
(`none`: division by zero), the defined probe FRC values are 1, and both probe errors vanish unless the probe does. -/
theorem pair_repeats (o : SetOpts) (r0 c0 : ℕ) (hr : r0 + c ≤ a) (hc : c0 + d ≤ b) (hw : 30 ≤ c ∧ 30 ≤ d)
    (hp : 30 ≤ n ∧ 30 ≤ m) {nb pnb : ℕ} (hnb : 0 < nb) (hpnb : 0 < pnb) {limit : String}
    (hl : limit = "side" ∨ limit = "corner") (d0 d1 p0 p1 : ℝ) {half1 half2 : SavedHalf r n m a b}
    (hk1 : half1.keys = fancySaveKeys) (hk2 : half2.keys = fancySaveKeys) {u : ℂ} (hu : ‖u‖ = 1) {v : Fin (r + 1) → ℂ}
    (hv : ∀ k, ‖v k‖ = 1) (hobj : half2.obj = fun i j => u * half1.obj i j)
    (hprobe : half2.probe = fun k i j => v k * half1.probe k i j) :
    ∃ out, standardizePair la minimize minimizeA o c d r0 c0 (some nb) (some pnb) limit d0 d1 p0 p1 half1 half2 = .ok out ∧
      (∃ u' : ℂ, ‖u'‖ = 1 ∧ (∀ i j, out.obj2 i j = u' * out.obj1 i j) ∧
        (o.phaseOffset = true → windowSum c d r0 c0 out.obj1 ≠ 0 → u' = 1) ∧
        out.frc.length = nb ∧ ∀ q ∈ out.frc, ∀ x, q.2.1 = some x → ‖x‖ = 1 ∧ (u' = 1 → x = 1)) ∧
      (∀ k i j, out.probe2 k i j = v k * out.probe1 k i j) ∧
      (∀ s ∈ out.ssnr, s = none) ∧
      (out.probeFrc.length = pnb ∧ ∀ q ∈ out.probeFrc, ∀ x, q.2.1 = some x → x = 1) ∧
      ((∃ k i j, out.probe1 k i j ≠ 0) → out.nmse = some 0 ∧ out.nrms = some 0) := by
  obtain ⟨gp, u', hu', go, hone, -⟩ := pairGauge_phase minimize minimizeA o r0 c0 hr hc half1.obj half1.probe hu v
  rw [← hobj, ← hprobe] at gp go
  set g1 := pairGauge minimize minimizeA o (winOf c d r0 c0) half1.obj half1.probe with hg1
  set g2 := pairGauge minimize minimizeA o (winOf c d r0 c0) half2.obj half2.probe with hg2
  have hcopy : ∀ {x y : ℕ} [NeZero x] [NeZero y] (_ : 30 ≤ x ∧ 30 ≤ y) (z : ℂ) (_ : ‖z‖ = 1) (w w' : Wave x y),
      (∀ i j, w' i j = z * w i j) → findShift 10 w w' = .ok (0, 0) := by
    intro x y _ _ hxy z hz w w' h
    have hz0 : z ≠ 0 := by intro e; rw [e] at hz; simp at hz
    have := find_shift_copy hxy.1 hxy.2 10 w' ((starRingEnd ℂ) z) (by simpa using hz0)
    have e : (fun i j => (starRingEnd ℂ) z * w' i j) = w := by
      funext i j
      rw [h, ← mul_assoc, norm_one_mul_conj hz, one_mul]
    rwa [e] at this
  have hs : findShift 10 (hannWave (cropWave c d r0 c0 g1.1)) (hannWave (cropWave c d r0 c0 g2.1)) = .ok (0, 0) := by
    refine hcopy hw u' hu' _ _ fun i j => ?_
    simp only [hannWave, cropWave]
    rw [go]; ring
  have hps : findShift 10 (g1.2 0) (g2.2 0) = .ok (0, 0) := hcopy hp (v 0) (hv 0) _ _ (gp 0)
  obtain ⟨rows, hrows, hlen, hval⟩ := (calc_frc_result (some nb) limit 1 d0 d1 (hannWave (cropWave c d r0 c0 g1.1))
    (hannWave (cropWave c d r0 c0 g2.1))).2.2 nb hl hnb (Or.inl rfl)
  obtain ⟨prows, hprows, hplen, hpval⟩ := (gen_frc_result la (some pnb) limit 1 p0 p1 g1.2 g2.2).2.2.2 pnb hpnb rfl hl
  have hkeys1 : requireKeys half1.keys (["obj", "probe", "weights"] ++
      (if o.amplitudeExponent then ["obj_basis", "translations"] else []) ++ ["translations", "background"] ++
      ["obj_basis", "probe_basis", "wavelength"]) = .ok () := by
    rw [hk1]; cases o.amplitudeExponent <;> decide
  have hkeys2 : requireKeys half2.keys (["obj", "probe", "weights"] ++
      (if o.amplitudeExponent then ["obj_basis", "translations"] else []) ++ ["translations", "background"]) = .ok () := by
    rw [hk2]; cases o.amplitudeExponent <;> decide
  have hret : ∃ out, standardizePair la minimize minimizeA o c d r0 c0 (some nb) (some pnb) limit d0 d1 p0 p1 half1 half2 =
      .ok out ∧ out.frc = rows ∧ out.probeFrc = prows ∧ out.obj2 = g2.1 ∧ out.probe2 = g2.2 := by
    unfold standardizePair
    simp only
    rw [hkeys1, hkeys2]
    simp only
    rw [← hg1, ← hg2, hs, hps]
    simp only [sincShift_zero]
    rw [hrows, hprows]
    exact ⟨_, rfl, rfl, rfl, rfl, rfl⟩
  obtain ⟨out, hout, hfr, hpf, ho2, hp2⟩ := hret
  obtain ⟨s, p, -, -, e1, e2, -, -, -, hss, -, hm, hn, -⟩ := standardizePair_inv la minimize minimizeA hout
  rw [← hg1] at e1 e2
  have hF : ∀ q ∈ out.frc, ∀ x, q.2.1 = some x → ‖x‖ = 1 ∧ (u' = 1 → x = 1) := by
    intro q hq x hx
    rw [hfr] at hq
    obtain ⟨i, hi, rfl⟩ := List.mem_iff_getElem.1 hq
    rw [(hval i hi).1] at hx
    have hu0 : u' ≠ 0 := by intro e; rw [e] at hu'; simp at hu'
    have e : hannWave (cropWave c d r0 c0 g2.1) = fun i j => hannWave (cropWave c d r0 c0 g1.1) i j * u' := by
      funext i j
      simp only [hannWave, cropWave]
      rw [go]; ring
    rw [e] at hx
    have := frc_proportional _ _ _ _ _ _ hu0 hx
    rw [hu', Complex.ofReal_one, div_one] at this
    refine ⟨by rw [this, Complex.norm_conj, hu'], fun h => by rw [this, h, map_one]⟩
  have hflat : flatten2 out.probe2 = Matrix.diagonal v * flatten2 out.probe1 := by
    rw [← flatten2_phase, hp2, e2]
    congr 1
    funext k i j
    exact gp k i j
  have hdm : densityMatrix (flatten2 out.probe2) = densityMatrix (flatten2 out.probe1) := by
    rw [hflat]; exact densityMatrix_mix _ (diagonal_unit hv) _
  have hpw : totalPower (flatten2 out.probe2) = totalPower (flatten2 out.probe1) := by
    rw [hflat]; exact totalPower_mix _ (diagonal_unit hv) _
  refine ⟨out, hout, ⟨u', hu', fun i j => by rw [ho2, e1]; exact go i j, ?_, by rw [hfr, hlen], hF⟩,
    fun k i j => by rw [hp2, e2]; exact gp k i j, ?_, ⟨by rw [hpf, hplen], ?_⟩, ?_⟩
  · rw [e1]; exact hone
  · intro s hs
    rw [hss, List.mem_map] at hs
    obtain ⟨q, hq, rfl⟩ := hs
    cases hx : q.2.1 with
    | none => rfl
    | some x =>
      simp only [Option.bind_some, ssnrPair]
      rw [if_pos]
      rw [(hF q hq x hx).1]; ring
  · intro q hq x hx
    rw [hpf] at hq
    obtain ⟨i, hi, rfl⟩ := List.mem_iff_getElem.1 hq
    rw [(hpval i hi).2] at hx
    have e : g2.2 = fun k => fun i j => ∑ l, Matrix.diagonal v k l * g1.2 l i j := by
      funext k i j
      rw [gp, Fintype.sum_eq_single k]
      · rw [Matrix.diagonal_apply_eq]
      · intro l hl
        rw [Matrix.diagonal_apply_ne _ (Ne.symm hl), zero_mul]
    have e' : g1.2 = fun k => fun i j => ∑ l, (1 : Matrix (Fin (r + 1)) (Fin (r + 1)) ℂ) k l * g1.2 l i j := by
      funext k i j
      rw [Fintype.sum_eq_single k]
      · rw [Matrix.one_apply_eq, one_mul]
      · intro l hl
        rw [Matrix.one_apply_ne (Ne.symm hl), zero_mul]
    have hmix := gen_frc_mode_mixing la la (1 : Matrix (Fin (r + 1)) (Fin (r + 1)) ℂ) (by simp) (Matrix.diagonal v)
      (diagonal_unit hv) pnb (limit = "corner") p0 p1 g1.2 g1.2 i
    rw [← e, ← e'] at hmix
    rw [hmix] at hx
    rcases gen_frc_self la pnb (limit = "corner") p0 p1 g1.2 i with h0 | h0
    · rw [h0] at hx; exact (nomatch hx)
    · rw [h0] at hx; exact (Option.some.inj hx).symm
  · rintro ⟨k, i, j, hne⟩
    have hpos : totalPower (flatten2 out.probe1) ≠ 0 := by
      intro h0
      have := totalPower_eq_zero h0
      have hx : flatten2 out.probe1 k (flat n m (i, j)) = 0 := by rw [this]; rfl
      simp only [flatten2, Matrix.of_apply, Equiv.symm_apply_apply] at hx
      exact hne hx
    have hself := fidelity_self la (pixels_pos (n := n) (m := m)) (flatten2 out.probe1)
    have hfid : calcFidelity la (flatten2 out.probe1) (flatten2 out.probe2) = totalPower (flatten2 out.probe1) ^ 2 := by
      rw [fidelity_invariant la la rfl hdm, ← hself, Real.sq_sqrt (fidelity_range la _ _).1]
    refine ⟨?_, ?_⟩
    · rw [hm, hpw, if_neg (mul_ne_zero hpos hpos), hfid, pow_two, div_self (mul_ne_zero hpos hpos), sub_self]
    · rw [hn, if_neg hpos, generalized_rms_invariant la la true rfl hdm]
      have h0 := (generalized_rms_zero_iff la (pixels_pos (n := n) (m := m)) (flatten2 out.probe1) (flatten2 out.probe1)).2 rfl
      unfold generalizedRms at h0
      rw [Real.sqrt_eq_zero (generalized_rms_nonneg la false _ _)] at h0
      unfold generalizedRms
      have : generalizedRmsSq la true (flatten2 out.probe1) (flatten2 out.probe1) = 0 := by
        unfold generalizedRmsSq at h0 ⊢
        simp only [Bool.false_eq_true, if_false, if_true] at h0 ⊢
        rw [h0, zero_div]
      rw [this, Real.sqrt_zero]

/-- **C107** (pairs, probes): without the ramp and amplitude corrections, if every mode of the second probe is the corresponding
mode of the first one, rolled by one vector of whole pixels (and the first mode has no vanishing Fourier coefficient), the
returned probes are equal. -/
theorem pair_probes_aligned {o : SetOpts} (ho : o.amplitudeExponent = false) (hramp : o.phaseRamp = false) {r0 c0 : ℕ}
    (hp : 30 ≤ n ∧ 30 ≤ m) {nbins probeNbins : Option ℕ} {limit : String} {d0 d1 p0 p1 : ℝ}
    {half1 half2 : SavedHalf r n m a b} {out : PairOut r n m a b}
    (h : standardizePair la minimize minimizeA o c d r0 c0 nbins probeNbins limit d0 d1 p0 p1 half1 half2 = .ok out)
    (s0 s1 : ℤ) (h0 : -((n / 2 : ℕ) : ℤ) ≤ s0 ∧ s0 < (n : ℤ) - ((n / 2 : ℕ) : ℤ))
    (h1 : -((m / 2 : ℕ) : ℤ) ≤ s1 ∧ s1 < (m : ℤ) - ((m / 2 : ℕ) : ℤ))
    (hroll : ∀ k i j, half1.probe k i j = half2.probe k (i - (s0 : ZMod n)) (j - (s1 : ZMod m)))
    (hw : ∀ k l, fft2 (half2.probe 0) k l ≠ 0) : out.probe1 = half1.probe ∧ out.probe2 = half1.probe := by
  obtain ⟨s, p, -, hps, -, e2, -, e4, -⟩ := standardizePair_inv la minimize minimizeA h
  have hg : ∀ (obj : Wave a b) (pr : Fin (r + 1) → Wave n m),
      (pairGauge minimize minimizeA o (winOf c d r0 c0) obj pr).2 = pr := by
    intro obj pr
    simp [pairGauge, ho, hramp]
  rw [hg] at e2
  simp only [hg] at e4
  rw [hg, hg] at hps
  have := find_shift_partial hp.1 hp.2 10 (half2.probe 0) s0 s1 1 one_ne_zero hw h0 h1
  have e : (fun i j => 1 * half2.probe 0 (i - (s0 : ZMod n)) (j - (s1 : ZMod m))) = half1.probe 0 := by
    funext i j; rw [one_mul, hroll]
  rw [e, hps] at this
  obtain rfl := Except.ok.inj this
  refine ⟨e2, ?_⟩
  funext k
  rw [e4 k]
  simp only
  rw [integer_shift_is_roll]
  funext i j
  exact (hroll k i j).symm

/-- **C107** (pairs, the caller's data): the array `half_2['probe']` is left alone when one of the two corrections of the
probe is requested; without them it holds the shifted probe afterwards. -/
theorem pair_caller_probe {o : SetOpts} {r0 c0 : ℕ} {nbins probeNbins : Option ℕ} {limit : String} {d0 d1 p0 p1 : ℝ}
    {half1 half2 : SavedHalf r n m a b} {out : PairOut r n m a b}
    (h : standardizePair la minimize minimizeA o c d r0 c0 nbins probeNbins limit d0 d1 p0 p1 half1 half2 = .ok out) :
    ((o.phaseRamp = true ∨ o.amplitudeExponent = true) → out.callerProbe2 = half2.probe) ∧
    (o.phaseRamp = false → o.amplitudeExponent = false → out.callerProbe2 = out.probe2) := by
  obtain ⟨s, p, -, -, -, -, -, -, -, -, -, -, -, -, -, -, -, -, -, e⟩ := standardizePair_inv la minimize minimizeA h
  rw [e]
  refine ⟨fun h => if_pos (by simpa using h), fun h1 h2 => if_neg (by simp [h1, h2])⟩

/-- **C107 is violated** for small windows: with 2 to 29 rows or columns in the window, `standardize_reconstruction_pair` raises
for every pair of saved reconstructions and all options. -/
theorem pair_small_window_violated (o : SetOpts) (r0 c0 : ℕ) (h2 : 2 ≤ c ∧ 2 ≤ d) (hs : c < 30 ∨ d < 30)
    (nbins probeNbins : Option ℕ) (limit : String) (d0 d1 p0 p1 : ℝ) (half1 half2 : SavedHalf r n m a b) :
    ∃ e, standardizePair la minimize minimizeA o c d r0 c0 nbins probeNbins limit d0 d1 p0 p1 half1 half2 = .error e := by
  cases h : standardizePair la minimize minimizeA o c d r0 c0 nbins probeNbins limit d0 d1 p0 p1 half1 half2 with
  | error e => exact ⟨e, rfl⟩
  | ok out =>
    obtain ⟨s, p, hs', -⟩ := standardizePair_inv la minimize minimizeA h
    rw [find_shift_small_violated h2 hs 10 (by norm_num)] at hs'
    exact (nomatch hs')

/-- **C107 is violated** for small probes: with 2 to 29 rows or columns in the probe it always raises, too. -/
theorem pair_small_probe_violated (o : SetOpts) (r0 c0 : ℕ) (h2 : 2 ≤ n ∧ 2 ≤ m) (hs : n < 30 ∨ m < 30)
    (nbins probeNbins : Option ℕ) (limit : String) (d0 d1 p0 p1 : ℝ) (half1 half2 : SavedHalf r n m a b) :
    ∃ e, standardizePair la minimize minimizeA o c d r0 c0 nbins probeNbins limit d0 d1 p0 p1 half1 half2 = .error e := by
  cases h : standardizePair la minimize minimizeA o c d r0 c0 nbins probeNbins limit d0 d1 p0 p1 half1 half2 with
  | error e => exact ⟨e, rfl⟩
  | ok out =>
    obtain ⟨s, p, -, hs', -⟩ := standardizePair_inv la minimize minimizeA h
    rw [find_shift_small_violated h2 hs 10 (by norm_num)] at hs'
    exact (nomatch hs')

end Pair

/-! ### C107: sets -/

section Set
variable (minimize : ((Fin 2 → ℝ) → ℝ) → (Fin 2 → ℝ) → (Fin 2 → ℝ))
  (minimizeA : ((Fin 3 → ℝ) → ℝ) → (Fin 3 → ℝ) → (Fin 3 → ℝ))

theorem standardizeSet_inv {o : SetOpts} {r0 c0 : ℕ} {nbins : Option ℕ} {limit : String} {d0 d1 : ℝ}
    {half1 half2 full : SavedHalf r n m a b} {out : SetOut r n m a b}
    (h : standardizeSet minimize minimizeA o c d r0 c0 nbins limit d0 d1 half1 half2 full = .ok out) :
    let g1 := pairGauge minimize minimizeA o (winOf c d r0 c0) half1.obj half1.probe
    let g2 := pairGauge minimize minimizeA o (winOf c d r0 c0) half2.obj half2.probe
    let g := pairGauge minimize minimizeA o (winOf c d r0 c0) full.obj full.probe
    ∃ s1 s2 : ℝ × ℝ,
      findShift 10 (apodized c d r0 c0 fun i j => ((‖g.1 i j‖ : ℝ) : ℂ))
        (apodized c d r0 c0 fun i j => ((‖g1.1 i j‖ : ℝ) : ℂ)) = .ok s1 ∧
      findShift 10 (apodized c d r0 c0 fun i j => ((‖g.1 i j‖ : ℝ) : ℂ))
        (apodized c d r0 c0 fun i j => ((‖g2.1 i j‖ : ℝ) : ℂ)) = .ok s2 ∧
      out.half1 = ⟨sincShift g1.1 s1.1 s1.2, g1.2, half1.weights, half1.translations, half1.background⟩ ∧
      out.half2 = ⟨sincShift g2.1 s2.1 s2.2, g2.2, half2.weights, half2.translations, half2.background⟩ ∧
      out.full = ⟨g.1, g.2, full.weights, full.translations, full.background⟩ ∧
      calcFrc nbins limit 1 d0 d1 (apodized c d r0 c0 out.half1.obj) (apodized c d r0 c0 out.half2.obj) = .ok out.frc ∧
      out.ssnr = out.frc.map (fun q => q.2.1.bind ssnrSet) := by
  intro g1 g2 g
  unfold standardizeSet at h
  split at h
  · exact (nomatch h)
  rename_i q1 hq1
  split at h
  · exact (nomatch h)
  rename_i q2 hq2
  split at h
  · exact (nomatch h)
  rename_i q hq
  have e1 : ((ofImg q1.1 : Wave a b), q1.2) = g1 := setGauge_pairGauge hq1
  have e2 : ((ofImg q2.1 : Wave a b), q2.2) = g2 := setGauge_pairGauge hq2
  have e : ((ofImg q.1 : Wave a b), q.2) = g := setGauge_pairGauge hq
  simp only at h
  split at h
  · exact (nomatch h)
  rename_i s1 hs1
  split at h
  · exact (nomatch h)
  rename_i s2 hs2
  split at h
  · exact (nomatch h)
  rename_i frc hf
  split at h
  · obtain rfl := Except.ok.inj h
    rw [hann_abs_crop, hann_abs_crop] at hs1 hs2
    rw [hann_crop, hann_crop] at hf
    rw [← e1, ← e2, ← e]
    exact ⟨s1, s2, hs1, hs2, rfl, rfl, rfl, hf, rfl⟩
  all_goals exact (nomatch h)

/-- **C107** (sets, what is returned): without the amplitude correction, all three reconstructions are first replaced by ones with
the same predictions and the same moduli (the full one is returned like that); the objects of the two halves are then moved
as a whole, by the shift found between the apodized windows of the moduli. The reported FRC is that of the returned
objects, the SSNR is `2 |f| / (1 - |f|)`, and weights, translations and backgrounds are copies of the inputs. -/
theorem set_result {o : SetOpts} (ho : o.amplitudeExponent = false) {r0 c0 : ℕ} (hr : r0 + c ≤ a) (hc : c0 + d ≤ b)
    {nbins : Option ℕ} {limit : String} {d0 d1 : ℝ} {half1 half2 full : SavedHalf r n m a b} {out : SetOut r n m a b}
    (h : standardizeSet minimize minimizeA o c d r0 c0 nbins limit d0 d1 half1 half2 full = .ok out) :
    SamePredictions full.obj full.probe out.full.obj out.full.probe ∧
    (o.phaseOffset = true → windowSum c d r0 c0 out.full.obj = (‖windowSum c d r0 c0 out.full.obj‖ : ℂ)) ∧
    (∃ (obj : Wave a b) (s : ℝ × ℝ), SamePredictions half1.obj half1.probe obj out.half1.probe ∧
      (∀ i j, ‖obj i j‖ = ‖half1.obj i j‖) ∧
      (o.phaseOffset = true → windowSum c d r0 c0 obj = (‖windowSum c d r0 c0 obj‖ : ℂ)) ∧
      findShift 10 (apodized c d r0 c0 fun i j => ((‖full.obj i j‖ : ℝ) : ℂ))
        (apodized c d r0 c0 fun i j => ((‖half1.obj i j‖ : ℝ) : ℂ)) = .ok s ∧ out.half1.obj = sincShift obj s.1 s.2) ∧
    (∃ (obj : Wave a b) (s : ℝ × ℝ), SamePredictions half2.obj half2.probe obj out.half2.probe ∧
      (∀ i j, ‖obj i j‖ = ‖half2.obj i j‖) ∧
      (o.phaseOffset = true → windowSum c d r0 c0 obj = (‖windowSum c d r0 c0 obj‖ : ℂ)) ∧
      findShift 10 (apodized c d r0 c0 fun i j => ((‖full.obj i j‖ : ℝ) : ℂ))
        (apodized c d r0 c0 fun i j => ((‖half2.obj i j‖ : ℝ) : ℂ)) = .ok s ∧ out.half2.obj = sincShift obj s.1 s.2) ∧
    calcFrc nbins limit 1 d0 d1 (apodized c d r0 c0 out.half1.obj) (apodized c d r0 c0 out.half2.obj) = .ok out.frc ∧
    (out.ssnr.length = out.frc.length ∧ ∀ i (h1 : i < out.ssnr.length) (h2 : i < out.frc.length), ∀ y,
      out.ssnr[i] = some y → ∃ x, out.frc[i].2.1 = some x ∧ ‖x‖ < 1 ∧ y = 2 * ‖x‖ / (1 - ‖x‖)) ∧
    (out.half1.weights = half1.weights ∧ out.half2.weights = half2.weights ∧ out.full.weights = full.weights) ∧
    (out.half1.translations = half1.translations ∧ out.half2.translations = half2.translations ∧
      out.full.translations = full.translations) ∧
    (out.half1.background = half1.background ∧ out.half2.background = half2.background ∧
      out.full.background = full.background) := by
  obtain ⟨s1, s2, hs1, hs2, e1, e2, e, hf, hss⟩ := standardizeSet_inv minimize minimizeA h
  obtain ⟨a1, a2, a3, a4⟩ := pairGauge_spec minimize minimizeA o ho r0 c0 hr hc half1.obj half1.probe
  obtain ⟨q1, q2, q3, q4⟩ := pairGauge_spec minimize minimizeA o ho r0 c0 hr hc half2.obj half2.probe
  obtain ⟨f1, f2, f3, f4⟩ := pairGauge_spec minimize minimizeA o ho r0 c0 hr hc full.obj full.probe
  simp only [a2, q2, f2] at hs1 hs2
  have hF : ∀ q ∈ out.frc, ∀ x, q.2.1 = some x → ‖x‖ ≤ 1 := by
    intro q hq x hx
    unfold calcFrc at hf
    simp only at hf
    split at hf
    · split at hf
      · exact (nomatch hf)
      · obtain e := Except.ok.inj hf
        rw [← e, List.mem_map] at hq
        obtain ⟨i, -, rfl⟩ := hq
        exact frc_bounded hx
    · exact (nomatch hf)
  have hS : out.ssnr.length = out.frc.length ∧ ∀ i (h1 : i < out.ssnr.length) (h2 : i < out.frc.length), ∀ y,
      out.ssnr[i] = some y → ∃ x, out.frc[i].2.1 = some x ∧ ‖x‖ < 1 ∧ y = 2 * ‖x‖ / (1 - ‖x‖) := by
    refine ⟨by rw [hss]; simp, fun i h1 h2 y hy => ?_⟩
    simp only [hss, List.getElem_map] at hy
    rw [Option.bind_eq_some_iff] at hy
    obtain ⟨x, hx, hy⟩ := hy
    have hb := hF _ (List.getElem_mem h2) x hx
    unfold ssnrSet at hy
    split at hy
    · exact (nomatch hy)
    · rename_i hne
      exact ⟨x, hx, lt_of_le_of_ne hb fun e => hne (by rw [e]; ring), (Option.some.inj hy).symm⟩
  refine ⟨by rw [e]; exact f1, by rw [e]; exact f4, ⟨_, s1, by rw [e1]; exact a1, a2, a4, hs1, by rw [e1]⟩,
    ⟨_, s2, by rw [e2]; exact q1, q2, q4, hs2, by rw [e2]⟩, hf, hS, ?_, ?_, ?_⟩
  all_goals rw [e1, e2, e]; exact ⟨rfl, rfl, rfl⟩

/-- **C107** (sets, repeats): for three reconstructions that differ only by phases of the objects and of the probe modes, in a window
of at least 30 × 30 pixels, with any options except the amplitude correction and any minimizers: nothing is moved, the
returned objects differ by phases only (not at all with `correct_phase_offset`, unless the window sums to zero), and the defined FRC
values have modulus 1 (are 1 with equal objects), so that every SSNR is infinite (`none`). -/
theorem set_repeats (o : SetOpts) (ho : o.amplitudeExponent = false) (r0 c0 : ℕ) (hr : r0 + c ≤ a) (hc : c0 + d ≤ b)
    (hw : 30 ≤ c ∧ 30 ≤ d) {nb : ℕ} (hnb : 0 < nb) {limit : String} (hl : limit = "side" ∨ limit = "corner") (d0 d1 : ℝ)
    {half1 half2 full : SavedHalf r n m a b} (hk1 : half1.keys = fancySaveKeys) (hk2 : half2.keys = fancySaveKeys)
    (hk : full.keys = fancySaveKeys) {u1 u2 : ℂ} (hu1 : ‖u1‖ = 1) (hu2 : ‖u2‖ = 1) (v1 v2 : Fin (r + 1) → ℂ)
    (ho1 : half1.obj = fun i j => u1 * full.obj i j) (ho2 : half2.obj = fun i j => u2 * full.obj i j)
    (hp1 : half1.probe = fun k i j => v1 k * full.probe k i j)
    (hp2 : half2.probe = fun k i j => v2 k * full.probe k i j) :
    ∃ out, standardizeSet minimize minimizeA o c d r0 c0 (some nb) limit d0 d1 half1 half2 full = .ok out ∧
      (∃ x1 x2 : ℂ, ‖x1‖ = 1 ∧ ‖x2‖ = 1 ∧ (∀ i j, out.half1.obj i j = x1 * out.full.obj i j) ∧
        (∀ i j, out.half2.obj i j = x2 * out.full.obj i j) ∧
        (o.phaseOffset = true → windowSum c d r0 c0 out.full.obj ≠ 0 → x1 = 1 ∧ x2 = 1) ∧
        out.frc.length = nb ∧ ∀ q ∈ out.frc, ∀ x, q.2.1 = some x → ‖x‖ = 1 ∧ (x1 = x2 → x = 1)) ∧
      (∀ k i j, out.half1.probe k i j = v1 k * out.full.probe k i j) ∧
      (∀ k i j, out.half2.probe k i j = v2 k * out.full.probe k i j) ∧
      (∀ s ∈ out.ssnr, s = none) := by
  obtain ⟨gp1, x1, hx1, go1, hone1, -⟩ := pairGauge_phase minimize minimizeA o r0 c0 hr hc full.obj full.probe hu1 v1
  obtain ⟨gp2, x2, hx2, go2, hone2, -⟩ := pairGauge_phase minimize minimizeA o r0 c0 hr hc full.obj full.probe hu2 v2
  rw [← ho1, ← hp1] at gp1 go1
  rw [← ho2, ← hp2] at gp2 go2
  obtain ⟨im1, pr1, hg1, -⟩ := set_gauge_predictions minimize minimizeA o ho (winOf c d r0 c0) (toImg half1.obj) half1.probe
  obtain ⟨im2, pr2, hg2, -⟩ := set_gauge_predictions minimize minimizeA o ho (winOf c d r0 c0) (toImg half2.obj) half2.probe
  obtain ⟨im, pr, hg, -⟩ := set_gauge_predictions minimize minimizeA o ho (winOf c d r0 c0) (toImg full.obj) full.probe
  have e1 := setGauge_pairGauge hg1
  have e2 := setGauge_pairGauge hg2
  have e := setGauge_pairGauge hg
  simp only at e1 e2 e
  rw [← e1, ← e] at gp1 go1
  rw [← e2, ← e] at gp2 go2
  rw [← e] at hone1 hone2
  simp only at gp1 go1 gp2 go2 hone1 hone2
  have habs : ∀ {x : ℂ} (_ : ‖x‖ = 1) {w w' : Wave a b} (_ : ∀ i j, w' i j = x * w i j),
      absWave (cropWave c d r0 c0 w') = absWave (cropWave c d r0 c0 w) := by
    intro x hx w w' h
    funext i j
    simp only [absWave, cropWave, h, norm_mul, hx, one_mul]
  have hcopy : ∀ w : Wave c d, findShift 10 w w = .ok (0, 0) := by
    intro w
    have := find_shift_copy hw.1 hw.2 10 w 1 one_ne_zero
    simpa using this
  obtain ⟨rows, hrows, hlen, hval⟩ := (calc_frc_result (some nb) limit 1 d0 d1
    (hannWave (cropWave c d r0 c0 (ofImg im1 : Wave a b)))
    (hannWave (cropWave c d r0 c0 (ofImg im2 : Wave a b)))).2.2 nb hl hnb (Or.inl rfl)
  have hk' : requireKeys fancySaveKeys ["translations", "background"] = .ok () := by decide
  have hk'' : requireKeys fancySaveKeys (["obj_basis", "probe_basis", "wavelength"] ++ ["translations", "background"]) =
      .ok () := by decide
  have hret : ∃ out, standardizeSet minimize minimizeA o c d r0 c0 (some nb) limit d0 d1 half1 half2 full = .ok out ∧
      out.frc = rows ∧ out.half1.obj = ofImg im1 ∧ out.half2.obj = ofImg im2 ∧ out.full.obj = ofImg im ∧
      out.half1.probe = pr1 ∧ out.half2.probe = pr2 ∧ out.full.probe = pr := by
    unfold standardizeSet
    rw [hk1, hk2, hk, hg1, hg2, hg]
    simp only
    rw [habs hx1 go1, habs hx2 go2, hcopy]
    simp only [sincShift_zero]
    rw [hrows]
    simp only
    rw [hk', hk'']
    exact ⟨_, rfl, rfl, rfl, rfl, rfl, rfl, rfl, rfl⟩
  obtain ⟨out, hout, r1, r2, r3, r4, r5, r6, r7⟩ := hret
  obtain ⟨-, -, -, -, -, -, -, -, hss⟩ := standardizeSet_inv minimize minimizeA hout
  have hF : ∀ q ∈ out.frc, ∀ x, q.2.1 = some x → ‖x‖ = 1 ∧ (x1 = x2 → x = 1) := by
    intro q hq x hx
    rw [r1] at hq
    obtain ⟨i, hi, rfl⟩ := List.mem_iff_getElem.1 hq
    rw [(hval i hi).1] at hx
    have hz : (starRingEnd ℂ) x1 * x2 ≠ 0 := by
      intro h0
      have := congrArg norm h0
      rw [norm_mul, Complex.norm_conj, hx1, hx2] at this
      simp at this
    have e : hannWave (cropWave c d r0 c0 (ofImg im2 : Wave a b)) = fun i j =>
        hannWave (cropWave c d r0 c0 (ofImg im1 : Wave a b)) i j * ((starRingEnd ℂ) x1 * x2) := by
      funext i j
      simp only [hannWave, cropWave, go1, go2]
      have := norm_one_mul_conj hx1
      generalize (ofImg im : Wave a b) ((r0 + i.val : ℕ) : ZMod a) ((c0 + j.val : ℕ) : ZMod b) = A
      generalize ((hannWindow c d (fun _ _ => 1) i.val j.val : ℝ) : ℂ) = H
      linear_combination (-(x2 * A * H)) * this
    rw [e] at hx
    have := frc_proportional _ _ _ _ _ _ hz hx
    rw [norm_mul, Complex.norm_conj, hx1, hx2, mul_one, Complex.ofReal_one, div_one] at this
    refine ⟨by rw [this, Complex.norm_conj, norm_mul, Complex.norm_conj, hx1, hx2, mul_one], fun h => ?_⟩
    rw [this, h, norm_one_mul_conj hx2, map_one]
  refine ⟨out, hout, ⟨x1, x2, hx1, hx2, ?_, ?_, ?_, by rw [r1, hlen], hF⟩, ?_, ?_, ?_⟩
  · rw [r2, r4]; exact go1
  · rw [r3, r4]; exact go2
  · rw [r4]; exact fun h1 h2 => ⟨hone1 h1 h2, hone2 h1 h2⟩
  · rw [r5, r7]; exact gp1
  · rw [r6, r7]; exact gp2
  · intro s hs
    rw [hss, List.mem_map] at hs
    obtain ⟨q, hq, rfl⟩ := hs
    cases hx : q.2.1 with
    | none => rfl
    | some x =>
      simp only [Option.bind_some, ssnrSet]
      rw [if_pos]
      rw [(hF q hq x hx).1]; ring

/-- **C107** (sets, positions): when the shift found for the first half is a vector of whole pixels, the returned half predicts at a
position moved by that vector what the input predicted at the original position. -/
theorem set_positions {o : SetOpts} (ho : o.amplitudeExponent = false) {r0 c0 : ℕ} (hr : r0 + c ≤ a) (hc : c0 + d ≤ b)
    {nbins : Option ℕ} {limit : String} {d0 d1 : ℝ} {half1 half2 full : SavedHalf r n m a b} {out : SetOut r n m a b}
    (h : standardizeSet minimize minimizeA o c d r0 c0 nbins limit d0 d1 half1 half2 full = .ok out) {s0 s1 : ℤ}
    (hs : findShift 10 (apodized c d r0 c0 fun i j => ((‖full.obj i j‖ : ℝ) : ℂ))
      (apodized c d r0 c0 fun i j => ((‖half1.obj i j‖ : ℝ) : ℂ)) = .ok ((s0 : ℝ), (s1 : ℝ)))
    (I : Interaction) (w : ℝ) {s t s' t' : ℕ} (hs' : (s' : ℤ) = s + s0) (ht' : (t' : ℤ) = t + s1) (h1 : s + n ≤ a)
    (h2 : t + m ≤ b) (h3 : s' + n ≤ a) (h4 : t' + m ≤ b) :
    predicted I.exit w out.half1.probe (toImg out.half1.obj) (s', t') =
      predicted I.exit w half1.probe (toImg half1.obj) (s, t) := by
  obtain ⟨-, -, ⟨obj, sh, hp, -, -, hf, e⟩, -⟩ := set_result minimize minimizeA ho hr hc h
  rw [hs] at hf
  obtain rfl := Except.ok.inj hf
  rw [← hp.2 I w s t h1 h2, predicted_of_product (integer_product I (obj := toImg obj) h1 h2),
    predicted_of_product (integer_product I (obj := toImg out.half1.obj) h3 h4)]
  have key : ∀ (i : ZMod n) (j : ZMod m), (toImg out.half1.obj).px (s' + i.val) (t' + j.val) =
      (toImg obj).px (s + i.val) (t + j.val) := by
    intro i j
    simp only [toImg]
    rw [e]
    simp only
    rw [integer_shift_is_roll]
    have e1 : ((s' : ℕ) : ZMod a) = (s : ZMod a) + (s0 : ZMod a) := by
      have := congrArg (fun z : ℤ => (z : ZMod a)) hs'
      push_cast at this
      exact this
    have e2 : ((t' : ℕ) : ZMod b) = (t : ZMod b) + (s1 : ZMod b) := by
      have := congrArg (fun z : ℤ => (z : ZMod b)) ht'
      push_cast at this
      exact this
    have x1 : ((s' + i.val : ℕ) : ZMod a) - (s0 : ZMod a) = ((s + i.val : ℕ) : ZMod a) := by
      rw [Nat.cast_add, Nat.cast_add, e1]; ring
    have x2 : ((t' + j.val : ℕ) : ZMod b) - (s1 : ZMod b) = ((t + j.val : ℕ) : ZMod b) := by
      rw [Nat.cast_add, Nat.cast_add, e2]; ring
    beta_reduce
    rw [x1, x2]
  simp only [key]

end Set

end

/-! ### Concrete cases -/

/-- One bright pixel. -/
noncomputable def impulseAt (s t : ℕ) : Wave 30 30 := fun i j => if i = (s : ZMod 30) ∧ j = (t : ZMod 30) then 1 else 0

theorem impulse_fft (s t : ℕ) (c : ℂ) (hc : c ≠ 0) (k l : ZMod 30) : fft2 (fun i j => c * impulseAt s t i j) k l ≠ 0 := by
  rw [fft2_eq, Fintype.sum_eq_single (s : ZMod 30) (by intro i hi; simp [impulseAt, hi]),
    Fintype.sum_eq_single (t : ZMod 30) (by intro j hj; simp [impulseAt, hj])]
  simp [impulseAt, hc, ZMod.stdAddChar_apply]

theorem hann_pos {x : ℕ} (h0 : 0 < x) (h1 : x < 29) : 0 < Real.sin (Real.pi * x / ((30 : ℕ) - 1)) := by
  refine Real.sin_pos_of_pos_of_lt_pi ?_ ?_
  · have := Real.pi_pos
    have : (0 : ℝ) < x := by exact_mod_cast h0
    push_cast
    positivity
  · have hp := Real.pi_pos
    have : (x : ℝ) < 29 := by exact_mod_cast h1
    push_cast
    rw [div_lt_iff₀ (by norm_num)]
    nlinarith

theorem apodized_impulse {s t : ℕ} (hs : 0 < s ∧ s < 29) (ht : 0 < t ∧ t < 29) (u : ℂ) :
    ∃ q : ℝ, 0 < q ∧ apodized 30 30 0 0 (fun i j => u * impulseAt s t i j) = fun i j => (q : ℂ) * (u * impulseAt s t i j) := by
  refine ⟨Real.sin (Real.pi * s / ((30 : ℕ) - 1)) ^ 2 * Real.sin (Real.pi * t / ((30 : ℕ) - 1)) ^ 2, ?_, ?_⟩
  · have := hann_pos hs.1 hs.2
    have := hann_pos ht.1 ht.2
    positivity
  · funext i j
    simp only [apodized, zero_add, ZMod.natCast_zmod_val, impulseAt]
    by_cases h : i = (s : ZMod 30) ∧ j = (t : ZMod 30)
    · rw [if_pos h, h.1, h.2, ZMod.val_cast_of_lt (show s < 30 by omega), ZMod.val_cast_of_lt (show t < 30 by omega)]
      push_cast; ring
    · rw [if_neg h]; simp

theorem impulse_shift {s t s' t' : ℕ} (hs : 0 < s ∧ s < 29) (ht : 0 < t ∧ t < 29) (hs' : 0 < s' ∧ s' < 29)
    (ht' : 0 < t' ∧ t' < 29) (h0 : -15 ≤ (s : ℤ) - s' ∧ (s : ℤ) - s' < 15) (h1 : -15 ≤ (t : ℤ) - t' ∧ (t : ℤ) - t' < 15) :
    findShift 10 (apodized 30 30 0 0 (impulseAt s t)) (apodized 30 30 0 0 (impulseAt s' t')) =
      .ok ((((s : ℤ) - s' : ℤ) : ℝ), (((t : ℤ) - t' : ℤ) : ℝ)) := by
  obtain ⟨q, hq, e⟩ := apodized_impulse hs ht 1
  obtain ⟨q', hq', e'⟩ := apodized_impulse hs' ht' 1
  simp only [one_mul] at e e'
  have hqc : (q : ℂ) ≠ 0 := by exact_mod_cast hq.ne'
  have hqc' : (q' : ℂ) ≠ 0 := by exact_mod_cast hq'.ne'
  have := find_shift_partial (n := 30) (m := 30) le_rfl le_rfl 10 (fun i j => (q' : ℂ) * impulseAt s' t' i j) ((s : ℤ) - s')
    ((t : ℤ) - t') ((q : ℂ) / q') (div_ne_zero hqc hqc') (impulse_fft s' t' _ hqc') (by norm_num; omega) (by norm_num; omega)
  rw [e, e', ← this]
  congr 1
  funext i j
  have h : impulseAt s' t' (i - (((s : ℤ) - s' : ℤ) : ZMod 30)) (j - (((t : ℤ) - t' : ℤ) : ZMod 30)) = impulseAt s t i j := by
    simp only [impulseAt]
    have h1 : ∀ (x : ZMod 30) (s s' : ℕ), (x - (((s : ℤ) - s' : ℤ) : ZMod 30) = (s' : ZMod 30)) ↔ x = (s : ZMod 30) := by
      intro x s s'
      push_cast
      constructor
      · intro h; linear_combination h
      · intro h; rw [h]; ring
    simp only [h1]
  rw [h]
  field_simp

/-- A saved reconstruction with one bright pixel at `(s, 10)`, a probe of one pixel, and one exposure at that pixel. -/
noncomputable def impulseHalf (s : ℕ) : SavedHalf 0 1 1 30 30 :=
  { keys := fancySaveKeys, obj := impulseAt s 10, probe := fun _ _ _ => 1, weights := [1],
    translations := [((s : ℝ), 10)], background := fun _ _ => 0 }

theorem impulse_abs (s t : ℕ) : (fun i j => ((‖impulseAt s t i j‖ : ℝ) : ℂ)) = impulseAt s t := by
  funext i j
  simp only [impulseAt]
  split <;> simp

theorem predicted_one (obj : Wave 30 30) (probe : Fin 1 → Wave 1 1) (s t : ℕ) (hs : s < 30) (ht : t < 30) :
    predicted Interaction.round.exit 1 probe (toImg obj) (s, t) =
      .ok fun _ _ => (‖probe 0 0 0‖ * ‖obj (s : ZMod 30) (t : ZMod 30)‖) ^ 2 := by
  rw [predicted_of_product (integer_product .round (obj := toImg obj) (s := s) (t := t) (by simp [toImg]; omega)
    (by simp [toImg]; omega))]
  congr 1
  funext u v
  have hff : ∀ w : Wave 1 1, ‖farField w u v‖ ^ 2 = ‖w 0 0‖ ^ 2 := by
    intro w
    have h := (far_field_unitary (n := 1) (m := 1)).2.2.1 w
    have e : ∀ x : Wave 1 1, power x = ‖x u v‖ ^ 2 := by
      intro x
      unfold power
      rw [Fintype.sum_eq_single u (fun i hi => absurd (Subsingleton.elim i u) hi),
        Fintype.sum_eq_single v (fun i hi => absurd (Subsingleton.elim i v) hi)]
    rw [e, e] at h
    rw [h, Subsingleton.elim u 0, Subsingleton.elim v 0]
  rw [Fintype.sum_eq_single 0 (fun i hi => absurd (Subsingleton.elim i 0) hi), hff, norm_mul, norm_mul]
  simp [toImg]

/-- **C107 is violated** (positions): the halves of a set are moved, but their translations are not (`# Todo update the
translations`). With one bright pixel at `(10, 10)` in the full and the second reconstruction and at `(11, 10)` in the first
one, exposed at that pixel: before, the first half predicts intensity 1 at its scan position; what is returned predicts 0 there, and
the returned translations are the old ones. For all minimizers, with and without the corrections of the phase. -/
theorem set_translations_violated (minimize : ((Fin 2 → ℝ) → ℝ) → (Fin 2 → ℝ) → (Fin 2 → ℝ))
    (minimizeA : ((Fin 3 → ℝ) → ℝ) → (Fin 3 → ℝ) → (Fin 3 → ℝ)) (o : SetOpts) (ho : o.amplitudeExponent = false) :
    ∃ out, standardizeSet minimize minimizeA o 30 30 0 0 (some 5) "side" 1 1 (impulseHalf 11) (impulseHalf 10)
        (impulseHalf 10) = .ok out ∧ out.half1.translations = [(11, 10)] ∧
      predicted Interaction.round.exit 1 (impulseHalf 11).probe (toImg (impulseHalf 11).obj) ((11 : ℕ), (10 : ℕ)) =
        .ok (fun _ _ => 1) ∧
      predicted Interaction.round.exit 1 out.half1.probe (toImg out.half1.obj) ((11 : ℕ), (10 : ℕ)) =
        .ok (fun _ _ => 0) := by
  obtain ⟨im1, pr1, hg1, -⟩ := set_gauge_predictions minimize minimizeA o ho (winOf 30 30 0 0) (toImg (impulseHalf 11).obj)
    (impulseHalf 11).probe
  obtain ⟨im2, pr2, hg2, -⟩ := set_gauge_predictions minimize minimizeA o ho (winOf 30 30 0 0) (toImg (impulseHalf 10).obj)
    (impulseHalf 10).probe
  have e1 := setGauge_pairGauge hg1
  have e2 := setGauge_pairGauge hg2
  obtain ⟨-, a1, -⟩ := pairGauge_spec (c := 30) (d := 30) minimize minimizeA o ho 0 0 le_rfl le_rfl (impulseHalf 11).obj
    (impulseHalf 11).probe
  obtain ⟨-, a2, -⟩ := pairGauge_spec (c := 30) (d := 30) minimize minimizeA o ho 0 0 le_rfl le_rfl (impulseHalf 10).obj
    (impulseHalf 10).probe
  rw [← e1] at a1
  rw [← e2] at a2
  simp only at a1 a2
  have s1 : findShift 10 (hannWave (absWave (cropWave 30 30 0 0 (ofImg im2 : Wave 30 30))))
      (hannWave (absWave (cropWave 30 30 0 0 (ofImg im1 : Wave 30 30)))) =
      .ok ((((10 : ℕ) : ℤ) - (11 : ℕ) : ℤ), (((10 : ℕ) : ℤ) - (10 : ℕ) : ℤ)) := by
    rw [hann_abs_crop, hann_abs_crop]
    simp only [a1, a2, impulseHalf, impulse_abs]
    exact impulse_shift (by norm_num) (by norm_num) (by norm_num) (by norm_num) (by norm_num) (by norm_num)
  have s2 : findShift 10 (hannWave (absWave (cropWave 30 30 0 0 (ofImg im2 : Wave 30 30))))
      (hannWave (absWave (cropWave 30 30 0 0 (ofImg im2 : Wave 30 30)))) = .ok (0, 0) := by
    have := find_shift_copy (n := 30) (m := 30) le_rfl le_rfl 10
      (hannWave (absWave (cropWave 30 30 0 0 (ofImg im2 : Wave 30 30)))) 1 one_ne_zero
    simpa using this
  have hk' : requireKeys fancySaveKeys ["translations", "background"] = .ok () := by decide
  have hk'' : requireKeys fancySaveKeys (["obj_basis", "probe_basis", "wavelength"] ++ ["translations", "background"]) =
      .ok () := by decide
  have hk : ∀ s, (impulseHalf s).keys = fancySaveKeys := fun _ => rfl
  have hret : ∃ out, standardizeSet minimize minimizeA o 30 30 0 0 (some 5) "side" 1 1 (impulseHalf 11) (impulseHalf 10)
      (impulseHalf 10) = .ok out := by
    obtain ⟨rows, hrows, -⟩ := (calc_frc_result (some 5) "side" 1 1 1
      (hannWave (cropWave 30 30 0 0 (sincShift (ofImg im1 : Wave 30 30) ((((10 : ℕ) : ℤ) - (11 : ℕ) : ℤ) : ℝ)
        ((((10 : ℕ) : ℤ) - (10 : ℕ) : ℤ) : ℝ))))
      (hannWave (cropWave 30 30 0 0 (sincShift (ofImg im2 : Wave 30 30) 0 0)))).2.2 5 (Or.inl rfl) (by norm_num) (Or.inl rfl)
    unfold standardizeSet
    rw [hk, hk, hg1, hg2]
    simp only
    rw [s1]
    simp only
    rw [s2]
    simp only
    rw [hrows]
    simp only
    rw [hk', hk'']
    exact ⟨_, rfl⟩
  obtain ⟨out, hout⟩ := hret
  refine ⟨out, hout, ?_, ?_, ?_⟩
  · have := (set_result minimize minimizeA ho (c := 30) (d := 30) (r0 := 0) (c0 := 0) le_rfl le_rfl hout).2.2.2.2.2.2.2.1.1
    rw [this]
    simp [impulseHalf]
  · rw [predicted_one _ _ 11 10 (by norm_num) (by norm_num)]
    simp [impulseHalf, impulseAt]
  · obtain ⟨q1, q2, hq1, -, h1, -⟩ := standardizeSet_inv minimize minimizeA hout
    rw [← e1, ← e2] at hq1
    simp only at hq1
    rw [← hann_abs_crop, ← hann_abs_crop, s1] at hq1
    obtain rfl := Except.ok.inj hq1
    rw [predicted_one _ _ 11 10 (by norm_num) (by norm_num), h1, ← e1]
    simp only
    rw [integer_shift_is_roll]
    have : ‖(ofImg im1 : Wave 30 30) (((11 : ℕ) : ZMod 30) - ((((10 : ℕ) : ℤ) - (11 : ℕ) : ℤ) : ZMod 30))
        (((10 : ℕ) : ZMod 30) - ((((10 : ℕ) : ℤ) - (10 : ℕ) : ℤ) : ZMod 30))‖ = 0 := by
      rw [a1]
      have hne : ¬ ((((11 : ℕ) : ZMod 30) - ((((10 : ℕ) : ℤ) - (11 : ℕ) : ℤ) : ZMod 30)) = ((11 : ℕ) : ZMod 30)) := by decide
      simp only [impulseHalf, impulseAt]
      rw [if_neg fun h => hne h.1, norm_zero]
    rw [this]
    simp

/-- A saved reconstruction with a 30 × 30 probe that is one bright pixel at `(s, 10)`. -/
noncomputable def probeHalf (s : ℕ) : SavedHalf 0 30 30 30 30 :=
  { keys := fancySaveKeys, obj := impulseAt 10 10, probe := fun _ => impulseAt s 10, weights := [1],
    translations := [(0, 0)], background := fun _ _ => 0 }

/-- **C107 is violated** (the caller's data): with `correct_phase_ramp=False` (and no amplitude correction), the probe of the
second reconstruction is overwritten in the dictionary the caller passed in. Here both objects are one bright pixel, and the
probes one bright pixel at `(10, 10)` and at `(12, 10)`: afterwards `half_2['probe']` is a pixel at `(10, 10)`. -/
theorem pair_overwrites_input_violated (la : LinAlg) (minimize : ((Fin 2 → ℝ) → ℝ) → (Fin 2 → ℝ) → (Fin 2 → ℝ))
    (minimizeA : ((Fin 3 → ℝ) → ℝ) → (Fin 3 → ℝ) → (Fin 3 → ℝ)) (o : SetOpts) (ho : o.amplitudeExponent = false)
    (hramp : o.phaseRamp = false) :
    ∃ out, standardizePair la minimize minimizeA o 30 30 0 0 (some 5) (some 5) "side" 1 1 1 1 (probeHalf 10) (probeHalf 12) =
        .ok out ∧ out.callerProbe2 = (probeHalf 10).probe ∧ out.callerProbe2 ≠ (probeHalf 12).probe := by
  have hg : ∀ s, pairGauge minimize minimizeA o (winOf 30 30 0 0) (probeHalf s).obj (probeHalf s).probe =
      ((pairGauge minimize minimizeA o (winOf 30 30 0 0) (probeHalf 10).obj (probeHalf 10).probe).1, (probeHalf s).probe) := by
    intro s
    simp [pairGauge, ho, hramp, probeHalf]
  set ob := (pairGauge minimize minimizeA o (winOf 30 30 0 0) (probeHalf 10).obj (probeHalf 10).probe).1 with hob
  have s1 : findShift 10 (hannWave (cropWave 30 30 0 0 ob)) (hannWave (cropWave 30 30 0 0 ob)) = .ok (0, 0) := by
    have := find_shift_copy (n := 30) (m := 30) le_rfl le_rfl 10 (hannWave (cropWave 30 30 0 0 ob)) 1 one_ne_zero
    simpa using this
  have hroll : ∀ i j, impulseAt 10 10 i j = impulseAt 12 10 (i - ((-2 : ℤ) : ZMod 30)) (j - ((0 : ℤ) : ZMod 30)) := by
    intro i j
    simp only [impulseAt]
    have : (i = ((10 : ℕ) : ZMod 30) ∧ j = ((10 : ℕ) : ZMod 30)) ↔
        (i - ((-2 : ℤ) : ZMod 30) = ((12 : ℕ) : ZMod 30) ∧ j - ((0 : ℤ) : ZMod 30) = ((10 : ℕ) : ZMod 30)) := by
      revert i j; decide +kernel
    simp only [this]
  have hfft : ∀ k l, fft2 ((probeHalf 12).probe 0) k l ≠ 0 := by
    intro k l
    have := impulse_fft 12 10 1 one_ne_zero k l
    simpa [probeHalf] using this
  have s2 : findShift 10 ((probeHalf 10).probe 0) ((probeHalf 12).probe 0) = .ok (((-2 : ℤ) : ℝ), ((0 : ℤ) : ℝ)) := by
    have := find_shift_partial (n := 30) (m := 30) le_rfl le_rfl 10 ((probeHalf 12).probe 0) (-2) 0 1 one_ne_zero hfft
      (by norm_num) (by norm_num)
    rw [← this]
    congr 1
    funext i j
    rw [one_mul]
    exact hroll i j
  have hret : ∃ out, standardizePair la minimize minimizeA o 30 30 0 0 (some 5) (some 5) "side" 1 1 1 1 (probeHalf 10)
      (probeHalf 12) = .ok out := by
    obtain ⟨rows, hrows, -⟩ := (calc_frc_result (some 5) "side" 1 1 1 (hannWave (cropWave 30 30 0 0 ob))
      (hannWave (cropWave 30 30 0 0 (sincShift ob 0 0)))).2.2 5 (Or.inl rfl) (by norm_num) (Or.inl rfl)
    obtain ⟨prows, hprows, -⟩ := (gen_frc_result la (some 5) "side" 1 1 1 (probeHalf 10).probe
      (fun k => sincShift ((probeHalf 12).probe k) ((-2 : ℤ) : ℝ) ((0 : ℤ) : ℝ))).2.2.2 5 (by norm_num) rfl (Or.inl rfl)
    have hk1 : requireKeys fancySaveKeys (["obj", "probe", "weights"] ++ [] ++ ["translations", "background"] ++
        ["obj_basis", "probe_basis", "wavelength"]) = .ok () := by decide
    have hk2 : requireKeys fancySaveKeys (["obj", "probe", "weights"] ++ [] ++ ["translations", "background"]) = .ok () := by
      decide
    have hk : ∀ s, (probeHalf s).keys = fancySaveKeys := fun _ => rfl
    unfold standardizePair
    simp only [ho, Bool.false_eq_true, if_false]
    rw [hk, hk, hk1, hk2]
    simp only
    rw [hg 12, ← hob, hg 10]
    simp only
    rw [s1]
    simp only
    rw [s2]
    simp only
    rw [hrows]
    simp only
    rw [hprows]
    exact ⟨_, rfl⟩
  obtain ⟨out, hout⟩ := hret
  have hal := pair_probes_aligned la minimize minimizeA ho hramp (by norm_num) hout (-2) 0 (by norm_num) (by norm_num)
    (fun k i j => hroll i j) hfft
  have hc := (pair_caller_probe la minimize minimizeA hout).2 hramp ho
  refine ⟨out, hout, hc.trans hal.2, fun h => ?_⟩
  rw [hc, hal.2] at h
  have := congrFun (congrFun (congrFun h 0) ((10 : ℕ) : ZMod 30)) ((10 : ℕ) : ZMod 30)
  have hne : ¬ (((10 : ℕ) : ZMod 30) = ((12 : ℕ) : ZMod 30)) := by decide
  simp only [probeHalf, impulseAt] at this
  rw [if_pos (by simp), if_neg fun h => hne h.1] at this
  exact one_ne_zero this

/-- Non-vacuity of `pair_repeats`: a reconstruction and its copy multiplied by phases. -/
example (la : LinAlg) (minimize : ((Fin 2 → ℝ) → ℝ) → (Fin 2 → ℝ) → (Fin 2 → ℝ))
    (minimizeA : ((Fin 3 → ℝ) → ℝ) → (Fin 3 → ℝ) → (Fin 3 → ℝ)) :
    ∃ out, standardizePair la minimize minimizeA {} 30 30 0 0 (some 50) (some 50) "side" 1 1 1 1 (probeHalf 10)
      { probeHalf 10 with obj := fun i j => Complex.I * (probeHalf 10).obj i j,
                          probe := fun k i j => -1 * (probeHalf 10).probe k i j } = .ok out ∧ ∀ s ∈ out.ssnr, s = none := by
  obtain ⟨out, h, -, -, hs, -⟩ := pair_repeats (c := 30) (d := 30) la minimize minimizeA {} 0 0 le_rfl le_rfl (by norm_num)
    (by norm_num) (nb := 50) (pnb := 50) (by norm_num) (by norm_num) (limit := "side") (Or.inl rfl) 1 1 1 1
    (half1 := probeHalf 10) (half2 := { probeHalf 10 with obj := fun i j => Complex.I * (probeHalf 10).obj i j,
                                                          probe := fun k i j => -1 * (probeHalf 10).probe k i j })
    rfl rfl (u := Complex.I) (by simp) (v := fun _ => -1) (by simp) rfl rfl
  exact ⟨out, h, hs⟩

end Cdtools
