/- Property theorems C111: a model made by `Bragg2DPtycho.from_dataset`. -/
import Verif.Model.BraggFromDataset
import Verif.Props.FancyFromDataset
import Verif.Props.BraggSetup
import Verif.Props.Bragg
import Verif.Props.HighNA

set_option linter.unusedSectionVars false

namespace Cdtools
open Finset

variable {n m N : ℕ} [NeZero n] [NeZero m]

/-! ### The fields of a new model -/

section fields
variable (D : FancyData n m N) (O : BraggOpts) (os : ℕ) [NeZero os] [NeZero (os * n)] [NeZero (os * m)]
  (c d : ℕ) [NeZero (os * n - 2 * c)] [NeZero (os * m - 2 * d)] (k : ℕ)

/-- The probes handed to the constructor. -/
noncomputable def braggGuess (rp : Fin k → Wave (os * n - 2 * c) (os * m - 2 * d)) : Fin (k + 1) → Wave (os * n - 2 * c) (os * m - 2 * d) :=
  match O.supportRadius with
  | none => probeStack false rp (cropProbe2 c d (D.braggProbe O.propagationDistance os))
  | some r => fun j x y => probeStack false rp (cropProbe2 c d (D.braggProbe O.propagationDistance os)) j x y *
      (if supportDisc (os * n - 2 * c) (os * m - 2 * d) r x y then 1 else 0)

/-- The support of a new model. -/
noncomputable def braggSupport (A B : ℕ) : ZMod A → ZMod B → Bool :=
  match O.supportRadius with
  | none => fun _ _ => true
  | some r => supportDisc A B r

theorem bragg_fields (rp : Fin k → Wave (os * n - 2 * c) (os * m - 2 * d)) (ro : ℕ → ℕ → ℝ)
    (M : Bragg (os * n - 2 * c) (os * m - 2 * d) (os * n) (os * m) N (k + 1)) (h : braggFromDataset D O os c d k rp ro = .ok M) :
    ∃ t0 rest normal, List.ofFn D.translations = t0 :: rest ∧
      braggNormal O.surfaceNormal O.scatteringMode D.orientation D.detBasis = .ok normal ∧
      (O.crop = true → c ≠ 0 ∧ d ≠ 0) ∧ (O.crop = false → c = 0 ∧ d = 0) ∧
      M =
        { probe := fun j x y => braggGuess D O os c d k rp j x y / (probeNormOf (braggGuess D O os c d k rp) : ℂ) *
            (if braggSupport O (os * n - 2 * c) (os * m - 2 * d) x y then 1 else 0)
          probeNorm := probeNormOf (braggGuess D O os c d k rp)
          support := braggSupport O (os * n - 2 * c) (os * m - 2 * d)
          weights := some fun _ => 1
          obj := ⟨(braggSetup (os * n) (braggObjBasis (exitWaveGeometry D.detBasis ![n, m] D.wavelength D.distance os) normal) t0 rest
              O.padding 0).1.toNat,
            (braggSetup (os * m) (braggObjBasis (exitWaveGeometry D.detBasis ![n, m] D.wavelength D.distance os) normal) t0 rest
              O.padding 1).1.toNat,
            fun i j => Complex.exp (Complex.I * ((O.randomizeAng * (ro i j - 0.5) : ℝ) : ℂ))⟩
          objBasis := braggObjBasis (exitWaveGeometry D.detBasis ![n, m] D.wavelength D.distance os) normal
          probeBasis := braggProbeBasis O.crop n m (os * n - 2 * c) (os * m - 2 * d)
            (braggObjBasis (exitWaveGeometry D.detBasis ![n, m] D.wavelength D.distance os) normal)
          wavelength := D.wavelength
          minTranslation := ![(braggSetup (os * n) (braggObjBasis (exitWaveGeometry D.detBasis ![n, m] D.wavelength D.distance os) normal) t0 rest
              O.padding 0).2,
            (braggSetup (os * m) (braggObjBasis (exitWaveGeometry D.detBasis ![n, m] D.wavelength D.distance os) normal) t0 rest O.padding 1).2]
          medianPropagation := braggMedian (braggObjBasis (exitWaveGeometry D.detBasis ![n, m] D.wavelength D.distance os) normal) (t0 :: rest)
          translationScale := O.translationScale
          offsets := some 0
          propagateProbe := O.propagateProbe
          tilt := D.braggTilt O os (braggObjBasis (exitWaveGeometry D.detBasis ![n, m] D.wavelength D.distance os) normal)
          oversampling := os
          background := D.backgroundGuess.toImg
          saturation := O.saturation } := by
  unfold braggFromDataset at h
  split at h
  · cases h
  · cases h
  · rename_i t0 rest normal h1 h2
    split_ifs at h with hc hd
    refine ⟨t0, rest, normal, h1, h2, fun hO => ?_, fun hO => ?_, ?_⟩
    · constructor <;> intro h0 <;> exact hc ⟨hO, by omega⟩
    · rw [hO] at hd
      simp only [Bool.false_eq_true, not_false_eq_true, true_and] at hd
      omega
    · rw [← Except.ok.inj h]
      unfold braggGuess braggSupport
      cases O.supportRadius <;> rfl

/-- **C111** (when there is a model): `from_dataset` makes a model of every dataset with at least one exposure and a surface normal, unless the Fourier crop
of the probe is zero along one axis. -/
theorem bragg_from_dataset_succeeds (rp : Fin k → Wave (os * n - 2 * c) (os * m - 2 * d)) (ro : ℕ → ℕ → ℝ) :
    (∃ M, braggFromDataset D O os c d k rp ro = .ok M) ↔ 0 < N ∧
      (∃ v, braggNormal O.surfaceNormal O.scatteringMode D.orientation D.detBasis = .ok v) ∧
      (if O.crop then c ≠ 0 ∧ d ≠ 0 else c = 0 ∧ d = 0) := by
  constructor
  · rintro ⟨M, h⟩
    obtain ⟨t0, rest, normal, h1, h2, h3, h4, -⟩ := bragg_fields D O os c d k rp ro M h
    refine ⟨?_, ⟨_, h2⟩, ?_⟩
    · have := congrArg List.length h1
      rw [List.length_ofFn] at this
      simp at this
      omega
    · cases hc : O.crop
      · simpa using h4 hc
      · simpa using h3 hc
  · rintro ⟨hN, ⟨v, hv⟩, hc⟩
    unfold braggFromDataset
    cases hl : List.ofFn D.translations with
    | nil =>
      have := congrArg List.length hl
      rw [List.length_ofFn] at this
      simp at this
      omega
    | cons t0 rest =>
      simp only [hv]
      rw [if_neg, if_neg]
      · exact ⟨_, rfl⟩
      · cases hO : O.crop <;> simp [hO] at hc ⊢
        omega
      · cases hO : O.crop <;> simp [hO] at hc ⊢
        omega

/-- **C111** (violated): a Fourier crop along one axis only raises RuntimeError for every dataset (`probe[0:-0]` is empty), instead of leaving the other
axis as it is. -/
theorem bragg_one_axis_crop_violated (rp : Fin k → Wave (os * n - 2 * c) (os * m - 2 * d)) (ro : ℕ → ℕ → ℝ) (hN : 0 < N) (v : Vec3)
    (hv : braggNormal O.surfaceNormal O.scatteringMode D.orientation D.detBasis = .ok v) (hO : O.crop = true) (h0 : c = 0 ∨ d = 0) :
    braggFromDataset D O os c d k rp ro = .error "RuntimeError" := by
  unfold braggFromDataset
  cases hl : List.ofFn D.translations with
  | nil =>
    have := congrArg List.length hl
    rw [List.length_ofFn] at this
    simp at this
    omega
  | cons t0 rest =>
    simp only [hv]
    rw [if_pos ⟨hO, h0⟩]

/-- **C111** (a model fits its data): for every dataset and all options, a model made by `from_dataset` can simulate every exposure of its dataset. -/
theorem bragg_from_dataset_simulates (rp : Fin k → Wave (os * n - 2 * c) (os * m - 2 * d)) (ro : ℕ → ℕ → ℝ)
    (M : Bragg (os * n - 2 * c) (os * m - 2 * d) (os * n) (os * m) N (k + 1)) (h : braggFromDataset D O os c d k rp ro = .ok M) (idx : Fin N) :
    ∃ img, M.forward idx (D.translations idx) = .ok img := by
  obtain ⟨t0, rest, normal, h1, -, -, -, hM⟩ := bragg_fields D O os c d k rp ro M h
  refine bragg_forward_succeeds M (by rw [hM]; simp) O.padding D.translations t0 rest h1 ?_ ?_ ?_ ?_ idx
  · rw [hM]
    exact Int.toNat_of_nonneg (objectSetup_nonneg _ _ _ _)
  · rw [hM]
    exact Int.toNat_of_nonneg (objectSetup_nonneg _ _ _ _)
  · rw [hM]
  · intro o ho i e
    rw [hM] at ho
    rw [← Option.some.inj ho]
    simp

/-- **C111** (focus): the new model puts at least one exposure of the dataset at the distance zero, where the probe is not propagated, at least half of them
not behind it and at least half of them not in front of it; with a flat detector basis the object basis is in the plane of the sample. -/
theorem bragg_from_dataset_focus (rp : Fin k → Wave (os * n - 2 * c) (os * m - 2 * d)) (ro : ℕ → ℕ → ℝ)
    (M : Bragg (os * n - 2 * c) (os * m - 2 * d) (os * n) (os * m) N (k + 1)) (h : braggFromDataset D O os c d k rp ro = .ok M) :
    (∃ idx, M.distance (D.translations idx) = 0) ∧
    N ≤ 2 * (univ.filter fun idx => M.distance (D.translations idx) ≤ 0).card ∧
    N ≤ 2 * (univ.filter fun idx => 0 ≤ M.distance (D.translations idx)).card := by
  obtain ⟨t0, rest, normal, h1, -, -, -, hM⟩ := bragg_fields D O os c d k rp ro M h
  have hm : M.medianPropagation = braggMedian M.objBasis (List.ofFn D.translations) := by rw [hM, h1]
  obtain ⟨⟨t, ht, h0⟩, h2, h3⟩ := bragg_median M (List.ofFn D.translations) (by rw [h1]; simp) hm
  have hcard : ∀ p : (Fin 3 → ℝ) → Prop, ∀ [DecidablePred p], ((List.ofFn D.translations).filter fun t => decide (p t)).length =
      (univ.filter fun idx => p (D.translations idx)).card := by
    intro p _
    rw [List.ofFn_eq_map, List.filter_map, List.length_map]
    rw [← List.toFinset_card_of_nodup ((List.nodup_finRange N).filter _)]
    congr 1
    ext i
    simp
  rw [List.length_ofFn] at h2 h3
  refine ⟨?_, ?_, ?_⟩
  · obtain ⟨idx, rfl⟩ := List.mem_ofFn.1 ht
    exact ⟨idx, h0⟩
  · rw [← hcard (fun t => M.distance t ≤ 0)]; exact h2
  · rw [← hcard (fun t => 0 ≤ M.distance t)]; exact h3

/-- **C111** (geometry): the pixels of the object of a new model lie in the plane of the sample, and seen along the normal of the exit wave they are those of
the exit wave; the wavelength is that of the dataset, the scale of the position
corrections and the propagation of the probe are as requested, no position is corrected, and the object is a phase object with phases
`randomize_ang * (r - 1/2)` for the random numbers `r`. -/
theorem bragg_from_dataset_geometry (rp : Fin k → Wave (os * n - 2 * c) (os * m - 2 * d)) (ro : ℕ → ℕ → ℝ)
    (M : Bragg (os * n - 2 * c) (os * m - 2 * d) (os * n) (os * m) N (k + 1)) (h : braggFromDataset D O os c d k rp ro = .ok M) :
    let E := exitWaveGeometry D.detBasis ![n, m] D.wavelength D.distance os
    (∀ normal, braggNormal O.surfaceNormal O.scatteringMode D.orientation D.detBasis = .ok normal → Spans E → normal.dot (sampleNormal E) ≠ 0 →
      ∀ j, normal.dot (basisCol M.objBasis j) = 0 ∧ ∃ s : ℝ, ∀ x, basisCol M.objBasis j x = basisCol E j x + s * sampleNormal E x) ∧
    M.wavelength = D.wavelength ∧ M.translationScale = O.translationScale ∧ M.propagateProbe = O.propagateProbe ∧
    (∀ idx t, M.correctedTranslation idx t = t) ∧
    ∀ i j, M.obj.px i j = Complex.exp (Complex.I * ((O.randomizeAng * (ro i j - 0.5) : ℝ) : ℂ)) := by
  intro E
  obtain ⟨t0, rest, normal, h1, h2, -, -, hM⟩ := bragg_fields D O os c d k rp ro M h
  refine ⟨fun normal' hn hE hne j => ?_, by rw [hM], by rw [hM], by rw [hM], fun idx t => ?_, fun i j => by rw [hM]⟩
  · rw [h2] at hn
    obtain rfl := Except.ok.inj hn
    have hB : M.objBasis = braggObjBasis E normal := by rw [hM]
    rw [hB]
    exact ⟨(bragg_obj_basis E hE normal hne j).1, (bragg_obj_basis E hE normal hne j).2.1⟩
  · have ho : M.offsets = some 0 := by rw [hM]
    unfold Bragg.correctedTranslation
    rw [ho]
    simp only
    unfold pixelToTranslations
    simp

/-- **C111** (detector): with tilt correction a new model reads, at pixel `(i, j)` of the (oversampled) detector, the far field at the fractional pixel
`(L-1)/2 + L f` along each axis, where `f` is the number of cycles per object pixel by which the light from the sample to that pixel differs from the light
to the middle of the detector, times the intensity map. -/
theorem bragg_from_dataset_detector (rp : Fin k → Wave (os * n - 2 * c) (os * m - 2 * d)) (ro : ℕ → ℕ → ℝ)
    (M : Bragg (os * n - 2 * c) (os * m - 2 * d) (os * n) (os * m) N (k + 1)) (h : braggFromDataset D O os c d k rp ro = .ok M)
    (ht : O.correctTilt = true) (w : Wave (os * n) (os * m)) (i j : ℕ) :
    let fine : Matrix (Fin 3) (Fin 2) ℝ := Matrix.of fun x y => D.detBasis x y / os
    let R := rayToPixel (os * n) (os * m) fine D.distance O.lens i j
    let f : Fin 2 → ℝ := fun e => (basisCol M.objBasis e).dot (fun x => wavevector D.wavelength R x - centralWave fine D.distance D.wavelength x) /
      (2 * Real.pi)
    M.toDetector w i j = bilinear (farField w) ((((os * n : ℕ) : ℝ) - 1) / 2 + (os * n : ℕ) * f 0) ((((os * m : ℕ) : ℝ) - 1) / 2 + (os * m : ℕ) * f 1) *
      ((highNAIntensity (os * n) (os * m) fine D.distance D.wavelength O.lens i j : ℝ) : ℂ) := by
  intro fine R f
  obtain ⟨t0, rest, normal, h1, h2, -, -, hM⟩ := bragg_fields D O os c d k rp ro M h
  have hti : M.tilt = some (highNAMap (os * n) (os * m) M.objBasis fine D.distance D.wavelength O.lens,
      highNAIntensity (os * n) (os * m) fine D.distance D.wavelength O.lens) := by
    rw [hM]
    unfold FancyData.braggTilt
    rw [ht]
    rfl
  have e := high_na_frequency (n := os * n) (m := os * m) M.objBasis fine D.distance D.wavelength O.lens w i j
  simp only at e
  unfold Bragg.toDetector
  rw [hti]
  simp only [f, R]
  rw [← e]
  rfl

theorem lens_cast (A B : ℕ) (hA : A = n) (hB' : B = m) [NeZero A] [NeZero B] (basis : Matrix (Fin 3) (Fin 2) ℝ) (dist wl : ℝ) (hB : Spans basis)
    (hwl : 0 < wl) (hd : 0 < dist) (w : Wave A B) (i j : ℕ) (hi : i < n) (hj : j < m)
    (hin : (inDetector n m basis i j).dot (inDetector n m basis i j) ≤ dist ^ 2) :
    highNAFarField (highNAMap A B (exitWaveGeometry basis ![n, m] wl dist 1) basis dist wl true)
      (some (highNAIntensity A B basis dist wl true)) w i j = farField w (i : ZMod A) (j : ZMod B) := by
  subst hA hB'
  exact high_na_lens_untilted (n := A) (m := B) hB dist wl 1 hwl hd w i j hi hj hin

/-- **C111** (untilted sample with a lens): without oversampling, tilt correction changes nothing: the new model reads the far field itself. -/
theorem bragg_from_dataset_lens (rp : Fin k → Wave (1 * n - 2 * c) (1 * m - 2 * d)) (ro : ℕ → ℕ → ℝ) [NeZero (1 * n)] [NeZero (1 * m)]
    [NeZero (1 * n - 2 * c)] [NeZero (1 * m - 2 * d)]
    (M : Bragg (1 * n - 2 * c) (1 * m - 2 * d) (1 * n) (1 * m) N (k + 1)) (h : braggFromDataset D O 1 c d k rp ro = .ok M)
    (ht : O.correctTilt = true) (hl : O.lens = true) (hB : Spans D.detBasis) (hwl : 0 < D.wavelength) (hd : 0 < D.distance)
    (hE : Spans (exitWaveGeometry D.detBasis ![n, m] D.wavelength D.distance 1)) (normal : Vec3)
    (hn : braggNormal O.surfaceNormal O.scatteringMode D.orientation D.detBasis = .ok normal)
    (hne : normal.dot (sampleNormal (exitWaveGeometry D.detBasis ![n, m] D.wavelength D.distance 1)) ≠ 0)
    (hflat : ∀ j, normal.dot (basisCol (exitWaveGeometry D.detBasis ![n, m] D.wavelength D.distance 1) j) = 0)
    (w : Wave (1 * n) (1 * m)) (i j : ℕ) (hi : i < n) (hj : j < m)
    (hin : (inDetector n m D.detBasis i j).dot (inDetector n m D.detBasis i j) ≤ D.distance ^ 2) :
    M.toDetector w i j = farField w (i : ZMod (1 * n)) (j : ZMod (1 * m)) := by
  obtain ⟨t0, rest, normal', h1, h2, -, -, hM⟩ := bragg_fields D O 1 c d k rp ro M h
  rw [h2] at hn
  obtain rfl := Except.ok.inj hn
  have hob : M.objBasis = exitWaveGeometry D.detBasis ![n, m] D.wavelength D.distance 1 := by
    rw [hM]
    exact bragg_obj_basis_transmission _ hE normal' hne hflat
  have hfine : (Matrix.of fun x y => D.detBasis x y / ((1 : ℕ) : ℝ) : Matrix (Fin 3) (Fin 2) ℝ) = D.detBasis := by
    ext x y
    simp
  have hti : M.tilt = some (highNAMap (1 * n) (1 * m) M.objBasis D.detBasis D.distance D.wavelength true,
      highNAIntensity (1 * n) (1 * m) D.detBasis D.distance D.wavelength true) := by
    rw [hM]
    unfold FancyData.braggTilt
    rw [ht, hl]
    simp only [if_true]
    rw [hfine]
  unfold Bragg.toDetector
  rw [hti, hob]
  simp only
  exact lens_cast (1 * n) (1 * m) (one_mul n) (one_mul m) D.detBasis D.distance D.wavelength hB hwl hd w i j hi hj hin

/-- **C111** (probe grid): without oversampling the probe of a new model covers the field of view of the exit wave, with or without a crop. -/
theorem bragg_from_dataset_probe_extent (rp : Fin k → Wave (1 * n - 2 * c) (1 * m - 2 * d)) (ro : ℕ → ℕ → ℝ) [NeZero (1 * n)] [NeZero (1 * m)]
    [NeZero (1 * n - 2 * c)] [NeZero (1 * m - 2 * d)]
    (M : Bragg (1 * n - 2 * c) (1 * m - 2 * d) (1 * n) (1 * m) N (k + 1)) (h : braggFromDataset D O 1 c d k rp ro = .ok M) (x : Fin 3) :
    M.probeBasis x 0 * (1 * n - 2 * c : ℕ) = M.objBasis x 0 * n ∧ M.probeBasis x 1 * (1 * m - 2 * d : ℕ) = M.objBasis x 1 * m := by
  obtain ⟨t0, rest, normal, h1, h2, h3, h4, hM⟩ := bragg_fields D O 1 c d k rp ro M h
  have h0 : ((1 * n - 2 * c : ℕ) : ℝ) ≠ 0 := by exact_mod_cast NeZero.ne (1 * n - 2 * c)
  have h0' : ((1 * m - 2 * d : ℕ) : ℝ) ≠ 0 := by exact_mod_cast NeZero.ne (1 * m - 2 * d)
  have hB : M.probeBasis = braggProbeBasis O.crop n m (1 * n - 2 * c) (1 * m - 2 * d) M.objBasis := by rw [hM]
  rw [hB]
  unfold braggProbeBasis
  cases hc : O.crop
  · obtain ⟨rfl, rfl⟩ := h4 hc
    simp
  · simp only [if_true, Matrix.of_apply, Matrix.cons_val_zero, Matrix.cons_val_one]
    constructor <;> field_simp

/-- **C111** (intensities, violated): the recorded relative intensities of the exposures are ignored: whatever they are, the new model is the same. -/
theorem bragg_intensities_violated (rp : Fin k → Wave (os * n - 2 * c) (os * m - 2 * d)) (ro : ℕ → ℕ → ℝ) (I : Option (Fin N → ℝ)) :
    braggFromDataset { D with intensities := I } O os c d k rp ro = braggFromDataset D O os c d k rp ro := rfl

end fields

/-! ### The Fourier crop -/

section crop
variable {a b : ℕ} [NeZero a] [NeZero b] (c d : ℕ) [NeZero (a - 2 * c)] [NeZero (b - 2 * d)]

theorem farField_pad_crop2 (p : Wave a b) (x : ZMod a) (y : ZMod b) :
    farField (padProbe a b (cropProbe2 c d p)) x y =
      if c ≤ x.val ∧ x.val < a - c ∧ d ≤ y.val ∧ y.val < b - d then farField p x y else 0 := by
  have ha := NeZero.ne (a - 2 * c)
  have hb := NeZero.ne (b - 2 * d)
  have e0 : (a - (a - 2 * c)) / 2 = c := by omega
  have e1 : (b - (b - 2 * d)) / 2 = d := by omega
  rw [farField_padProbe, e0, e1]
  have hx := ZMod.val_lt x
  have hy := ZMod.val_lt y
  by_cases h : c ≤ x.val ∧ x.val < a - c ∧ d ≤ y.val ∧ y.val < b - d
  · have e : ∀ (u : ZMod (a - 2 * c)) (v : ZMod (b - 2 * d)), farField (cropProbe2 c d p) u v =
        farField p ((c + u.val : ℕ) : ZMod a) ((d + v.val : ℕ) : ZMod b) := by
      intro u v
      unfold cropProbe2
      rw [far_field_unitary.2.1]
    rw [if_pos (by omega), if_pos h, e, ZMod.val_cast_of_lt (by omega), ZMod.val_cast_of_lt (by omega),
      show c + (x.val - c) = x.val by omega, show d + (y.val - d) = y.val by omega, ZMod.natCast_zmod_val, ZMod.natCast_zmod_val]
  · rw [if_neg (by omega), if_neg h]

end crop

theorem cropProbe2_zero (p : Wave n m) [NeZero (n - 2 * 0)] [NeZero (m - 2 * 0)] : cropProbe2 0 0 p = p := cropProbe_zero p

/-! ### A uniform object -/

section uniform
variable {a b k : ℕ} [NeZero a] [NeZero b]

/-- Propagating the probe between the exposures changes only the phase of its Fourier transform. -/
theorem bragg_illumination_norm (M : Bragg n m a b N k) (w d : ℝ) (p : Wave n m) (x : ZMod a) (y : ZMod b) :
    ‖farField (M.illumination w d p) x y‖ = ‖farField (padProbe a b fun x y => (w : ℂ) * p x y * (if M.support x y then 1 else 0)) x y‖ := by
  have hP : ∀ x y, ‖M.propagator d x y‖ = 1 := by
    intro x y
    unfold Bragg.propagator
    rw [mul_comm]
    exact Complex.norm_exp_ofReal_mul_I _
  unfold Bragg.illumination
  simp only
  split_ifs with hp
  · rw [farField_padProbe, farField_padProbe]
    split_ifs
    · rw [norm_farField_nearField, hP, one_mul]
    · rfl
  · rfl

/-- Without tilt correction, the pattern of a uniform object is that of the probe, at every position and distance. -/
theorem bragg_uniform (M : Bragg n m a b N k) (W : Fin N → ℝ) (hW : M.weights = some W) (htilt : M.tilt = none)
    (hobj : ∀ i j, M.obj.px i j = 1) (idx : Fin N) (t : Fin 3 → ℝ) (img : Img ℝ) (h : M.forward idx t = .ok img) :
    img = M.record fun x y => W idx ^ 2 * ∑ j, ‖farField (padProbe a b fun x y => (M.probeNorm : ℂ) *
      (M.probe j x y * (if M.support x y then 1 else 0))) (x : ZMod a) (y : ZMod b)‖ ^ 2 := by
  rw [M.forward_eq W hW] at h
  cases hw : objWindow a b M.obj ⌊M.pixTrans idx t 0⌋ ⌊M.pixTrans idx t 1⌋ with
  | error e => rw [hw] at h; exact (nomatch h)
  | ok sel =>
    rw [hw] at h
    rw [← Except.ok.inj h]
    refine congrArg M.record ?_
    funext x y
    rw [mul_sum]
    refine sum_congr rfl fun j _ => ?_
    have hsel := objWindow_const M.obj 1 hobj _ _ sel hw
    unfold Bragg.toDetector Bragg.exitWave
    rw [htilt]
    simp only
    have e1 : (fun x y => (M.probeNorm : ℂ) * sincApply false (M.pixTrans idx t 0, M.pixTrans idx t 1) sel
        (M.illumination (W idx) (M.distance t) (M.probe j)) x y : Wave a b) = (M.probeNorm : ℂ) • sincApply false (M.pixTrans idx t 0, M.pixTrans idx t 1) sel
        (M.illumination (W idx) (M.distance t) (M.probe j)) := rfl
    have e2 : (fun x y => (M.probeNorm : ℂ) * (M.probe j x y * (if M.support x y then 1 else 0)) : Wave n m) =
        (M.probeNorm : ℂ) • fun x y => M.probe j x y * (if M.support x y then 1 else 0) := rfl
    have e3 : (fun x y => (W idx : ℂ) * M.probe j x y * (if M.support x y then 1 else 0) : Wave n m) =
        (W idx : ℂ) • fun x y => M.probe j x y * (if M.support x y then 1 else 0) := by
      funext x y
      simp only [Pi.smul_apply, smul_eq_mul, mul_assoc]
    rw [e1, e2, isLinear_farField.map_smul, isLinear_padProbe.map_smul, isLinear_farField.map_smul]
    simp only [Pi.smul_apply, norm_smul]
    rw [hsel, sincApply_front_one, bragg_illumination_norm, e3, isLinear_padProbe.map_smul, isLinear_farField.map_smul]
    simp only [Pi.smul_apply, norm_smul, Complex.norm_real, Real.norm_eq_abs, mul_pow, sq_abs]
    ring

end uniform

/-! ### The first patterns -/

section first
variable (D : FancyData n m N) (O : BraggOpts) (os : ℕ) [NeZero os] [NeZero (os * n)] [NeZero (os * m)]
  (c d : ℕ) [NeZero (os * n - 2 * c)] [NeZero (os * m - 2 * d)] (k : ℕ)

/-- The probes of a new model: the first one is the (cropped) guess, the others are random with a hundredth of its peak. -/
theorem bragg_modes (rp : Fin k → Wave (os * n - 2 * c) (os * m - 2 * d)) (ro : ℕ → ℕ → ℝ)
    (M : Bragg (os * n - 2 * c) (os * m - 2 * d) (os * n) (os * m) N (k + 1)) (h : braggFromDataset D O os c d k rp ro = .ok M)
    (hs : O.supportRadius = none) (hne : cropProbe2 c d (D.braggProbe O.propagationDistance os) ≠ 0) :
    (fun x y => (M.probeNorm : ℂ) * (M.probe 0 x y * (if M.support x y then 1 else 0))) = cropProbe2 c d (D.braggProbe O.propagationDistance os) ∧
    ∀ j : Fin k, power (fun x y => (M.probeNorm : ℂ) * (M.probe j.succ x y * (if M.support x y then 1 else 0))) =
      (0.01 * ⨆ p : ZMod (os * n - 2 * c) × ZMod (os * m - 2 * d), ‖cropProbe2 c d (D.braggProbe O.propagationDistance os) p.1 p.2‖) ^ 2 *
        power (rp j) := by
  obtain ⟨t0, rest, normal, -, -, -, -, hM⟩ := bragg_fields D O os c d k rp ro M h
  have hg : braggGuess D O os c d k rp = probeStack false rp (cropProbe2 c d (D.braggProbe O.propagationDistance os)) := by
    unfold braggGuess
    rw [hs]
  have hsup : braggSupport O (os * n - 2 * c) (os * m - 2 * d) = fun _ _ => true := by
    unfold braggSupport
    rw [hs]
  rw [hg, hsup] at hM
  set P := cropProbe2 c d (D.braggProbe O.propagationDistance os) with hP
  obtain ⟨q1, q2⟩ := probeNormOf_spec (probeStack false rp P)
  have hn0 : probeNormOf (probeStack false rp P) ≠ 0 := by
    intro h0
    apply hne
    funext x y
    have := q1 x y
    rw [h0] at this
    exact norm_le_zero_iff.1 this
  have hn0' : (probeNormOf (probeStack false rp P) : ℂ) ≠ 0 := by exact_mod_cast hn0
  have hcancel : ∀ j, (fun x y => (M.probeNorm : ℂ) * (M.probe j x y * (if M.support x y then 1 else 0))) = probeStack false rp P j := by
    intro j
    rw [hM]
    funext x y
    simp only [if_true, mul_one]
    field_simp
  refine ⟨hcancel 0, fun j => ?_⟩
  rw [hcancel j.succ]
  show power (fun x y => (((0.01 : ℝ) * ⨆ p : ZMod (os * n - 2 * c) × ZMod (os * m - 2 * d), ‖P p.1 p.2‖ : ℝ) : ℂ) * rp j x y) = _
  rw [power_const_mul, Complex.norm_real, Real.norm_eq_abs, sq_abs]

theorem bragg_probe_far (hz : O.propagationDistance ≠ none → D.FreeWaves os) (x : ZMod (os * n)) (y : ZMod (os * m)) :
    ‖farField (D.braggProbe O.propagationDistance os) x y‖ = ‖farField (sharpProbe os D.mask (List.ofFn D.patterns) D.background) x y‖ :=
  start_far D { propagationDistance := O.propagationDistance } os rfl hz
    ⟨exitWaveGeometry D.detBasis ![n, m] D.wavelength D.distance os, fun _ _ => 1, D.braggProbe O.propagationDistance os⟩ (by
      unfold FancyData.start FancyData.braggProbe
      cases O.propagationDistance <;> rfl) x y

end first

/-- **C111** (the first patterns): take any dataset of non-negative counts, without oversampling and tilt correction, with a uniform initial object
(`randomize_ang=0`) and no probe support, and any number of modes, Fourier crop of `c` and `d` pixels, surface normal, propagation distance (if all waves of
the grid propagate), probe propagation and saturation. The new model simulates every exposure of the dataset; the pattern is the mean of the measured
patterns (masked, background subtracted; in the part that the Fourier crop leaves), plus the extra intensity `E` of the random modes, plus background, with
saturation, at every tilt of the sample and whatever the recorded intensities are. -/
theorem bragg_initial_patterns (D : FancyData n m N) (hD : D.Nonneg) (O : BraggOpts) (c d : ℕ) [NeZero (1 * n)] [NeZero (1 * m)]
    [NeZero (1 * n - 2 * c)] [NeZero (1 * m - 2 * d)] (k : ℕ) (rp : Fin k → Wave (1 * n - 2 * c) (1 * m - 2 * d)) (ro : ℕ → ℕ → ℝ)
    (M : Bragg (1 * n - 2 * c) (1 * m - 2 * d) (1 * n) (1 * m) N (k + 1)) (h : braggFromDataset D O 1 c d k rp ro = .ok M)
    (htilt : O.correctTilt = false) (hr : O.randomizeAng = 0) (hsup : O.supportRadius = none)
    (hz : O.propagationDistance ≠ none → D.FreeWaves 1)
    (hne : ∃ i j, c ≤ i ∧ i < n - c ∧ d ≤ j ∧ j < m - d ∧ D.mean i j ≠ 0) :
    ∃ (E : ℕ → ℕ → ℝ) (peak : ℝ), (∀ i j, 0 ≤ E i j) ∧ 0 ≤ peak ∧ peak ^ 2 ≤ ∑ i ∈ range n, ∑ j ∈ range m, D.mean i j ∧
      ∑ i ∈ range n, ∑ j ∈ range m, E i j = (0.01 * peak) ^ 2 * ∑ e, power (rp e) ∧
      ∀ idx, ∃ img, M.forward idx (D.translations idx) = .ok img ∧ img.h = n ∧ img.w = m ∧ ∀ i < n, ∀ j < m,
        img.px i j = cutAt O.saturation ((if c ≤ i ∧ i < n - c ∧ d ≤ j ∧ j < m - d then D.mean i j else 0) + E i j + 1e-7 + D.floor i j) := by
  obtain ⟨t0, rest, normal, -, -, -, -, hM⟩ := bragg_fields D O 1 c d k rp ro M h
  set P := D.braggProbe O.propagationDistance 1 with hP
  have ha := NeZero.ne (1 * n - 2 * c)
  have hb := NeZero.ne (1 * m - 2 * d)
  have hmain : ∀ x y, ‖farField (padProbe (1 * n) (1 * m) (cropProbe2 c d P)) x y‖ ^ 2 =
      if c ≤ x.val ∧ x.val < n - c ∧ d ≤ y.val ∧ y.val < m - d then D.mean x.val y.val else 0 := by
    intro x y
    rw [farField_pad_crop2]
    by_cases hc : c ≤ x.val ∧ x.val < n - c ∧ d ≤ y.val ∧ y.val < m - d
    · rw [if_pos hc, if_pos (by omega), hP, bragg_probe_far D O 1 hz, sharp_farField_one D hD]
    · rw [if_neg hc, if_neg (by omega)]
      simp
  have hcrop : cropProbe2 c d P ≠ 0 := by
    intro h0
    obtain ⟨i, j, hi, hi', hj, hj', hm⟩ := hne
    have := hmain (i : ZMod (1 * n)) (j : ZMod (1 * m))
    rw [ZMod.val_cast_of_lt (by omega), ZMod.val_cast_of_lt (by omega), if_pos ⟨hi, hi', hj, hj'⟩, h0,
      isLinear_padProbe.map_zero, isLinear_farField.map_zero] at this
    apply hm
    rw [← this]
    simp
  obtain ⟨m0, mj⟩ := bragg_modes D O 1 c d k rp ro M h hsup hcrop
  rw [← hP] at m0 mj
  set peak := ⨆ p : ZMod (1 * n - 2 * c) × ZMod (1 * m - 2 * d), ‖cropProbe2 c d P p.1 p.2‖ with hpeak
  have hn1 : 1 * n = n := one_mul n
  have hm1 : 1 * m = m := one_mul m
  have hrange : ∀ f : ℕ → ℕ → ℝ, ∑ i ∈ range n, ∑ j ∈ range m, f i j = ∑ i ∈ range (1 * n), ∑ j ∈ range (1 * m), f i j := by
    intro f; rw [hn1, hm1]
  refine ⟨fun i j => ∑ e : Fin k, ‖farField (padProbe (1 * n) (1 * m) fun x y => (M.probeNorm : ℂ) *
      (M.probe e.succ x y * (if M.support x y then 1 else 0))) (i : ZMod (1 * n)) (j : ZMod (1 * m))‖ ^ 2,
    peak, fun i j => by positivity, Real.iSup_nonneg fun p => norm_nonneg _, ?_, ?_, fun idx => ?_⟩
  · have hp : power (cropProbe2 c d P) ≤ ∑ i ∈ range n, ∑ j ∈ range m, D.mean i j := by
      rw [← power_padProbe (a := 1 * n) (b := 1 * m) (by omega) (by omega), ← far_field_unitary.2.2.1, hrange, power_eq_sum]
      refine sum_le_sum fun i hi => sum_le_sum fun j hj => ?_
      rw [hmain, ZMod.val_cast_of_lt (mem_range.1 hi), ZMod.val_cast_of_lt (mem_range.1 hj)]
      split_ifs
      · exact le_rfl
      · exact le_max_right _ _
    refine le_trans ?_ hp
    obtain ⟨q, hq⟩ := exists_eq_ciSup_of_finite (f := fun p : ZMod (1 * n - 2 * c) × ZMod (1 * m - 2 * d) => ‖cropProbe2 c d P p.1 p.2‖)
    rw [hpeak, ← hq]
    unfold power
    exact le_trans (single_le_sum (f := fun y => ‖cropProbe2 c d P q.1 y‖ ^ 2) (fun y _ => by positivity) (mem_univ q.2))
      (single_le_sum (f := fun x => ∑ y, ‖cropProbe2 c d P x y‖ ^ 2) (fun x _ => sum_nonneg fun y _ => by positivity) (mem_univ q.1))
  · rw [hrange, mul_sum]
    simp only [sum_comm (t := (univ : Finset (Fin k)))]
    refine sum_congr rfl fun e _ => ?_
    rw [← mj e, ← power_eq_sum, far_field_unitary.2.2.1, power_padProbe (by omega) (by omega)]
  · obtain ⟨img, himg⟩ := bragg_from_dataset_simulates D O 1 c d k rp ro M h idx
    have hti : M.tilt = none := by
      rw [hM]
      unfold FancyData.braggTilt
      rw [htilt]
      rfl
    have hobj : ∀ i j, M.obj.px i j = 1 := by
      intro i j
      rw [hM]
      simp only [hr, zero_mul]
      simp
    have he := bragg_uniform M (fun _ => 1) (by rw [hM]) hti hobj idx _ img himg
    have hf : M.saturation = O.saturation ∧ M.oversampling = 1 ∧ M.background = D.backgroundGuess.toImg := by rw [hM]; exact ⟨rfl, rfl, rfl⟩
    obtain ⟨g1, g2, g3⟩ := measQuadratic_px D hD { saturation := O.saturation } (1 * n) (1 * m) fun x y => 1 ^ 2 * ∑ j,
      ‖farField (padProbe (1 * n) (1 * m) fun x y => (M.probeNorm : ℂ) * (M.probe j x y * (if M.support x y then 1 else 0)))
        (x : ZMod (1 * n)) (y : ZMod (1 * m))‖ ^ 2
    have e : img = measQuadratic { saturation := O.saturation, oversampling := 1 } D.backgroundGuess.toImg none ⟨1 * n, 1 * m, fun x y => 1 ^ 2 * ∑ j,
      ‖farField (padProbe (1 * n) (1 * m) fun x y => (M.probeNorm : ℂ) * (M.probe j x y * (if M.support x y then 1 else 0)))
        (x : ZMod (1 * n)) (y : ZMod (1 * m))‖ ^ 2⟩ := by
      rw [he]
      unfold Bragg.record
      rw [hf.1, hf.2.1, hf.2.2]
    have g1' : img.h = 1 * n := by rw [e]; exact g1
    have g2' : img.w = 1 * m := by rw [e]; exact g2
    refine ⟨img, himg, g1'.trans hn1, g2'.trans hm1, fun i hi j hj => ?_⟩
    refine (congrArg (fun I : Img ℝ => I.px i j) e).trans ((g3 i j).trans ?_)
    have e' : D.efficiency ({ saturation := O.saturation } : FancyOpts) i j = 1 := rfl
    rw [e', Fin.sum_univ_succ, m0, hmain, ZMod.val_cast_of_lt (by omega), ZMod.val_cast_of_lt (by omega)]
    exact congrArg (cutAt O.saturation) (by ring)

/-! ### Total counts -/

/-- The total of a pattern recorded with oversampling: the pixels average their blocks. -/
theorem record_total (D : FancyData n m N) (hD : D.Nonneg) (os : ℕ) (hos : 0 < os) (A : Img ℝ) (h0 : A.h = os * n) (h1 : A.w = os * m) :
    let img := measQuadratic { saturation := none, oversampling := os } D.backgroundGuess.toImg none A
    img.h = n ∧ img.w = m ∧ img.total = A.total / os ^ 2 + ∑ i ∈ range n, ∑ j ∈ range m, (D.floor i j + 1e-7) := by
  intro img
  have hi : img = measQuadratic { saturation := none, oversampling := os } D.backgroundGuess.toImg none A := rfl
  obtain ⟨b1, b2, b3, -⟩ := oversampling_averages_blocks { oversampling := os } rfl rfl hos A
  have hpool := downsample_conserves_counts os hos none A ((maskedBy none A).sumPool os) (sumPool_blockSums os none A)
    (by rw [h0]; exact Dvd.intro _ rfl) (by rw [h1]; exact Dvd.intro _ rfl)
  simp only [usableValue_none] at hpool
  have hdiv0 : os * n / os = n := Nat.mul_div_cancel_left n hos
  have hdiv1 : os * m / os = m := Nat.mul_div_cancel_left m hos
  have hih : img.h = n ∧ img.w = m := by
    rw [hi]
    refine ⟨?_, ?_⟩
    · show (readOut { oversampling := os } A).h = n
      rw [b1, h0, hdiv0]
    · show (readOut { oversampling := os } A).w = m
      rw [b2, h1, hdiv1]
  have hb : ∀ i j : ℕ, D.backgroundGuess i j ^ 2 = D.floor i j := by
    intro i j
    unfold FancyData.backgroundGuess FancyData.floor
    cases hc : D.background with
    | none => norm_num
    | some b => exact Real.sq_sqrt (hD.background b hc i j)
  have hpx : ∀ i j, img.px i j = ((maskedBy none A).sumPool os).px i j / os ^ 2 + (D.floor i j + 1e-7) := by
    intro i j
    have e : img.px i j = (readOut { oversampling := os } A).px i j + D.backgroundGuess i j ^ 2 := by rw [hi]; rfl
    rw [e, b3, hb, sumPool_px]
    simp only [maskedBy]
    ring
  refine ⟨hih.1, hih.2, ?_⟩
  have ht : ((maskedBy none A).sumPool os).total = A.total := hpool
  have ht2 : ((maskedBy none A).sumPool os).h = n ∧ ((maskedBy none A).sumPool os).w = m := by
    refine ⟨?_, ?_⟩
    · show A.h / os = n
      rw [h0, hdiv0]
    · show A.w / os = m
      rw [h1, hdiv1]
  rw [← ht]
  unfold Img.total
  rw [hih.1, hih.2, ht2.1, ht2.2]
  simp only [hpx, sum_add_distrib, sum_div]

/-- **C111** (total counts): without tilt correction, saturation and probe support, for every oversampling `os`, surface normal, `randomize_ang` and number of
modes, the total of every simulated pattern is the total of the mean measured pattern plus that of the random modes, **divided by the square of the
oversampling**, plus the background. -/
theorem bragg_initial_total (D : FancyData n m N) (hD : D.Nonneg) (O : BraggOpts) (os : ℕ) [NeZero os] [NeZero (os * n)] [NeZero (os * m)]
    [NeZero (os * n - 2 * 0)] [NeZero (os * m - 2 * 0)] (k : ℕ) (rp : Fin k → Wave (os * n - 2 * 0) (os * m - 2 * 0)) (ro : ℕ → ℕ → ℝ)
    (M : Bragg (os * n - 2 * 0) (os * m - 2 * 0) (os * n) (os * m) N (k + 1)) (h : braggFromDataset D O os 0 0 k rp ro = .ok M)
    (htilt : O.correctTilt = false) (hsup : O.supportRadius = none) (hsat : O.saturation = none)
    (hz : O.propagationDistance ≠ none → D.FreeWaves os) (hne : ∃ i < n, ∃ j < m, D.mean i j ≠ 0) :
    ∃ peak : ℝ, 0 ≤ peak ∧ peak ^ 2 ≤ ∑ i ∈ range n, ∑ j ∈ range m, D.mean i j ∧
      ∀ idx, ∃ img, M.forward idx (D.translations idx) = .ok img ∧ img.h = n ∧ img.w = m ∧
        img.total = ((∑ i ∈ range n, ∑ j ∈ range m, D.mean i j) + (0.01 * peak) ^ 2 * ∑ e, power (rp e)) / os ^ 2 +
          ∑ i ∈ range n, ∑ j ∈ range m, (D.floor i j + 1e-7) := by
  have hos : 0 < os := Nat.pos_of_ne_zero (NeZero.ne os)
  obtain ⟨t0, rest, normal, -, -, -, -, hM⟩ := bragg_fields D O os 0 0 k rp ro M h
  set P := D.braggProbe O.propagationDistance os with hP
  have hpow : power P = ∑ i ∈ range n, ∑ j ∈ range m, D.mean i j := by
    have e := (sharp_probe_matches_data os hos D.mask (List.ofFn D.patterns) D.background hD.mask
      (by intro p hp; obtain ⟨e, rfl⟩ := List.mem_ofFn.1 hp; exact hD.patterns e)).1
    rw [← sum_pixels] at e
    rw [← far_field_unitary.2.2.1]
    have e2 : power (farField P) = power (sharpProbe os D.mask (List.ofFn D.patterns) D.background) := by
      rw [← far_field_unitary.2.2.1 (sharpProbe os D.mask (List.ofFn D.patterns) D.background)]
      unfold power
      exact sum_congr rfl fun x _ => sum_congr rfl fun y _ => by rw [hP, bragg_probe_far D O os hz]
    rw [e2, e]
    exact sum_congr rfl fun i _ => sum_congr rfl fun j _ => D.mean_eq i j
  have hmean : ∀ i j, 0 ≤ D.mean i j := fun i j => le_max_right _ _
  have hcrop : cropProbe2 0 0 P = P := cropProbe2_zero P
  have hS0 : cropProbe2 0 0 P ≠ 0 := by
    intro h0
    obtain ⟨i, hi, j, hj, hij⟩ := hne
    have hz' : power P = 0 := by
      rw [← hcrop, h0]
      simp [power]
    rw [hpow] at hz'
    have := (sum_eq_zero_iff_of_nonneg fun i _ => sum_nonneg fun j _ => hmean i j).1 hz' i (mem_range.2 hi)
    exact hij ((sum_eq_zero_iff_of_nonneg fun j _ => hmean i j).1 this j (mem_range.2 hj))
  obtain ⟨m0, mj⟩ := bragg_modes D O os 0 0 k rp ro M h hsup hS0
  rw [← hP] at m0 mj
  set peak := ⨆ p : ZMod (os * n - 2 * 0) × ZMod (os * m - 2 * 0), ‖cropProbe2 0 0 P p.1 p.2‖ with hpeak
  have hpc : power (cropProbe2 0 0 P) = ∑ i ∈ range n, ∑ j ∈ range m, D.mean i j := by
    rw [← hpow]
    exact congrArg (fun w => power w) hcrop
  refine ⟨peak, Real.iSup_nonneg fun p => norm_nonneg _, ?_, fun idx => ?_⟩
  · rw [← hpc]
    obtain ⟨q, hq⟩ := exists_eq_ciSup_of_finite (f := fun p : ZMod (os * n - 2 * 0) × ZMod (os * m - 2 * 0) => ‖cropProbe2 0 0 P p.1 p.2‖)
    rw [hpeak, ← hq]
    unfold power
    exact le_trans (single_le_sum (f := fun y => ‖cropProbe2 0 0 P q.1 y‖ ^ 2) (fun y _ => by positivity) (mem_univ q.2))
      (single_le_sum (f := fun x => ∑ y, ‖cropProbe2 0 0 P x y‖ ^ 2) (fun x _ => sum_nonneg fun y _ => by positivity) (mem_univ q.1))
  · obtain ⟨img, himg⟩ := bragg_from_dataset_simulates D O os 0 0 k rp ro M h idx
    have hti : M.tilt = none := by
      rw [hM]
      unfold FancyData.braggTilt
      rw [htilt]
      rfl
    have hph : ∀ i j, ‖M.obj.px i j‖ = 1 := by
      intro i j
      rw [hM]
      simp only
      rw [mul_comm]
      exact Complex.norm_exp_ofReal_mul_I _
    obtain ⟨I, hI, hsum⟩ := bragg_energy M (fun _ => 1) (by rw [hM]) hti (by omega) (by omega) hph idx _ img himg
    have hf : M.saturation = none ∧ M.oversampling = os ∧ M.background = D.backgroundGuess.toImg := by rw [hM]; exact ⟨hsat, rfl, rfl⟩
    unfold Bragg.record at hI
    rw [hf.1, hf.2.1, hf.2.2] at hI
    obtain ⟨r1, r2, r3⟩ := record_total D hD os hos ⟨os * n, os * m, I⟩ rfl rfl
    rw [← hI] at r1 r2 r3
    refine ⟨img, himg, r1, r2, r3.trans ?_⟩
    congr 2
    have e1 : (⟨os * n, os * m, I⟩ : Img ℝ).total = ∑ x : ZMod (os * n), ∑ y : ZMod (os * m), I x.val y.val := by
      rw [← sum_pixels]
      unfold Img.total
      simp only
      refine sum_congr rfl fun i hi => sum_congr rfl fun j hj => ?_
      rw [ZMod.val_cast_of_lt (mem_range.1 hi), ZMod.val_cast_of_lt (mem_range.1 hj)]
    have e2 : ∀ j, M.probeNorm ^ 2 * ∑ x, ∑ y, (if M.support x y then ‖M.probe j x y‖ ^ 2 else 0) =
        power (fun x y => (M.probeNorm : ℂ) * (M.probe j x y * (if M.support x y then 1 else 0))) := by
      intro j
      rw [power_const_mul, Complex.norm_real, Real.norm_eq_abs, sq_abs]
      congr 1
      unfold power
      refine sum_congr rfl fun x _ => sum_congr rfl fun y _ => ?_
      beta_reduce
      cases M.support x y <;> simp
    rw [e1, hsum, one_pow, mul_one, mul_sum]
    simp only [e2]
    rw [Fin.sum_univ_succ, m0, hpc]
    simp only [mj]
    rw [mul_sum]

/-- **C111** (violated): with oversampling the new model is too dark. -/
theorem bragg_initial_total_violated (D : FancyData n m N) (hD : D.Nonneg) (O : BraggOpts) (os : ℕ) (h2 : 2 ≤ os) [NeZero os] [NeZero (os * n)]
    [NeZero (os * m)] [NeZero (os * n - 2 * 0)] [NeZero (os * m - 2 * 0)] (rp : Fin 0 → Wave (os * n - 2 * 0) (os * m - 2 * 0)) (ro : ℕ → ℕ → ℝ)
    (M : Bragg (os * n - 2 * 0) (os * m - 2 * 0) (os * n) (os * m) N 1) (h : braggFromDataset D O os 0 0 0 rp ro = .ok M)
    (htilt : O.correctTilt = false) (hsup : O.supportRadius = none) (hsat : O.saturation = none)
    (hz : O.propagationDistance ≠ none → D.FreeWaves os) (hne : ∃ i < n, ∃ j < m, D.mean i j ≠ 0) (idx : Fin N) :
    ∃ img, M.forward idx (D.translations idx) = .ok img ∧
      img.total < (∑ i ∈ range n, ∑ j ∈ range m, D.mean i j) + ∑ i ∈ range n, ∑ j ∈ range m, (D.floor i j + 1e-7) := by
  obtain ⟨peak, -, -, hall⟩ := bragg_initial_total D hD O os 0 rp ro M h htilt hsup hsat hz hne
  obtain ⟨img, g1, -, -, g2⟩ := hall idx
  refine ⟨img, g1, ?_⟩
  rw [g2]
  have hmean : ∀ i j, 0 ≤ D.mean i j := fun i j => le_max_right _ _
  have hpos : 0 < ∑ i ∈ range n, ∑ j ∈ range m, D.mean i j := by
    obtain ⟨i, hi, j, hj, hij⟩ := hne
    refine lt_of_lt_of_le (lt_of_le_of_ne (hmean i j) (Ne.symm hij)) ?_
    exact le_trans (single_le_sum (f := fun j => D.mean i j) (fun j _ => hmean i j) (mem_range.2 hj))
      (single_le_sum (f := fun i => ∑ j ∈ range m, D.mean i j) (fun i _ => sum_nonneg fun j _ => hmean i j) (mem_range.2 hi))
  have hos : (2 : ℝ) ≤ os := by exact_mod_cast h2
  have hlt : (∑ i ∈ range n, ∑ j ∈ range m, D.mean i j) / (os : ℝ) ^ 2 < ∑ i ∈ range n, ∑ j ∈ range m, D.mean i j := by
    rw [div_lt_iff₀ (by positivity)]
    have : (1 : ℝ) < (os : ℝ) ^ 2 := by nlinarith
    exact (lt_mul_iff_one_lt_right hpos).2 this
  simp only [univ_eq_empty, sum_empty, mul_zero, add_zero]
  linarith

/-! ### Non-vacuity -/

/-- A sample tilted by 45°, a Fourier crop of one pixel along both axes and two modes: the model is made and simulates both exposures. -/
example (rp : Fin 1 → Wave (1 * 4 - 2 * 1) (1 * 4 - 2 * 1)) (ro : ℕ → ℕ → ℝ) :
    ∃ M, braggFromDataset toyFancyData { surfaceNormal := some ![1, 0, 1], crop := true, correctTilt := false } 1 1 1 1 rp ro = .ok M ∧
      ∃ (E : ℕ → ℕ → ℝ) (peak : ℝ), (∀ i j, 0 ≤ E i j) ∧ 0 ≤ peak ∧
      ∑ i ∈ range 4, ∑ j ∈ range 4, E i j = (0.01 * peak) ^ 2 * ∑ e, power (rp e) ∧
      ∀ idx, ∃ img, M.forward idx (toyFancyData.translations idx) = .ok img ∧ ∀ i < 4, ∀ j < 4,
        img.px i j = (if 1 ≤ i ∧ i < 3 ∧ 1 ≤ j ∧ j < 3 then 3 / 2 else 0) + E i j + 1e-7 + 1e-12 := by
  obtain ⟨M, hM⟩ := (bragg_from_dataset_succeeds toyFancyData { surfaceNormal := some ![1, 0, 1], crop := true, correctTilt := false } 1 1 1 1 rp ro).2
    ⟨by norm_num, ⟨_, rfl⟩, by simp⟩
  obtain ⟨E, peak, h1, h2, -, h3, h4⟩ := bragg_initial_patterns toyFancyData toyFancyData_nonneg _ 1 1 1 rp ro M hM rfl rfl rfl
    (fun h => absurd rfl h) ⟨1, 1, by norm_num, by norm_num, by norm_num, by norm_num, by rw [toyFancyData_mean]; norm_num⟩
  refine ⟨M, hM, E, peak, h1, h2, h3, fun idx => ?_⟩
  obtain ⟨img, g1, -, -, g2⟩ := h4 idx
  refine ⟨img, g1, fun i hi j hj => ?_⟩
  rw [g2 i hi j hj]
  simp only [cutAt, FancyData.floor, toyFancyData_mean]
  simp [toyFancyData]

end Cdtools
