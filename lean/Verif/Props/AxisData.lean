/- Property theorems C134: the two axes of the detector are treated alike. -/
import Verif.Props.AxisOthers

set_option linter.unusedSectionVars false

namespace Cdtools
open Finset Matrix

variable {n m : ℕ} [NeZero n] [NeZero m]

/-! ### Specification -/

/-- A real array with its axes exchanged. -/
def swapReal (I : RealIm n m) : RealIm m n := fun x y => I y x

/-! ### Geometry of the exit wave -/

/-- **C134** (exit_wave_geometry): the basis of the exit wave for a detector with its axes exchanged is the old one with its vectors exchanged. -/
theorem exitWaveGeometry_axes (B : Matrix (Fin 3) (Fin 2) ℝ) (shape : Fin 2 → ℕ) (wavelength distance : ℝ) (os : ℕ) :
    exitWaveGeometry (swapBasis B) (fun c => shape (Equiv.swap 0 1 c)) wavelength distance os =
      swapBasis (exitWaveGeometry B shape wavelength distance os) := by
  unfold exitWaveGeometry
  dsimp only
  rw [show (Matrix.of fun i j => swapBasis B i j * (shape (Equiv.swap 0 1 j) : ℝ) : Matrix (Fin 3) (Fin 2) ℝ) =
    swapBasis (Matrix.of fun i j => B i j * (shape j : ℝ)) from rfl, pinvTall_swap]
  rfl

/-! ### The probe guess -/

theorem sharpIntensities_swap (mask : RealIm n m) (P : List (RealIm n m)) (b : Option (RealIm n m)) :
    sharpIntensities (swapReal mask) (P.map swapReal) (b.map swapReal) = swapReal (sharpIntensities mask P b) := by
  funext i j
  unfold sharpIntensities swapReal
  simp only [List.map_map, List.length_map]
  cases b <;> rfl

/-- **C134** (SHARP_style_probe). -/
theorem sharpProbe_axes (os : ℕ) (mask : RealIm n m) (P : List (RealIm n m)) (b : Option (RealIm n m)) :
    sharpProbe os (swapReal mask) (P.map swapReal) (b.map swapReal) = swapWave (sharpProbe os mask P b) := by
  unfold sharpProbe
  dsimp only
  rw [sharpIntensities_swap, show (fun k l => (Real.sqrt (swapReal (sharpIntensities mask P b) k l) : ℂ)) =
    swapWave fun k l => (Real.sqrt (sharpIntensities mask P b k l) : ℂ) from rfl, inverseFarField_swap]
  funext k l
  simp only [swapWave]
  refine if_congr ⟨fun h => ⟨h.2.2.1, h.2.2.2, h.1, h.2.1⟩, fun h => ⟨h.2.2.1, h.2.2.2, h.1, h.2.1⟩⟩ rfl rfl

theorem iSup_swap (P : Wave n m) : (⨆ p : ZMod m × ZMod n, ‖swapWave P p.1 p.2‖) = ⨆ p : ZMod n × ZMod m, ‖P p.1 p.2‖ :=
  (Equiv.prodComm (ZMod m) (ZMod n)).iSup_congr fun _ => rfl

/-- **C134** (SimplePtycho.from_dataset): a dataset with the axes of its detector exchanged gives the model with its axes exchanged. -/
theorem simple_from_dataset_axes (B : Matrix (Fin 3) (Fin 2) ℝ) (t0 : Fin 3 → ℝ) (rest : List (Fin 3 → ℝ)) (mask : RealIm n m)
    (P : List (RealIm n m)) (b : Option (RealIm n m)) :
    simpleFromDataset (swapBasis B) t0 rest (swapReal mask) (P.map swapReal) (b.map swapReal) =
      (simpleFromDataset B t0 rest mask P b).map Simple.swapAxes := by
  have hs : ∀ (N : ℕ) (c : Fin 2), simpleSetup N (swapBasis B) t0 rest c = simpleSetup N B t0 rest (Equiv.swap 0 1 c) := fun N c => by
    unfold simpleSetup
    simp only [translationsToPixel_swap]
    rfl
  have hg : simpleGuess (swapReal mask) (P.map swapReal) (b.map swapReal) = swapWave (simpleGuess mask P b) := by
    unfold simpleGuess
    rw [sharpProbe_axes]
    rfl
  have hv : ![(simpleSetup m B t0 rest 1).2, (simpleSetup n B t0 rest 0).2] =
      swapPix ![(simpleSetup n B t0 rest 0).2, (simpleSetup m B t0 rest 1).2] := by
    funext c
    fin_cases c <;> rfl
  unfold simpleFromDataset
  rw [hg, hs, hs, Equiv.swap_apply_left, Equiv.swap_apply_right, hv]
  generalize simpleGuess mask P b = g
  generalize simpleSetup n B t0 rest 0 = u
  generalize simpleSetup m B t0 rest 1 = v
  unfold Simple.init
  dsimp only
  rw [iSup_swap]
  by_cases h0 : (⨆ p : ZMod n × ZMod m, ‖g p.1 p.2‖) = 0
  · rw [if_pos h0, if_pos h0, Option.map_none]
  · rw [if_neg h0, if_neg h0, Option.map_some]
    rfl

/-! ### FancyPtycho.from_dataset -/

/-- A dataset with the axes of its detector exchanged. The sample, its orientation and the translations are the same. -/
def FancyData.swapAxes {N : ℕ} (D : FancyData n m N) : FancyData m n N where
  wavelength := D.wavelength
  distance := D.distance
  detBasis := swapBasis D.detBasis
  patterns := fun i => swapReal (D.patterns i)
  translations := D.translations
  mask := swapReal D.mask
  background := D.background.map swapReal
  intensities := D.intensities
  qe := D.qe.map swapReal
  orientation := D.orientation

/-- The result of `start` with the axes exchanged. -/
def FancyStart.swapAxes {A B : ℕ} (S : FancyStart A B) : FancyStart B A := ⟨swapBasis S.objBasis, swapWave S.propagator, swapWave S.probe⟩

variable {N : ℕ}

theorem angularSpectrum_swap (s0 s1 wl z : ℝ) (h0 : 0 < s0) (h1 : 0 < s1) (hw : 0 < wl) :
    (angularSpectrum m n s1 s0 wl z none : Wave m n) = swapWave (angularSpectrum n m s0 s1 wl z none) := by
  funext k l
  unfold swapWave
  rw [angularSpectrum_eq s1 s0 wl z h1 h0 hw, angularSpectrum_eq s0 s1 wl z h0 h1 hw,
    show transverse2 m n s1 s0 k l = transverse2 n m s0 s1 l k from by unfold transverse2; exact add_comm _ _]

theorem cross_swap (u v : Vec3) : Vec3.cross u v = fun i => -Vec3.cross v u i := by
  funext i
  fin_cases i <;> simp [Vec3.cross] <;> ring

theorem unit_neg (v : Vec3) : Vec3.unit (fun i => -v i) = fun i => -v.unit i := by
  have : Vec3.dot (fun i => -v i) (fun i => -v i) = v.dot v := by simp [Vec3.dot]
  funext i
  unfold Vec3.unit
  rw [this, neg_div]

theorem sgn_neg (x : ℝ) : sgn (-x) = -sgn x := by
  unfold sgn
  split_ifs <;> first | linarith | norm_num

theorem perpDir_swap (b1 b2 ref : Vec3) : perpDir b2 b1 ref = perpDir b1 b2 ref := by
  unfold perpDir
  dsimp only
  rw [cross_swap b2.unit b1.unit, unit_neg]
  have : Vec3.dot (fun i => -(Vec3.cross b1.unit b2.unit).unit i) ref = -(Vec3.cross b1.unit b2.unit).unit.dot ref := by
    simp only [Vec3.dot]
    ring
  rw [this, sgn_neg]
  funext i
  ring

theorem dualBasis_swap (b1 b2 : Vec3) : dualBasis b2 b1 = (dualBasis b1 b2).swap := by
  have h1 : b2.dot b1 = b1.dot b2 := by simp only [Vec3.dot]; ring
  unfold dualBasis
  rw [h1, mul_comm (b2.dot b2) (b1.dot b1)]
  rfl

theorem inPlaneK_swap (b1 b2 : Vec3) (wl : ℝ) (perp : Vec3) (prop : Option Vec3) (ki kj : ℝ) :
    inPlaneK b2 b1 wl perp prop kj ki = inPlaneK b1 b2 wl perp prop ki kj := by
  unfold inPlaneK
  rw [dualBasis_swap]
  cases prop with
  | none =>
    funext i
    exact add_comm _ _
  | some p =>
    funext i
    exact congrArg (· + _) (add_comm _ _)

theorem generalizedPropagator_swap (b1 b2 : Vec3) (wl : ℝ) (off : Vec3) (prop : Option Vec3) (ki kj : ℝ) :
    generalizedPropagator b2 b1 wl off prop kj ki = generalizedPropagator b1 b2 wl off prop ki kj := by
  unfold generalizedPropagator
  rw [perpDir_swap]
  simp only [inPlaneK_swap]

/-- The geometry of the near field with the axes exchanged. -/
def NearGeometry.swapAxes (G : NearGeometry) : NearGeometry := ⟨swapBasis G.basis, G.z⟩

theorem near_propagator_swap (G : NearGeometry) (wl : ℝ) (n m : ℕ) : G.swapAxes.propagator wl m n = swapWave (G.propagator wl n m) := by
  funext k l
  exact generalizedPropagator_swap _ _ wl _ none _ _

theorem nearGeometry_swap (B : Matrix (Fin 3) (Fin 2) ℝ) (d : ℝ) (p : Option ℝ) (os : ℕ) :
    nearGeometry (swapBasis B) d p os = (nearGeometry B d p os).map NearGeometry.swapAxes := by
  unfold nearGeometry
  cases p with
  | none => rfl
  | some p =>
    dsimp only
    split_ifs <;> rfl

theorem fourierUpsample_swap (os : ℕ) [NeZero os] (w : Wave n m) : fourierUpsample os false (swapWave w) = swapWave (fourierUpsample os false w) := by
  haveI : NeZero (os * n) := ⟨Nat.mul_ne_zero (NeZero.ne os) (NeZero.ne n)⟩
  haveI : NeZero (os * m) := ⟨Nat.mul_ne_zero (NeZero.ne os) (NeZero.ne m)⟩
  unfold fourierUpsample
  dsimp only
  rw [farField_swap, ← inverseFarField_swap]
  congr 1
  funext x y
  simp only [swapWave]
  congr 1
  refine if_congr ⟨fun h => ⟨h.2.2.1, h.2.2.2, h.1, h.2.1⟩, fun h => ⟨h.2.2.1, h.2.2.2, h.1, h.2.1⟩⟩ rfl rfl

theorem sharpNear_swap (os : ℕ) [NeZero os] (G : NearGeometry) (wl : ℝ) (mask : RealIm n m) (P : List (RealIm n m)) (b : Option (RealIm n m)) :
    sharpNearOversampled os (G.swapAxes.backward wl) (swapReal mask) (P.map swapReal) (b.map swapReal) =
      swapWave (sharpNearOversampled os (G.backward wl) mask P b) := by
  unfold sharpNearOversampled sharpNearGuess
  rw [← fourierUpsample_swap]
  congr 1
  unfold NearGeometry.backward
  rw [sharpIntensities_swap, near_propagator_swap, ← nearField_swap]
  rfl

/-- If the first probe of a far-field model is propagated, then with a positive wavelength and distance to a detector whose basis vectors do not vanish. -/
def FancyData.CanPropagate (D : FancyData n m N) (O : FancyOpts) : Prop :=
  O.nearField = false → ∀ z, O.propagationDistance = some z → 0 < D.wavelength ∧ 0 < D.distance ∧ 0 < (basisCol D.detBasis 0).dot (basisCol D.detBasis 0) ∧
    0 < (basisCol D.detBasis 1).dot (basisCol D.detBasis 1)

theorem start_swap (D : FancyData n m N) (O : FancyOpts) (hz : D.CanPropagate O) (os : ℕ) [NeZero os]
    [NeZero (os * n)] [NeZero (os * m)] : D.swapAxes.start O os = (D.start O os).map FancyStart.swapAxes := by
  unfold FancyData.start
  cases hfar : O.nearField with
  | true =>
    simp only [if_true]
    rw [show D.swapAxes.detBasis = swapBasis D.detBasis from rfl, nearGeometry_swap]
    change (match (nearGeometry D.detBasis D.distance O.propagationDistance os).map NearGeometry.swapAxes with | .error e => _ | .ok G => _) = _
    cases nearGeometry D.detBasis D.distance O.propagationDistance os with
    | error e => rfl
    | ok G =>
      refine congrArg Except.ok ?_
      unfold FancyStart.swapAxes
      simp only [FancyStart.mk.injEq]
      refine ⟨rfl, near_propagator_swap G D.wavelength (os * n) (os * m), ?_⟩
      rw [← sharpNear_swap, List.map_ofFn]
      rfl
  | false =>
  simp only [Bool.false_eq_true, if_false, Except.map, FancyStart.swapAxes]
  rw [← exitWaveGeometry_axes]
  have h1 : (fun c => (![n, m] : Fin 2 → ℕ) (Equiv.swap 0 1 c)) = ![m, n] := by
    funext c
    fin_cases c <;> rfl
  have h2 : sharpProbe os D.swapAxes.mask (List.ofFn D.swapAxes.patterns) D.swapAxes.background =
      swapWave (sharpProbe os D.mask (List.ofFn D.patterns) D.background) := by
    rw [← sharpProbe_axes, List.map_ofFn]
    rfl
  rw [h1]
  cases hp : O.propagationDistance with
  | none =>
    simp only [h2]
    rfl
  | some z =>
    obtain ⟨hw, hd, h3, h4⟩ := hz hfar z hp
    have hn : (0 : ℝ) < n := by exact_mod_cast Nat.pos_of_neZero n
    have hm : (0 : ℝ) < m := by exact_mod_cast Nat.pos_of_neZero m
    have h5 : sharpProbePropagated os D.swapAxes.mask (List.ofFn D.swapAxes.patterns) D.swapAxes.background
        (Real.sqrt ((basisCol D.swapAxes.detBasis 0).dot (basisCol D.swapAxes.detBasis 0)))
        (Real.sqrt ((basisCol D.swapAxes.detBasis 1).dot (basisCol D.swapAxes.detBasis 1))) D.swapAxes.distance D.swapAxes.wavelength z =
        swapWave (sharpProbePropagated os D.mask (List.ofFn D.patterns) D.background
          (Real.sqrt ((basisCol D.detBasis 0).dot (basisCol D.detBasis 0))) (Real.sqrt ((basisCol D.detBasis 1).dot (basisCol D.detBasis 1)))
          D.distance D.wavelength z) := by
      unfold sharpProbePropagated
      rw [h2, show basisCol D.swapAxes.detBasis 0 = basisCol D.detBasis 1 from rfl, show basisCol D.swapAxes.detBasis 1 = basisCol D.detBasis 0 from rfl,
        show D.swapAxes.distance = D.distance from rfl, show D.swapAxes.wavelength = D.wavelength from rfl,
        angularSpectrum_swap _ _ _ _ (div_pos (mul_pos hw hd) (mul_pos hn (Real.sqrt_pos.mpr h3)))
          (div_pos (mul_pos hw hd) (mul_pos hm (Real.sqrt_pos.mpr h4))) hw, nearField_swap]
    simp only [h5]
    rfl

theorem cropProbe_swap {A B : ℕ} [NeZero A] [NeZero B] (c : ℕ) [NeZero (A - 2 * c)] [NeZero (B - 2 * c)] (p : Wave A B) :
    cropProbe c (swapWave p) = swapWave (cropProbe c p) := by
  unfold cropProbe
  rw [farField_swap]
  exact inverseFarField_swap fun x y => farField p ((c + x.val : ℕ) : ZMod A) ((c + y.val : ℕ) : ZMod B)

theorem probeStack_swap {A B k : ℕ} [NeZero A] [NeZero B] (f : Bool) (rnd : Fin k → Wave A B) (p : Wave A B) :
    probeStack f (fun i => swapWave (rnd i)) (swapWave p) = fun j => swapWave (probeStack f rnd p j) := by
  unfold probeStack
  rw [iSup_swap, farField_swap]
  funext j
  refine Fin.cases ?_ (fun i => ?_) j
  · cases f <;> rfl
  · rfl

theorem supportDisc_swap (A B : ℕ) (r : ℝ) (x : ZMod B) (y : ZMod A) : supportDisc B A r x y = supportDisc A B r y x := by
  unfold supportDisc
  rw [add_comm]

theorem initialObject_swap (O : FancyOpts) (h w : ℕ) (rnd : ℕ → ℕ → ℝ) :
    initialObject O w h (fun i j => rnd j i) = (initialObject O h w rnd).swapAxes := by
  unfold initialObject
  dsimp only
  cases O.exponentiate <;> cases O.phaseOnly <;> rfl

theorem fancyInit_swap {A B k : ℕ} [NeZero A] [NeZero B] (guess : Fin (k + 1) → Wave A B) (f : Bool) (s : ℝ) (S : Option (ZMod A → ZMod B → Bool)) :
    fancyInit (N := N) ⟨fun j => swapWave (guess j), some 0, if f then some 0 else none, s, S.map fun u x y => u y x⟩ =
      (fancyInit (N := N) ⟨guess, some 0, if f then some 0 else none, s, S⟩).map fun P =>
        ⟨fun j => swapWave (P.probe j), P.probeNorm, fun x y => P.support y x, P.offsets.map fun o i => swapPix (o i),
          P.fourierShifts.map fun o i => swapPix (o i)⟩ := by
  unfold fancyInit probeNormOf
  dsimp only
  rw [iSup_swap]
  have h0 : (fun i : Fin N => s⁻¹ • (0 : Fin N → Fin 2 → ℝ) i) = fun i => swapPix (s⁻¹ • (0 : Fin N → Fin 2 → ℝ) i) := by
    funext i c
    simp [swapPix]
  have h1 : (0 : Fin N → Fin 2 → ℝ) = fun i => swapPix ((0 : Fin N → Fin 2 → ℝ) i) := by
    funext i c
    simp [swapPix]
  cases f <;> cases S <;> simp only [Bool.false_eq_true, if_false, if_true, Except.map, Option.map_some, Option.map_none, one_div, ← h0, ← h1] <;> rfl

/-- **C134** (FancyPtycho.from_dataset, near or far field): a dataset with the axes of its detector exchanged gives the model with its axes
exchanged, except in reflection; see `reflection_normal_axes`. -/
theorem from_dataset_axes (D : FancyData n m N) (O : FancyOpts) (hz : D.CanPropagate O)
    (hr : O.scatteringMode ≠ some "r" ∧ O.scatteringMode ≠ some "reflection") (os : ℕ) [NeZero os]
    [NeZero (os * n)] [NeZero (os * m)] (c : ℕ) [NeZero (os * n - 2 * c)] [NeZero (os * m - 2 * c)] (k : ℕ)
    (rp : Fin k → Wave (os * n - 2 * c) (os * m - 2 * c)) (ro : ℕ → ℕ → ℝ) :
    fancyFromDataset D.swapAxes O os c k (fun i => swapWave (rp i)) (fun i j => ro j i) =
      (fancyFromDataset D O os c k rp ro).map Fancy.swapAxes := by
  have hN : datasetNormal O.scatteringMode D.swapAxes.orientation D.swapAxes.detBasis = datasetNormal O.scatteringMode D.orientation D.detBasis := by
    unfold datasetNormal
    simp only [hr.1, hr.2, or_self, if_false]
    rfl
  unfold fancyFromDataset
  rw [start_swap D O hz, hN, show D.swapAxes.translations = D.translations from rfl]
  rcases List.ofFn D.translations with _ | ⟨t0, rest⟩
  · cases D.start O os <;> cases datasetNormal O.scatteringMode D.orientation D.detBasis <;> rfl
  cases D.start O os with
  | error e => rfl
  | ok S =>
  cases datasetNormal O.scatteringMode D.orientation D.detBasis with
  | error e => rfl
  | ok nrm =>
  cases initialWeights N (k + 1) O.dmRank with
  | error e => rfl
  | ok V =>
  simp only [Except.map, FancyStart.swapAxes, translationsToPixel_swap, cropProbe_swap, probeStack_swap, initialObject_swap]
  have hv : ∀ u v : ℝ, ![v, u] = swapPix ![u, v] := fun u v => by
    funext c
    fin_cases c <;> rfl
  have hb : D.swapAxes.backgroundGuess.toImg = D.backgroundGuess.toImg.swapAxes := by
    unfold FancyData.backgroundGuess FancyData.swapAxes
    cases D.background <;> rfl
  have hq : (D.swapAxes.qeGuess O).map RealIm.toImg = ((D.qeGuess O).map RealIm.toImg).map Img.swapAxes := by
    unfold FancyData.qeGuess FancyData.swapAxes
    cases O.useQeMask <;> cases D.qe <;> rfl
  rw [hb, hq]
  have hx : ∀ v : Fin 2 → ℝ, swapPix v 0 = v 1 ∧ swapPix v 1 = v 0 := fun v => ⟨rfl, rfl⟩
  simp only [(hx _).1, (hx _).2]
  rw [hv]
  cases O.supportRadius with
  | none =>
    simp only [Option.map_none]
    have h1 := fancyInit_swap (N := N) (probeStack O.fourierProbe rp (cropProbe c S.probe)) O.allowFourierShifts O.translationScale none
    rw [Option.map_none] at h1
    rw [h1]
    generalize fancyInit (N := N) _ = I
    cases I with
    | error e => rfl
    | ok P => rfl
  | some r =>
    simp only [Option.map_some]
    have h2 : (fun j x y => swapWave (probeStack O.fourierProbe rp (cropProbe c S.probe) j) x y *
        (if supportDisc (os * m - 2 * c) (os * n - 2 * c) r x y then 1 else 0)) =
        fun j => swapWave fun x y => probeStack O.fourierProbe rp (cropProbe c S.probe) j x y *
          (if supportDisc (os * n - 2 * c) (os * m - 2 * c) r x y then 1 else 0) := by
      funext j x y
      simp only [swapWave, supportDisc_swap]
    have h3 : supportDisc (os * m - 2 * c) (os * n - 2 * c) r = fun x y => supportDisc (os * n - 2 * c) (os * m - 2 * c) r y x := by
      funext x y
      exact supportDisc_swap _ _ r x y
    have h1 := fancyInit_swap (N := N) (fun j x y => probeStack O.fourierProbe rp (cropProbe c S.probe) j x y *
          (if supportDisc (os * n - 2 * c) (os * m - 2 * c) r x y then 1 else 0)) O.allowFourierShifts O.translationScale
      (some (supportDisc (os * n - 2 * c) (os * m - 2 * c) r))
    rw [Option.map_some] at h1
    rw [h2, h3, h1]
    generalize fancyInit (N := N) _ = I
    cases I with
    | error e => rfl
    | ok P => rfl

/-! ### The surface normal in reflection -/

/-- **C134** (reflection): the surface normal that `from_dataset` computes in reflection does depend on the order of the axes: the normals for the
two orders are perpendicular. -/
theorem reflection_normal_axes (o : Option Vec3) (B : Matrix (Fin 3) (Fin 2) ℝ) (u v : Vec3)
    (hu : datasetNormal (some "reflection") o B = .ok u) (hv : datasetNormal (some "reflection") o (swapBasis B) = .ok v) : u.dot v = 0 := by
  have hc : Vec3.cross (fun i => swapBasis B i 0) (fun i => swapBasis B i 1) = fun i => -Vec3.cross (fun i => B i 0) (fun i => B i 1) i := by
    funext i
    fin_cases i <;> simp [Vec3.cross, swapBasis] <;> ring
  unfold datasetNormal at hu hv
  rw [hc] at hv
  generalize Vec3.cross (fun i => B i 0) (fun i => B i 1) = c at hu hv
  have hd : Vec3.dot (fun i => -c i) (fun i => -c i) = c.dot c := by
    simp [Vec3.dot, Fin.sum_univ_three]
  simp only [reduceCtorEq, Option.some.injEq, String.reduceEq, or_self, or_true, if_true, if_false, hd] at hu hv
  split_ifs at hu hv with h1 h2 h3 h4
  injection hu with hu
  injection hv with hv
  have hp : 0 < c.dot c := by
    have h5 : c 0 ≠ 0 ∨ c 1 ≠ 0 ∨ c 2 ≠ 0 := by
      by_contra h
      push Not at h
      exact h1 (by funext i; fin_cases i <;> simp [h.1, h.2.1, h.2.2])
    simp only [Vec3.dot, Fin.sum_univ_three]
    rcases h5 with h | h | h <;> nlinarith [mul_self_pos.mpr h, mul_self_nonneg (c 0), mul_self_nonneg (c 1), mul_self_nonneg (c 2)]
  have hs : Real.sqrt (c.dot c) ^ 2 = c 0 * c 0 + c 1 * c 1 + c 2 * c 2 := by
    rw [Real.sq_sqrt hp.le]
    simp [Vec3.dot, Fin.sum_univ_three]
  have h0 : Real.sqrt (c.dot c) ≠ 0 := (Real.sqrt_pos.mpr hp).ne'
  generalize Real.sqrt (c.dot c) = q at hu hv hs h0
  rw [← hu, ← hv]
  have : ∀ (s s' : Vec3) (p p' : ℝ), s.dot s' = 0 → Vec3.dot (fun i => s i / p) (fun i => s' i / p') = 0 := fun s s' p p' h => by
    have : Vec3.dot (fun i => s i / p) (fun i => s' i / p') = s.dot s' / (p * p') := by
      simp only [Vec3.dot, Fin.sum_univ_three]
      ring
    rw [this, h, zero_div]
  refine this _ _ _ _ ?_
  simp [Vec3.dot, Fin.sum_univ_three]
  field_simp
  linarith

/-- A detector at a right angle to the beam. -/
example : ∃ u v, datasetNormal (some "reflection") none !![0, 0; 1, 0; 0, 1] = .ok u ∧
    datasetNormal (some "reflection") none (swapBasis !![0, 0; 1, 0; 0, 1]) = .ok v := by
  unfold datasetNormal
  simp [Vec3.cross, Vec3.dot, swapBasis, funext_iff, Fin.forall_fin_succ]
  exact ⟨⟨![_, _, _], rfl, rfl, rfl⟩, ⟨![_, _, _], rfl, rfl, rfl⟩⟩

/-! ### A concrete case -/

example (rp : Fin 1 → Wave (1 * 4 - 2 * 1) (1 * 4 - 2 * 1)) (ro : ℕ → ℕ → ℝ) :
    ∃ M, fancyFromDataset toyFancyData {} 1 1 1 rp ro = .ok M ∧
      fancyFromDataset toyFancyData.swapAxes {} 1 1 1 (fun i => swapWave (rp i)) (fun i j => ro j i) = .ok M.swapAxes := by
  have hM : ∃ M, fancyFromDataset toyFancyData {} 1 1 1 rp ro = .ok M := by
    unfold fancyFromDataset
    simp [FancyData.start, datasetNormal, initialWeights, fancyInit, toyFancyData]
  obtain ⟨M, hM⟩ := hM
  refine ⟨M, hM, ?_⟩
  rw [from_dataset_axes toyFancyData {} (fun _ _ h => absurd h (by simp)) ⟨by simp, by simp⟩, hM]
  rfl

end Cdtools
