/- Property theorems C110: a model made by `MultislicePtycho.from_dataset`. -/
import Verif.Model.MultisliceFromDataset
import Verif.Props.FancyFromDataset
import Verif.Props.MultisliceSetup

set_option linter.unusedSectionVars false

namespace Cdtools
open Finset

variable {n m N : ℕ} [NeZero n] [NeZero m]

section fields
variable (D : FancyData n m N) (O : MultisliceOpts) (os : ℕ) [NeZero os] [NeZero (os * n)] [NeZero (os * m)]
  (c : ℕ) [NeZero (os * n - 2 * c)] [NeZero (os * m - 2 * c)] (k : ℕ)

/-- **C110** (same start): apart from object, propagator and weights, a new multislice model is the new `FancyPtycho` model of the same dataset with the
same options. -/
theorem multislice_fresh (rp : Fin k → Wave (os * n - 2 * c) (os * m - 2 * c)) (ro : ℕ → ℕ → ℕ → ℝ)
    (M : Multislice (os * n - 2 * c) (os * m - 2 * c) (os * n) (os * m) N (k + 1)) (h : multisliceFromDataset D O os c k rp ro = .ok M) :
    O.probeShape = false ∧ O.nz ≠ 0 ∧ ∃ F W W', fancyFromDataset D O.shared os c k rp (ro 0) = .ok F ∧
      initialWeights N (k + 1) O.dmRank = .ok W ∧ multisliceWeights D.intensities W = .ok W' ∧
      M = { probe := F.probe, probeNorm := F.probeNorm, support := F.support, weights := some W', fourierProbe := F.fourierProbe,
            slices := List.ofFn fun s : Fin O.nz => initialSlice O F.obj.h F.obj.w (ro s), exponentiate := F.exponentiate,
            propagator := waveImg (initialPropagator O F.objBasis D.wavelength : Wave n m), objBasis := F.objBasis, detBasis := F.detBasis,
            normal := F.normal, minTranslation := F.minTranslation, translationScale := F.translationScale, offsets := F.offsets,
            simulateTranslation := O.simulateTranslation, oversampling := F.oversampling, background := F.background,
            saturation := F.saturation } := by
  unfold multisliceFromDataset at h
  split at h
  · rename_i t0 rest S normal W h1 h2 h3 h4
    split_ifs at h with hp hz
    have hF : ∃ F, fancyFromDataset D O.shared os c k rp (ro 0) = .ok F := by
      unfold fancyFromDataset
      have e3 : datasetNormal O.shared.scatteringMode D.orientation D.detBasis = .ok normal := h3
      have e4 : initialWeights N (k + 1) O.shared.dmRank = .ok W := h4
      simp only [h1, h2, e3, e4]
      exact ⟨_, rfl⟩
    obtain ⟨F, hF⟩ := hF
    obtain ⟨t0', rest', S', normal', W0, g1, g2, g3, g4, hFe⟩ := fresh_fields D O.shared os c k rp (ro 0) F hF
    rw [h1] at g1
    obtain ⟨rfl, rfl⟩ := List.cons.inj g1
    obtain rfl : S = S' := by rw [h2] at g2; exact Except.ok.inj g2
    obtain rfl : normal = normal' := Except.ok.inj (h3.symm.trans g3)
    simp only at h
    cases hW : multisliceWeights D.intensities W with
    | error e => rw [hW] at h; cases h
    | ok W' =>
      rw [hW] at h
      refine ⟨by simpa using hp, hz, F, W, W', hF, h4, hW, ?_⟩
      rw [← Except.ok.inj h]
      have sh := initialObject_shape O.shared
        (objectSetup (os * n) (translationsToPixel S.objBasis normal t0 0)
          (rest.map fun t => translationsToPixel S.objBasis normal t 0) O.padding).1.toNat
        (objectSetup (os * m) (translationsToPixel S.objBasis normal t0 1)
          (rest.map fun t => translationsToPixel S.objBasis normal t 1) O.padding).1.toNat (ro 0)
      have hobj : F.obj.h = (objectSetup (os * n) (translationsToPixel S.objBasis normal t0 0)
          (rest.map fun t => translationsToPixel S.objBasis normal t 0) O.padding).1.toNat ∧ F.obj.w =
          (objectSetup (os * m) (translationsToPixel S.objBasis normal t0 1)
          (rest.map fun t => translationsToPixel S.objBasis normal t 1) O.padding).1.toNat := by
        rw [hFe]; exact sh
      rw [hobj.1, hobj.2]
      rw [hFe]
      unfold freshGuess freshSupport
      cases hs : O.supportRadius with
      | none =>
        have : O.shared.supportRadius = none := hs
        simp only [this, Option.map_none, Option.getD_none]
        rfl
      | some r =>
        have : O.shared.supportRadius = some r := hs
        simp only [this, Option.map_some, Option.getD_some]
        rfl
  all_goals cases h

end fields

/-! ### C110 -/

theorem mapM_ok_of_ok {α β : Type} (f : α → Except String β) (l : List α) (h : ∀ x ∈ l, ∃ y, f x = .ok y) : ∃ ys, l.mapM f = .ok ys ∧
    ys.length = l.length ∧ ∀ y ∈ ys, ∃ x ∈ l, f x = .ok y := by
  induction l with
  | nil => exact ⟨[], rfl, rfl, by simp⟩
  | cons a l ih =>
    obtain ⟨y, hy⟩ := h a (by simp)
    obtain ⟨ys, h1, h2, h3⟩ := ih fun x hx => h x (by simp [hx])
    refine ⟨y :: ys, ?_, by simp [h2], ?_⟩
    · rw [List.mapM_cons, hy, h1]
      rfl
    · intro z hz
      rcases List.mem_cons.1 hz with rfl | hz
      · exact ⟨a, by simp, hy⟩
      · obtain ⟨x, hx, hfx⟩ := h3 z hz
        exact ⟨x, by simp [hx], hfx⟩

theorem objWindow_shape {a b : ℕ} [NeZero a] [NeZero b] (o o' : Img ℂ) (hh : o'.h = o.h) (hw : o'.w = o.w) (u v : ℤ) (sel : Wave a b)
    (hs : objWindow a b o u v = .ok sel) : ∃ sel' : Wave a b, objWindow a b o' u v = .ok sel' ∧ ∀ x y, ∃ i j, sel' x y = o'.px i j := by
  unfold objWindow at hs ⊢
  rw [hh, hw]
  simp only at hs ⊢
  split_ifs at hs with hc
  rw [if_pos hc]
  exact ⟨_, rfl, fun x y => ⟨_, _, rfl⟩⟩

/-- The windows of a new model at an exposure of its dataset. -/
theorem multislice_windows (D : FancyData n m N) (O : MultisliceOpts) (os : ℕ) [NeZero os] [NeZero (os * n)] [NeZero (os * m)]
    (c : ℕ) [NeZero (os * n - 2 * c)] [NeZero (os * m - 2 * c)] (k : ℕ) (rp : Fin k → Wave (os * n - 2 * c) (os * m - 2 * c)) (ro : ℕ → ℕ → ℕ → ℝ)
    (M : Multislice (os * n - 2 * c) (os * m - 2 * c) (os * n) (os * m) N (k + 1)) (h : multisliceFromDataset D O os c k rp ro = .ok M)
    (idx : Fin N) : ∃ ws : List (Wave (os * n) (os * m)), (M.slices.mapM fun o => objWindow (os * n) (os * m) (M.transmission o)
        ⌊M.pixTrans idx (D.translations idx) 0⌋ ⌊M.pixTrans idx (D.translations idx) 1⌋) = .ok ws ∧ ws.length = O.nz ∧
      ∀ w ∈ ws, ∀ x y, ∃ s i j, w x y = Complex.exp (Complex.I * ((O.randomizeAng * (ro s i j - 0.5) : ℝ) : ℂ)) := by
  obtain ⟨-, hz, F, W, W', hF, -, -, hM⟩ := multislice_fresh D O os c k rp ro M h
  obtain ⟨img, himg⟩ := from_dataset_simulates D O.shared os c k rp (ro 0) F hF (by intro hc; cases hc) idx
  have hpt : M.pixTrans idx (D.translations idx) = F.pixTrans idx (D.translations idx) := by rw [hM]; rfl
  have hsl : ∀ o ∈ M.slices, o.h = F.obj.h ∧ o.w = F.obj.w := by
    rw [hM]
    intro o ho
    obtain ⟨s, rfl⟩ := List.mem_ofFn.1 ho
    exact ⟨rfl, rfl⟩
  have hFt : F.transmission.h = F.obj.h ∧ F.transmission.w = F.obj.w := by
    have : F.phaseOnly = false := by
      obtain ⟨t0', rest', S', normal', W0, g1, g2, g3, g4, hFe⟩ := fresh_fields D O.shared os c k rp (ro 0) F hF
      rw [hFe]
      rfl
    unfold Fancy.transmission
    cases F.exponentiate <;> simp [this, Img.map]
  unfold Fancy.forward at himg
  split_ifs at himg
  cases hsel : objWindow (os * n) (os * m) F.transmission ⌊F.pixTrans idx (D.translations idx) 0⌋ ⌊F.pixTrans idx (D.translations idx) 1⌋ with
  | error e => simp only [hsel] at himg; cases himg
  | ok sel =>
    have hwin : ∀ o ∈ M.slices, ∃ sel' : Wave (os * n) (os * m), objWindow (os * n) (os * m) (M.transmission o)
        ⌊M.pixTrans idx (D.translations idx) 0⌋ ⌊M.pixTrans idx (D.translations idx) 1⌋ = .ok sel' ∧
        ∀ x y, ∃ i j, sel' x y = (M.transmission o).px i j := by
      intro o ho
      rw [hpt]
      refine objWindow_shape F.transmission (M.transmission o) ?_ ?_ _ _ sel hsel
      · rw [(transmission_shape M o).1, (hsl o ho).1, hFt.1]
      · rw [(transmission_shape M o).2, (hsl o ho).2, hFt.2]
    obtain ⟨ws, w1, w2, w3⟩ := mapM_ok_of_ok _ M.slices fun o ho => (hwin o ho).imp fun _ q => q.1
    refine ⟨ws, w1, ?_, fun w hw x y => ?_⟩
    · rw [w2, hM]
      exact List.length_ofFn
    · obtain ⟨o, ho, hoe⟩ := w3 w hw
      obtain ⟨sel', q1, q2⟩ := hwin o ho
      rw [hoe] at q1
      obtain rfl := Except.ok.inj q1
      obtain ⟨i, j, hij⟩ := q2 x y
      rw [hM] at ho
      obtain ⟨s, rfl⟩ := List.mem_ofFn.1 ho
      refine ⟨s, i, j, hij.trans ?_⟩
      have he : M.exponentiate = O.exponentiate := by
        obtain ⟨t0', rest', S', normal', W0, g1, g2, g3, g4, hFe⟩ := fresh_fields D O.shared os c k rp (ro 0) F hF
        rw [hM, hFe]
        rfl
      unfold Multislice.transmission initialSlice
      rw [he]
      cases O.exponentiate <;> rfl

/-- **C110** (a model fits its data): without oversampling, for every dataset and all options, a model made by `MultislicePtycho.from_dataset` can simulate
every exposure of its dataset. -/
theorem multislice_from_dataset_simulates (D : FancyData n m N) (O : MultisliceOpts) [NeZero (1 * n)] [NeZero (1 * m)]
    (c : ℕ) [NeZero (1 * n - 2 * c)] [NeZero (1 * m - 2 * c)] (k : ℕ) (rp : Fin k → Wave (1 * n - 2 * c) (1 * m - 2 * c)) (ro : ℕ → ℕ → ℕ → ℝ)
    (M : Multislice (1 * n - 2 * c) (1 * m - 2 * c) (1 * n) (1 * m) N (k + 1)) (h : multisliceFromDataset D O 1 c k rp ro = .ok M)
    (idx : Fin N) : ∃ img, M.forward idx (D.translations idx) = .ok img := by
  obtain ⟨-, hz, F, W, W', hF, -, -, hM⟩ := multislice_fresh D O 1 c k rp ro M h
  obtain ⟨ws, w1, -⟩ := multislice_windows D O 1 c k rp ro M h idx
  refine ⟨_, M.forward_eq idx _ ws w1 ?_⟩
  rw [hM]
  exact ⟨(one_mul n).symm, (one_mul m).symm⟩

/-- **C110** (violated): with oversampling a model is made, but it can simulate no exposure at all. -/
theorem multislice_from_dataset_oversampling_violated (D : FancyData n m N) (O : MultisliceOpts) (os : ℕ) (h2 : 2 ≤ os) [NeZero os] [NeZero (os * n)]
    [NeZero (os * m)] (c : ℕ) [NeZero (os * n - 2 * c)] [NeZero (os * m - 2 * c)] (k : ℕ) (rp : Fin k → Wave (os * n - 2 * c) (os * m - 2 * c))
    (ro : ℕ → ℕ → ℕ → ℝ) (M : Multislice (os * n - 2 * c) (os * m - 2 * c) (os * n) (os * m) N (k + 1))
    (h : multisliceFromDataset D O os c k rp ro = .ok M) (idx : Fin N) (t : Fin 3 → ℝ) : ∃ err, M.forward idx t = .error err := by
  obtain ⟨-, hz, F, W, W', hF, -, -, hM⟩ := multislice_fresh D O os c k rp ro M h
  refine multislice_oversampling_violated M n m os (initialPropagator O F.objBasis D.wavelength) (by rw [hM]) rfl rfl h2 ?_ idx t
  rw [hM]
  simp only
  intro hc
  have := congrArg List.length hc
  rw [List.length_ofFn] at this
  exact hz this

/-- **C110** (violated): the option `probe_shape` makes `from_dataset` fail, for every dataset, and so does `nz = 0`. -/
theorem multislice_probe_shape_violated (D : FancyData n m N) (O : MultisliceOpts) (hp : O.probeShape = true ∨ O.nz = 0) (os : ℕ) [NeZero os]
    [NeZero (os * n)] [NeZero (os * m)] (c : ℕ) [NeZero (os * n - 2 * c)] [NeZero (os * m - 2 * c)] (k : ℕ)
    (rp : Fin k → Wave (os * n - 2 * c) (os * m - 2 * c)) (ro : ℕ → ℕ → ℕ → ℝ) : ∃ err, multisliceFromDataset D O os c k rp ro = .error err := by
  cases h : multisliceFromDataset D O os c k rp ro with
  | error e => exact ⟨e, rfl⟩
  | ok M =>
    obtain ⟨h1, h2, -⟩ := multislice_fresh D O os c k rp ro M h
    rcases hp with hp | hp
    · rw [hp] at h1; cases h1
    · exact absurd hp h2

/-! #### The first patterns -/

/-- The weight of an exposure: its recorded intensity, relative to the average. -/
noncomputable def sliceExposureWeight (D : FancyData n m N) (idx : Fin N) : ℝ :=
  match D.intensities with
  | none => 1
  | some I => I idx / ((∑ i, I i) / N)

theorem multisliceWeights_perShot (D : FancyData n m N) {k : ℕ} (W W' : Weights N k) (h : initialWeights N k none = .ok W)
    (h' : multisliceWeights D.intensities W = .ok W') : W' = .perShot (sliceExposureWeight D) := by
  have : W = .perShot fun _ => 1 := by
    unfold initialWeights at h
    exact (Except.ok.inj h).symm
  rw [this] at h'
  unfold multisliceWeights at h'
  unfold sliceExposureWeight
  cases hI : D.intensities with
  | none => rw [hI] at h'; exact (Except.ok.inj h').symm
  | some I =>
    rw [hI] at h'
    rw [← Except.ok.inj h']
    simp only [one_mul]

/-- All waves of the grid of the object propagate freely between the slices: a condition on the geometry alone (the two pixel sizes are exchanged,
C76). -/
def FancyData.FreeSlices (D : FancyData n m N) : Prop :=
  0 < D.wavelength ∧ 0 < |exitWaveGeometry D.detBasis ![n, m] D.wavelength D.distance 1 0 1| ∧
    0 < |exitWaveGeometry D.detBasis ![n, m] D.wavelength D.distance 1 1 0| ∧
    ∀ k l, Propagates n m |exitWaveGeometry D.detBasis ![n, m] D.wavelength D.distance 1 0 1|
      |exitWaveGeometry D.detBasis ![n, m] D.wavelength D.distance 1 1 0| D.wavelength k l

theorem passSlices_ones {a b : ℕ} [NeZero a] [NeZero b] (tr : ℝ × ℝ) (p : Wave a b) (ws : List (Wave a b)) (hw : ∀ o ∈ ws, ∀ x y, o x y = 1)
    (w : Wave a b) (x : ZMod a) (y : ZMod b) : ‖farField (passSlices tr p ws w) x y‖ =
      ‖p (x - ((a / 2 : ℕ) : ZMod a)) (y - ((b / 2 : ℕ) : ZMod b))‖ ^ ws.length * ‖farField w x y‖ := by
  induction ws generalizing w with
  | nil => simp [passSlices]
  | cons o ws ih =>
    rw [passSlices_cons, ih (fun o' h => hw o' (by simp [h])), norm_farField_nearField, sincApply_false]
    have e : (fun i j => sincShift w (tr.1 - ⌊tr.1⌋) (tr.2 - ⌊tr.2⌋) i j * o i j) = sincShift w (tr.1 - ⌊tr.1⌋) (tr.2 - ⌊tr.2⌋) := by
      funext i j
      rw [hw o (by simp), mul_one]
    rw [e, norm_farField_sincShift, List.length_cons, pow_succ]
    ring

/-- The pattern of a model whose slices are 1 in the window. -/
theorem multislice_uniform {a b k : ℕ} [NeZero a] [NeZero b] (M : Multislice n m a b N k) (idx : Fin N) (t : Fin 3 → ℝ) (w : Fin N → ℝ)
    (hw : M.effectiveWeights = .perShot w) (hr : M.ramp t = fun _ _ => 1) (ws : List (Wave a b))
    (hws : (M.slices.mapM fun o => objWindow a b (M.transmission o) ⌊M.pixTrans idx t 0⌋ ⌊M.pixTrans idx t 1⌋) = .ok ws)
    (hone : ∀ o ∈ ws, ∀ x y, o x y = 1) (hP : M.propagator.h = a ∧ M.propagator.w = b) :
    M.forward idx t = .ok (M.record fun x y => w idx ^ 2 * ((‖M.propAt x y‖ ^ ws.length) ^ 2 *
      ∑ j, ‖farField (padProbe a b fun x y => (M.probeNorm : ℂ) * M.realSpace (M.probe j) x y) x y‖ ^ 2)) := by
  rw [M.forward_eq idx t ws hws hP]
  refine congrArg (fun I => Except.ok (M.record I)) ?_
  funext x y
  simp only [passSlices_ones _ _ ws hone, mul_pow]
  rw [← mul_sum, mul_left_comm]
  refine congrArg₂ _ rfl ?_
  unfold Multislice.incident
  simp only [hr, mul_one]
  generalize M.effectiveWeights = W at hw
  subst hw
  rw [mul_sum]
  refine sum_congr rfl fun j _ => ?_
  have e : (fun x y => (M.probeNorm : ℂ) * padProbe a b (fun x y => shotProbes (.perShot w) idx (fun j => M.realSpace (M.probe j)) j x y) x y : Wave a b) =
      (w idx : ℂ) • padProbe a b (fun x y => (M.probeNorm : ℂ) * M.realSpace (M.probe j) x y) := by
    have e1 : (fun x y => shotProbes (.perShot w) idx (fun j => M.realSpace (M.probe j)) j x y : Wave n m) = (w idx : ℂ) • M.realSpace (M.probe j) := rfl
    have e2 : (fun x y => (M.probeNorm : ℂ) * M.realSpace (M.probe j) x y : Wave n m) = (M.probeNorm : ℂ) • M.realSpace (M.probe j) := rfl
    rw [e1, e2, isLinear_padProbe.map_smul, isLinear_padProbe.map_smul]
    funext x y
    simp only [Pi.smul_apply, smul_eq_mul]
    ring
  rw [e, isLinear_farField.map_smul]
  simp only [Pi.smul_apply, smul_eq_mul, norm_mul, mul_pow, Complex.norm_real, Real.norm_eq_abs, sq_abs]

/-- The absolute modes of a new model, in front of the first slice: the first gives the mean pattern, the others the extra intensity. -/
theorem multislice_modes (D : FancyData n m N) (hD : D.Nonneg) (O : MultisliceOpts) (c : ℕ) [NeZero (1 * n)] [NeZero (1 * m)]
    [NeZero (1 * n - 2 * c)] [NeZero (1 * m - 2 * c)] (k : ℕ) (rp : Fin k → Wave (1 * n - 2 * c) (1 * m - 2 * c)) (ro : ℕ → ℕ → ℕ → ℝ)
    (M : Multislice (1 * n - 2 * c) (1 * m - 2 * c) (1 * n) (1 * m) N (k + 1)) (h : multisliceFromDataset D O 1 c k rp ro = .ok M)
    (hsup : O.supportRadius = none) (hz : O.propagationDistance ≠ none → D.FreeWaves 1)
    (hne : ∃ i j, c ≤ i ∧ i < n - c ∧ c ≤ j ∧ j < m - c ∧ D.mean i j ≠ 0) :
    (∀ i < n, ∀ j < m, ‖farField (padProbe (1 * n) (1 * m) fun x y => (M.probeNorm : ℂ) * M.realSpace (M.probe 0) x y)
        (i : ZMod (1 * n)) (j : ZMod (1 * m))‖ ^ 2 = if c ≤ i ∧ i < n - c ∧ c ≤ j ∧ j < m - c then D.mean i j else 0) ∧
    ∃ peak : ℝ, 0 ≤ peak ∧ peak ^ 2 ≤ ∑ i ∈ range n, ∑ j ∈ range m, D.mean i j ∧ ∀ e : Fin k,
      ∑ i ∈ range n, ∑ j ∈ range m, ‖farField (padProbe (1 * n) (1 * m) fun x y => (M.probeNorm : ℂ) * M.realSpace (M.probe e.succ) x y)
        (i : ZMod (1 * n)) (j : ZMod (1 * m))‖ ^ 2 = (0.01 * peak) ^ 2 * power (rp e) := by
  obtain ⟨-, -, F, W, W', hF, h4, h5, hM⟩ := multislice_fresh D O 1 c k rp ro M h
  obtain ⟨t0, rest, S, normal, W0, h1, h2, h3, -, -⟩ := fresh_fields D O.shared 1 c k rp (ro 0) F hF
  have hfS : ∀ x y, ‖farField S.probe x y‖ ^ 2 = D.mean x.val y.val := by
    intro x y
    rw [start_far D O.shared 1 rfl hz S h2, sharp_farField_one D hD]
  have ha := NeZero.ne (1 * n - 2 * c)
  have hb := NeZero.ne (1 * m - 2 * c)
  have hmain : ∀ x y, ‖farField (padProbe (1 * n) (1 * m) (cropProbe c S.probe)) x y‖ ^ 2 =
      if c ≤ x.val ∧ x.val < n - c ∧ c ≤ y.val ∧ y.val < m - c then D.mean x.val y.val else 0 := by
    intro x y
    rw [farField_pad_crop]
    by_cases hc : c ≤ x.val ∧ x.val < n - c ∧ c ≤ y.val ∧ y.val < m - c
    · rw [if_pos hc, if_pos (by omega), hfS]
    · rw [if_neg hc, if_neg (by omega)]
      simp
  have hcrop : cropProbe c S.probe ≠ 0 := by
    intro h0
    obtain ⟨i, j, hi, hi', hj, hj', hm⟩ := hne
    have := hmain (i : ZMod (1 * n)) (j : ZMod (1 * m))
    rw [ZMod.val_cast_of_lt (by omega), ZMod.val_cast_of_lt (by omega), if_pos ⟨hi, hi', hj, hj'⟩, h0,
      isLinear_padProbe.map_zero, isLinear_farField.map_zero] at this
    apply hm
    rw [← this]
    simp
  obtain ⟨m0, mj⟩ := fresh_modes D O.shared 1 c k rp (ro 0) F hF hsup S h2 hcrop
  have hbasis : ∀ j, (fun x y => (M.probeNorm : ℂ) * M.realSpace (M.probe j) x y) = fun x y => (F.probeNorm : ℂ) * F.basisProbes j x y := by
    intro j
    rw [hM]
    rfl
  have hn1 : 1 * n = n := one_mul n
  have hm1 : 1 * m = m := one_mul m
  have hrange : ∀ f : ℕ → ℕ → ℝ, ∑ i ∈ range n, ∑ j ∈ range m, f i j = ∑ i ∈ range (1 * n), ∑ j ∈ range (1 * m), f i j := by
    intro f; rw [hn1, hm1]
  refine ⟨fun i hi j hj => ?_, ⨆ p : ZMod (1 * n - 2 * c) × ZMod (1 * m - 2 * c), ‖cropProbe c S.probe p.1 p.2‖,
    Real.iSup_nonneg fun p => norm_nonneg _, ?_, fun e => ?_⟩
  · rw [hbasis, m0, hmain, ZMod.val_cast_of_lt (by omega), ZMod.val_cast_of_lt (by omega)]
  · have hp : power (cropProbe c S.probe) ≤ ∑ i ∈ range n, ∑ j ∈ range m, D.mean i j := by
      rw [← power_padProbe (a := 1 * n) (b := 1 * m) (by omega) (by omega), ← far_field_unitary.2.2.1, hrange, power_eq_sum]
      refine sum_le_sum fun i hi => sum_le_sum fun j hj => ?_
      rw [hmain, ZMod.val_cast_of_lt (mem_range.1 hi), ZMod.val_cast_of_lt (mem_range.1 hj)]
      split_ifs
      · exact le_rfl
      · exact le_max_right _ _
    refine le_trans ?_ hp
    obtain ⟨q, hq⟩ := exists_eq_ciSup_of_finite (f := fun p : ZMod (1 * n - 2 * c) × ZMod (1 * m - 2 * c) => ‖cropProbe c S.probe p.1 p.2‖)
    rw [← hq]
    unfold power
    exact le_trans (single_le_sum (f := fun y => ‖cropProbe c S.probe q.1 y‖ ^ 2) (fun y _ => by positivity) (mem_univ q.2))
      (single_le_sum (f := fun x => ∑ y, ‖cropProbe c S.probe x y‖ ^ 2) (fun x _ => sum_nonneg fun y _ => by positivity) (mem_univ q.1))
  · rw [hrange, hbasis, ← mj e, ← power_eq_sum, far_field_unitary.2.2.1, power_padProbe (by omega) (by omega)]

/-- The propagator of a new model at a pixel of the detector. -/
theorem multislice_fresh_propagator (D : FancyData n m N) (O : MultisliceOpts) (hfree : D.FreeSlices) (c : ℕ) [NeZero (1 * n)] [NeZero (1 * m)]
    [NeZero (1 * n - 2 * c)] [NeZero (1 * m - 2 * c)] (k : ℕ) (rp : Fin k → Wave (1 * n - 2 * c) (1 * m - 2 * c)) (ro : ℕ → ℕ → ℕ → ℝ)
    (M : Multislice (1 * n - 2 * c) (1 * m - 2 * c) (1 * n) (1 * m) N (k + 1)) (h : multisliceFromDataset D O 1 c k rp ro = .ok M) :
    (M.propagator.h = 1 * n ∧ M.propagator.w = 1 * m) ∧ ∀ i < n, ∀ j < m, ‖M.propAt (i : ZMod (1 * n)) (j : ZMod (1 * m))‖ =
      if O.propagatorCrop ≤ i ∧ i < n - O.propagatorCrop ∧ O.propagatorCrop ≤ j ∧ j < m - O.propagatorCrop then 1 else 0 := by
  obtain ⟨-, -, F, W, W', hF, h4, h5, hM⟩ := multislice_fresh D O 1 c k rp ro M h
  obtain ⟨t0, rest, S, normal, W0, h1, h2, h3, -, hFe⟩ := fresh_fields D O.shared 1 c k rp (ro 0) F hF
  have hbasis : F.objBasis = exitWaveGeometry D.detBasis ![n, m] D.wavelength D.distance 1 := by
    unfold FancyData.start at h2
    have hn : O.shared.nearField = false := rfl
    rw [hn] at h2
    simp only [Bool.false_eq_true, if_false] at h2
    rw [hFe]
    simp only
    rw [← Except.ok.inj h2]
  have hprop : M.propagator = waveImg (initialPropagator O F.objBasis D.wavelength : Wave n m) := by rw [hM]
  refine ⟨by rw [hprop]; exact ⟨(one_mul n).symm, (one_mul m).symm⟩, fun i hi j hj => ?_⟩
  obtain ⟨hw, hs0, hs1, hall⟩ := hfree
  have hnorm : ∀ x y, ‖(interslicePropagator n m F.objBasis D.wavelength O.dz) x y‖ = 1 := by
    intro x y
    rw [hbasis]
    exact ((angular_spectrum_group _ _ D.wavelength hs0 hs1 hw x y).2.2.1 (hall x y) O.dz).1
  have key : ∀ {A B : ℕ} [NeZero A] [NeZero B] (_ : A = n) (_ : B = m) (p : Wave n m),
      p (((((i : ℕ) : ZMod A) - ((A / 2 : ℕ) : ZMod A)).val : ℕ) : ZMod n) (((((j : ℕ) : ZMod B) - ((B / 2 : ℕ) : ZMod B)).val : ℕ) : ZMod m) =
        p ((i : ZMod n) - ((n / 2 : ℕ) : ZMod n)) ((j : ZMod m) - ((m / 2 : ℕ) : ZMod m)) := by
    intro A B _ _ hA hB p
    subst hA
    subst hB
    rw [ZMod.natCast_zmod_val, ZMod.natCast_zmod_val]
  have hat : M.propAt (i : ZMod (1 * n)) (j : ZMod (1 * m)) = (initialPropagator O F.objBasis D.wavelength : Wave n m)
      ((i : ZMod n) - ((n / 2 : ℕ) : ZMod n)) ((j : ZMod m) - ((m / 2 : ℕ) : ZMod m)) := by
    unfold Multislice.propAt Multislice.prop
    rw [hprop]
    exact key (one_mul n) (one_mul m) _
  rw [hat]
  unfold initialPropagator
  by_cases hc0 : O.propagatorCrop = 0
  · rw [if_neg (by simpa using hc0), hnorm, if_pos (by omega)]
  · rw [if_pos hc0]
    simp only [cropPropagator, ifftshift2, sub_add_cancel]
    rw [ZMod.val_cast_of_lt hi, ZMod.val_cast_of_lt hj]
    by_cases hin : O.propagatorCrop ≤ i ∧ i < n - O.propagatorCrop ∧ O.propagatorCrop ≤ j ∧ j < m - O.propagatorCrop
    · rw [if_pos hin, if_neg (by omega)]
      exact hnorm _ _
    · rw [if_neg hin, if_pos (by omega), norm_zero]

theorem multislice_fresh_weights (D : FancyData n m N) (O : MultisliceOpts) (os : ℕ) [NeZero os] [NeZero (os * n)] [NeZero (os * m)]
    (c : ℕ) [NeZero (os * n - 2 * c)] [NeZero (os * m - 2 * c)] (k : ℕ) (rp : Fin k → Wave (os * n - 2 * c) (os * m - 2 * c)) (ro : ℕ → ℕ → ℕ → ℝ)
    (M : Multislice (os * n - 2 * c) (os * m - 2 * c) (os * n) (os * m) N (k + 1)) (h : multisliceFromDataset D O os c k rp ro = .ok M)
    (hdm : O.dmRank = none) : M.effectiveWeights = .perShot (sliceExposureWeight D) := by
  obtain ⟨-, -, F, W, W', hF, h4, h5, hM⟩ := multislice_fresh D O os c k rp ro M h
  rw [hdm] at h4
  rw [hM]
  exact multisliceWeights_perShot D W W' h4 h5

theorem multislice_fresh_ramp (D : FancyData n m N) (O : MultisliceOpts) (os : ℕ) [NeZero os] [NeZero (os * n)] [NeZero (os * m)]
    (c : ℕ) [NeZero (os * n - 2 * c)] [NeZero (os * m - 2 * c)] (k : ℕ) (rp : Fin k → Wave (os * n - 2 * c) (os * m - 2 * c)) (ro : ℕ → ℕ → ℕ → ℝ)
    (M : Multislice (os * n - 2 * c) (os * m - 2 * c) (os * n) (os * m) N (k + 1)) (h : multisliceFromDataset D O os c k rp ro = .ok M)
    (hsim : O.simulateTranslation = false) (t : Fin 3 → ℝ) : M.ramp t = fun _ _ => 1 := by
  obtain ⟨-, -, F, W, W', hF, h4, h5, hM⟩ := multislice_fresh D O os c k rp ro M h
  have : M.simulateTranslation = false := by rw [hM]; exact hsim
  unfold Multislice.ramp
  rw [this]
  rfl

/-- Recording by a new model. -/
theorem multislice_record_px (D : FancyData n m N) (hD : D.Nonneg) (O : MultisliceOpts) (c : ℕ) [NeZero (1 * n)] [NeZero (1 * m)]
    [NeZero (1 * n - 2 * c)] [NeZero (1 * m - 2 * c)] (k : ℕ) (rp : Fin k → Wave (1 * n - 2 * c) (1 * m - 2 * c)) (ro : ℕ → ℕ → ℕ → ℝ)
    (M : Multislice (1 * n - 2 * c) (1 * m - 2 * c) (1 * n) (1 * m) N (k + 1)) (h : multisliceFromDataset D O 1 c k rp ro = .ok M)
    (I : ZMod (1 * n) → ZMod (1 * m) → ℝ) : (M.record I).h = n ∧ (M.record I).w = m ∧
      ∀ i j : ℕ, (M.record I).px i j = cutAt O.saturation (I i j + 1e-7 + D.floor i j) := by
  obtain ⟨-, -, F, W, W', hF, h4, h5, hM⟩ := multislice_fresh D O 1 c k rp ro M h
  obtain ⟨t0, rest, S, normal, W0, h1, h2, h3, -, hFe⟩ := fresh_fields D O.shared 1 c k rp (ro 0) F hF
  have hf : M.saturation = O.saturation ∧ M.oversampling = 1 ∧ M.background = D.backgroundGuess.toImg := by rw [hM, hFe]; exact ⟨rfl, rfl, rfl⟩
  obtain ⟨g1, g2, g3⟩ := measQuadratic_px D hD O.shared (1 * n) (1 * m) fun x y => I x y
  have e : M.record I = measQuadratic { saturation := O.shared.saturation, oversampling := 1 } D.backgroundGuess.toImg
      ((D.qeGuess O.shared).map RealIm.toImg) ⟨1 * n, 1 * m, fun x y => I x y⟩ := by
    unfold Multislice.record
    rw [hf.1, hf.2.1, hf.2.2]
    rfl
  rw [← e] at g1 g2 g3
  refine ⟨g1.trans (one_mul n), g2.trans (one_mul m), fun i j => (g3 i j).trans ?_⟩
  have : D.efficiency O.shared i j = 1 := rfl
  rw [this, one_mul]
  rfl

/-- **C110** (the first patterns): take any dataset of non-negative counts, without oversampling, with uniform initial slices (`randomize_ang=0`), one weight
per exposure, no probe support, and any number of slices and modes, Fourier crop `c`, Fourier-space probe, propagation distance (if all waves of the grid
propagate) and saturation. If all waves propagate between the slices, the new model simulates every exposure of the dataset; the pattern is, at each pixel
that the crop of the propagator leaves, the mean of the measured patterns (in the part that the Fourier crop leaves) plus the extra intensity `E` of
the random modes, times the **square** of the relative intensity of the exposure; plus background, with saturation. -/
theorem multislice_initial_patterns (D : FancyData n m N) (hD : D.Nonneg) (O : MultisliceOpts) (c : ℕ) [NeZero (1 * n)] [NeZero (1 * m)]
    [NeZero (1 * n - 2 * c)] [NeZero (1 * m - 2 * c)] (k : ℕ) (rp : Fin k → Wave (1 * n - 2 * c) (1 * m - 2 * c)) (ro : ℕ → ℕ → ℕ → ℝ)
    (M : Multislice (1 * n - 2 * c) (1 * m - 2 * c) (1 * n) (1 * m) N (k + 1)) (h : multisliceFromDataset D O 1 c k rp ro = .ok M)
    (hr : O.randomizeAng = 0) (hdm : O.dmRank = none) (hsup : O.supportRadius = none)
    (hsim : O.simulateTranslation = false) (hz : O.propagationDistance ≠ none → D.FreeWaves 1) (hfree : D.FreeSlices)
    (hne : ∃ i j, c ≤ i ∧ i < n - c ∧ c ≤ j ∧ j < m - c ∧ D.mean i j ≠ 0) :
    ∃ (E : ℕ → ℕ → ℝ) (peak : ℝ), (∀ i j, 0 ≤ E i j) ∧ 0 ≤ peak ∧ peak ^ 2 ≤ ∑ i ∈ range n, ∑ j ∈ range m, D.mean i j ∧
      ∑ i ∈ range n, ∑ j ∈ range m, E i j = (0.01 * peak) ^ 2 * ∑ e, power (rp e) ∧
      ∀ idx, ∃ img, M.forward idx (D.translations idx) = .ok img ∧ img.h = n ∧ img.w = m ∧ ∀ i < n, ∀ j < m,
        img.px i j = cutAt O.saturation ((if O.propagatorCrop ≤ i ∧ i < n - O.propagatorCrop ∧ O.propagatorCrop ≤ j ∧ j < m - O.propagatorCrop then
            sliceExposureWeight D idx ^ 2 * ((if c ≤ i ∧ i < n - c ∧ c ≤ j ∧ j < m - c then D.mean i j else 0) + E i j) else 0) +
          1e-7 + D.floor i j) := by
  obtain ⟨m0, peak, p0, p1, pj⟩ := multislice_modes D hD O c k rp ro M h hsup hz hne
  obtain ⟨hP, hprop⟩ := multislice_fresh_propagator D O hfree c k rp ro M h
  have hnz := (multislice_fresh D O 1 c k rp ro M h).2.1
  refine ⟨fun i j => ∑ e : Fin k, ‖farField (padProbe (1 * n) (1 * m) fun x y => (M.probeNorm : ℂ) * M.realSpace (M.probe e.succ) x y)
        (i : ZMod (1 * n)) (j : ZMod (1 * m))‖ ^ 2, peak, fun i j => by positivity, p0, p1, ?_, fun idx => ?_⟩
  · rw [mul_sum]
    simp only [sum_comm (t := (univ : Finset (Fin k)))]
    exact sum_congr rfl fun e _ => pj e
  · obtain ⟨ws, w1, w2, w3⟩ := multislice_windows D O 1 c k rp ro M h idx
    have hone : ∀ o ∈ ws, ∀ x y, o x y = 1 := by
      intro o ho x y
      obtain ⟨s, i, j, hij⟩ := w3 o ho x y
      rw [hij, hr]
      simp
    refine ⟨_, multislice_uniform M idx _ _ (multislice_fresh_weights D O 1 c k rp ro M h hdm) (multislice_fresh_ramp D O 1 c k rp ro M h hsim _) ws w1 hone hP, ?_⟩
    obtain ⟨r1, r2, r3⟩ := multislice_record_px D hD O c k rp ro M h fun x y => sliceExposureWeight D idx ^ 2 * ((‖M.propAt x y‖ ^ ws.length) ^ 2 *
      ∑ j, ‖farField (padProbe (1 * n) (1 * m) fun x y => (M.probeNorm : ℂ) * M.realSpace (M.probe j) x y) x y‖ ^ 2)
    refine ⟨r1, r2, fun i hi j hj => (r3 i j).trans ?_⟩
    rw [hprop i hi j hj, Fin.sum_univ_succ, m0 i hi j hj, w2]
    split_ifs with hc
    · simp
    · simp
    · rw [zero_pow hnz]; simp
    · rw [zero_pow hnz]; simp

/-- **C110** (total counts): with random phases in the slices (any `randomize_ang`) and without a crop of the propagator, the total of every simulated
pattern is that of the mean pattern plus the random modes, times the square of the relative intensity of the exposure, plus the background. -/
theorem multislice_initial_total (D : FancyData n m N) (hD : D.Nonneg) (O : MultisliceOpts) (c : ℕ) [NeZero (1 * n)] [NeZero (1 * m)]
    [NeZero (1 * n - 2 * c)] [NeZero (1 * m - 2 * c)] (k : ℕ) (rp : Fin k → Wave (1 * n - 2 * c) (1 * m - 2 * c)) (ro : ℕ → ℕ → ℕ → ℝ)
    (M : Multislice (1 * n - 2 * c) (1 * m - 2 * c) (1 * n) (1 * m) N (k + 1)) (h : multisliceFromDataset D O 1 c k rp ro = .ok M)
    (hcrop : O.propagatorCrop = 0) (hdm : O.dmRank = none) (hsup : O.supportRadius = none) (hsat : O.saturation = none)
    (hsim : O.simulateTranslation = false) (hz : O.propagationDistance ≠ none → D.FreeWaves 1) (hfree : D.FreeSlices)
    (hne : ∃ i j, c ≤ i ∧ i < n - c ∧ c ≤ j ∧ j < m - c ∧ D.mean i j ≠ 0) :
    ∃ peak : ℝ, 0 ≤ peak ∧ peak ^ 2 ≤ ∑ i ∈ range n, ∑ j ∈ range m, D.mean i j ∧
      ∀ idx, ∃ img, M.forward idx (D.translations idx) = .ok img ∧ img.h = n ∧ img.w = m ∧
        img.total = sliceExposureWeight D idx ^ 2 * ((∑ i ∈ range n, ∑ j ∈ range m,
          if c ≤ i ∧ i < n - c ∧ c ≤ j ∧ j < m - c then D.mean i j else 0) + (0.01 * peak) ^ 2 * ∑ e, power (rp e)) +
          ∑ i ∈ range n, ∑ j ∈ range m, (D.floor i j + 1e-7) := by
  obtain ⟨m0, peak, p0, p1, pj⟩ := multislice_modes D hD O c k rp ro M h hsup hz hne
  obtain ⟨hP, hprop⟩ := multislice_fresh_propagator D O hfree c k rp ro M h
  have hnz := (multislice_fresh D O 1 c k rp ro M h).2.1
  have ha := NeZero.ne (1 * n - 2 * c)
  have hb := NeZero.ne (1 * m - 2 * c)
  refine ⟨peak, p0, p1, fun idx => ?_⟩
  obtain ⟨img, himg⟩ := multislice_from_dataset_simulates D O c k rp ro M h idx
  obtain ⟨-, -, F, W, W', hF, h4, h5, hM⟩ := multislice_fresh D O 1 c k rp ro M h
  have he : M.exponentiate = O.exponentiate := by
    obtain ⟨t0', rest', S', normal', W0, g1, g2, g3, g4, hFe⟩ := fresh_fields D O.shared 1 c k rp (ro 0) F hF
    rw [hM, hFe]
    rfl
  have hph : ∀ o ∈ M.slices, ∀ i j, ‖(M.transmission o).px i j‖ = 1 := by
    intro o ho i j
    rw [hM] at ho
    obtain ⟨s, rfl⟩ := List.mem_ofFn.1 ho
    have e : (M.transmission (initialSlice O F.obj.h F.obj.w (ro s))).px i j =
        Complex.exp (Complex.I * ((O.randomizeAng * (ro s i j - 0.5) : ℝ) : ℂ)) := by
      unfold Multislice.transmission initialSlice
      rw [he]
      cases O.exponentiate <;> rfl
    rw [e, mul_comm]
    exact Complex.norm_exp_ofReal_mul_I _
  have hn1 : 1 * n = n := one_mul n
  have hm1 : 1 * m = m := one_mul m
  have hone : ∀ x y, ‖M.prop x y‖ = 1 := by
    intro x y
    have hx := ZMod.val_lt (x + ((1 * n / 2 : ℕ) : ZMod (1 * n)))
    have hy := ZMod.val_lt (y + ((1 * m / 2 : ℕ) : ZMod (1 * m)))
    have := hprop _ (by omega : (x + ((1 * n / 2 : ℕ) : ZMod (1 * n))).val < n) _ (by omega : (y + ((1 * m / 2 : ℕ) : ZMod (1 * m))).val < m)
    rw [ZMod.natCast_zmod_val, ZMod.natCast_zmod_val] at this
    unfold Multislice.propAt at this
    rw [add_sub_cancel_right, add_sub_cancel_right, if_pos (by omega)] at this
    exact this
  have hsl : M.slices ≠ [] := by
    rw [hM]
    intro hc
    have := congrArg List.length hc
    rw [List.length_ofFn] at this
    exact hnz this
  obtain ⟨I, hI, hsum⟩ := multislice_energy M idx _ img himg hsl hph hone
  obtain ⟨r1, r2, r3⟩ := multislice_record_px D hD O c k rp ro M h I
  rw [← hI] at r1 r2 r3
  refine ⟨img, himg, r1, r2, ?_⟩
  have hrange : ∀ f : ℕ → ℕ → ℝ, ∑ i ∈ range n, ∑ j ∈ range m, f i j = ∑ i ∈ range (1 * n), ∑ j ∈ range (1 * m), f i j := by
    intro f; rw [hn1, hm1]
  have hpow : ∀ p : Wave (1 * n - 2 * c) (1 * m - 2 * c), power p = ∑ i ∈ range n, ∑ j ∈ range m, ‖farField (padProbe (1 * n) (1 * m) p)
      (i : ZMod (1 * n)) (j : ZMod (1 * m))‖ ^ 2 := by
    intro p
    rw [hrange, ← power_eq_sum, far_field_unitary.2.2.1, power_padProbe (by omega) (by omega)]
  have hinc : ∑ u, power (M.incident idx (D.translations idx) u) = sliceExposureWeight D idx ^ 2 *
      ∑ j, power (fun x y => (M.probeNorm : ℂ) * M.realSpace (M.probe j) x y) := by
    have hw := multislice_fresh_weights D O 1 c k rp ro M h hdm
    unfold Multislice.incident
    simp only [multislice_fresh_ramp D O 1 c k rp ro M h hsim, mul_one]
    generalize M.effectiveWeights = W at hw
    subst hw
    rw [mul_sum]
    refine sum_congr rfl fun j _ => ?_
    have e : (fun x y => (M.probeNorm : ℂ) * padProbe (1 * n) (1 * m) (fun x y => shotProbes (.perShot (sliceExposureWeight D)) idx
        (fun j => M.realSpace (M.probe j)) j x y) x y : Wave (1 * n) (1 * m)) =
        fun x y => (sliceExposureWeight D idx : ℂ) * padProbe (1 * n) (1 * m) (fun x y => (M.probeNorm : ℂ) * M.realSpace (M.probe j) x y) x y := by
      have e1 : (fun x y => shotProbes (.perShot (sliceExposureWeight D)) idx (fun j => M.realSpace (M.probe j)) j x y : Wave _ _) =
        (sliceExposureWeight D idx : ℂ) • M.realSpace (M.probe j) := rfl
      have e2 : (fun x y => (M.probeNorm : ℂ) * M.realSpace (M.probe j) x y : Wave _ _) = (M.probeNorm : ℂ) • M.realSpace (M.probe j) := rfl
      rw [e1, e2, isLinear_padProbe.map_smul, isLinear_padProbe.map_smul]
      funext x y
      simp only [Pi.smul_apply, smul_eq_mul]
      ring
    rw [e, power_const_mul, Complex.norm_real, Real.norm_eq_abs, sq_abs, power_padProbe (by omega) (by omega)]
  have hI' : ∑ i ∈ range n, ∑ j ∈ range m, I i j = sliceExposureWeight D idx ^ 2 * ((∑ i ∈ range n, ∑ j ∈ range m,
          if c ≤ i ∧ i < n - c ∧ c ≤ j ∧ j < m - c then D.mean i j else 0) + (0.01 * peak) ^ 2 * ∑ e, power (rp e)) := by
    rw [hrange, sum_pixels, hsum, hinc, Fin.sum_univ_succ, hpow, mul_sum]
    congr 2
    · exact sum_congr rfl fun i hi => sum_congr rfl fun j hj => m0 i (mem_range.1 hi) j (mem_range.1 hj)
    · exact sum_congr rfl fun e _ => by rw [hpow, pj]
  rw [← hI']
  unfold Img.total
  rw [r1, r2, ← sum_add_distrib]
  refine sum_congr rfl fun i _ => ?_
  rw [← sum_add_distrib]
  refine sum_congr rfl fun j _ => ?_
  rw [r3, hsat]
  show I i j + 1e-7 + D.floor i j = _
  ring

/-! ### Non-vacuity -/

theorem abs_fftfreq_le (L : ℕ) [NeZero L] (q : ZMod L) : |fftfreq L q| ≤ 1 / 2 := by
  have hL : (0 : ℝ) < L := by exact_mod_cast NeZero.pos L
  have hq := ZMod.val_lt q
  have hq' : (q.val : ℝ) ≤ L := by exact_mod_cast hq.le
  unfold fftfreq
  split_ifs with h
  · have h' : (2 * q.val : ℝ) < L := by exact_mod_cast h
    rw [abs_of_nonneg (by positivity), div_le_div_iff₀ hL (by norm_num)]
    linarith
  · have h' : (L : ℝ) ≤ 2 * q.val := by exact_mod_cast not_lt.1 h
    rw [abs_of_nonpos (div_nonpos_of_nonpos_of_nonneg (by linarith) hL.le), ← neg_div, div_le_div_iff₀ hL (by norm_num)]
    linarith

/-- If the wavelength is small compared to the pixels of the object, all waves propagate. -/
theorem propagates_of_small (s0 s1 wl : ℝ) (h0 : 0 < s0) (h1 : 0 < s1) (hw : 0 < wl) (hs : wl ≤ s0) (hs' : wl ≤ s1) (k : ZMod n) (l : ZMod m) :
    Propagates n m s0 s1 wl k l := by
  unfold Propagates transverse2
  have key : ∀ (s f : ℝ), 0 < s → wl ≤ s → |f| ≤ 1 / 2 → (2 * Real.pi * f / s) ^ 2 ≤ (2 * Real.pi / wl) ^ 2 / 4 := by
    intro s f hs hle hf
    have e : (2 * Real.pi * f / s) ^ 2 = (2 * Real.pi / s) ^ 2 * |f| ^ 2 := by rw [sq_abs]; ring
    rw [e]
    have a1 : (2 * Real.pi / s) ^ 2 ≤ (2 * Real.pi / wl) ^ 2 := by
      have hp := Real.pi_pos
      gcongr
    have a2 : |f| ^ 2 ≤ 1 / 4 := by
      have := abs_nonneg f
      nlinarith
    have := mul_le_mul a1 a2 (by positivity) (by positivity)
    linarith
  have b0 := key s0 _ h0 hs (abs_fftfreq_le n k)
  have b1 := key s1 _ h1 hs' (abs_fftfreq_le m l)
  have : 0 ≤ (2 * Real.pi / wl) ^ 2 := by positivity
  linarith

theorem toyFancyData_basis : exitWaveGeometry toyFancyData.detBasis ![4, 4] toyFancyData.wavelength toyFancyData.distance 1 0 1 = -25 ∧
    exitWaveGeometry toyFancyData.detBasis ![4, 4] toyFancyData.wavelength toyFancyData.distance 1 1 0 = -25 := by
  constructor <;>
  · unfold exitWaveGeometry pinvTall
    simp [toyFancyData, Matrix.inv_def, Matrix.det_fin_two, Matrix.mul_apply, Fin.sum_univ_succ, Matrix.adjugate_fin_two, Matrix.vecMul, dotProduct]
    norm_num

theorem toyFancyData_free : toyFancyData.FreeSlices := by
  unfold FancyData.FreeSlices
  rw [toyFancyData_basis.1, toyFancyData_basis.2]
  refine ⟨by norm_num [toyFancyData], by norm_num, by norm_num, fun k l => propagates_of_small _ _ _ (by norm_num) (by norm_num) ?_ ?_ ?_ k l⟩ <;>
    norm_num [toyFancyData]

/-- Three slices, a Fourier crop of one pixel and two modes: the model is made and simulates both exposures, whose recorded intensities are 1 and 2, with
the factors 4/9 and 16/9. -/
example (rp : Fin 1 → Wave (1 * 4 - 2 * 1) (1 * 4 - 2 * 1)) (ro : ℕ → ℕ → ℕ → ℝ) :
    ∃ M, multisliceFromDataset toyFancyData { dz := 3, nz := 3 } 1 1 1 rp ro = .ok M ∧ ∃ (E : ℕ → ℕ → ℝ) (peak : ℝ), (∀ i j, 0 ≤ E i j) ∧ 0 ≤ peak ∧
      ∑ i ∈ range 4, ∑ j ∈ range 4, E i j = (0.01 * peak) ^ 2 * ∑ e, power (rp e) ∧
      ∀ idx, ∃ img, M.forward idx (toyFancyData.translations idx) = .ok img ∧ ∀ i < 4, ∀ j < 4,
        img.px i j = ![4 / 9, 16 / 9] idx * ((if 1 ≤ i ∧ i < 3 ∧ 1 ≤ j ∧ j < 3 then 3 / 2 else 0) + E i j) + 1e-7 + 1e-12 := by
  have hM : ∃ M, multisliceFromDataset toyFancyData { dz := 3, nz := 3 } 1 1 1 rp ro = .ok M := by
    unfold multisliceFromDataset
    simp [FancyData.start, datasetNormal, initialWeights, toyFancyData, MultisliceOpts.shared, multisliceWeights]
  obtain ⟨M, hM⟩ := hM
  obtain ⟨E, peak, h1, h2, -, h3, h4⟩ := multislice_initial_patterns toyFancyData toyFancyData_nonneg { dz := 3, nz := 3 } 1 1 rp ro M hM rfl rfl rfl rfl
    (fun h => absurd rfl h) toyFancyData_free ⟨1, 1, by norm_num, by norm_num, by norm_num, by norm_num, by rw [toyFancyData_mean]; norm_num⟩
  refine ⟨M, hM, E, peak, h1, h2, h3, fun idx => ?_⟩
  obtain ⟨img, g1, -, -, g2⟩ := h4 idx
  refine ⟨img, g1, fun i hi j hj => ?_⟩
  rw [g2 i hi j hj]
  have hw : sliceExposureWeight toyFancyData idx ^ 2 = ![4 / 9, 16 / 9] idx := by
    unfold sliceExposureWeight
    fin_cases idx <;> simp [toyFancyData, Fin.sum_univ_two] <;> norm_num
  simp only [cutAt, FancyData.floor, toyFancyData_mean, hw]
  rw [if_pos (by omega)]
  simp [toyFancyData]

end Cdtools
