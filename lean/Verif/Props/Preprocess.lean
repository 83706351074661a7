/- Property theorems C112: models made from padded and downsampled datasets. -/
import Verif.Model.DatasetBridge
import Verif.Props.FancyFromDataset
import Verif.Props.PadDownsample

set_option linter.unusedSectionVars false

namespace Cdtools
open Finset ZMod Matrix

/-! ### Geometry of scaled detectors -/

/-- The pixels of the exit wave shrink as the extent of the detector grows. -/
theorem exitWave_scaled (B B' : Matrix (Fin 3) (Fin 2) ℝ) (sh sh' : Fin 2 → ℕ) (wl z : ℝ) (os os' : ℕ) (r : Fin 2 → ℝ) (hr : ∀ j, r j ≠ 0)
    (h : ∀ i j, B' i j * (sh' j : ℝ) = B i j * (sh j : ℝ) * r j) (i : Fin 3) (j : Fin 2) :
    exitWaveGeometry B' sh' wl z os' i j = exitWaveGeometry B sh wl z os i j / r j := by
  unfold exitWaveGeometry
  simp only [Matrix.smul_apply, Matrix.transpose_apply, smul_eq_mul]
  set S : Matrix (Fin 3) (Fin 2) ℝ := Matrix.of fun i j => B i j * (sh j : ℝ) with hS
  have e : (Matrix.of fun i j => B' i j * (sh' j : ℝ)) = S * Matrix.diagonal r := by
    ext i j
    rw [Matrix.mul_diagonal]
    exact h i j
  have hd : (Matrix.diagonal r)⁻¹ = Matrix.diagonal fun j => (r j)⁻¹ := by
    refine Matrix.inv_eq_right_inv ?_
    rw [Matrix.diagonal_mul_diagonal]
    ext a b
    simp only [Matrix.diagonal_apply, Matrix.one_apply]
    split_ifs with hab
    · exact mul_inv_cancel₀ (hr a)
    · rfl
  have hdd : Matrix.diagonal (fun j => (r j)⁻¹) * Matrix.diagonal r = 1 := by
    rw [Matrix.diagonal_mul_diagonal]
    ext a b
    simp only [Matrix.diagonal_apply, Matrix.one_apply]
    split_ifs with hab
    · exact inv_mul_cancel₀ (hr a)
    · rfl
  have key : pinvTall (S * Matrix.diagonal r) = Matrix.diagonal (fun j => (r j)⁻¹) * pinvTall S := by
    unfold pinvTall
    rw [Matrix.transpose_mul, Matrix.diagonal_transpose, Matrix.mul_assoc (Matrix.diagonal r), ← Matrix.mul_assoc S.transpose,
      Matrix.mul_inv_rev, Matrix.mul_inv_rev, hd]
    simp only [Matrix.mul_assoc]
    rw [← Matrix.mul_assoc (Matrix.diagonal fun j => (r j)⁻¹) (Matrix.diagonal r), hdd, Matrix.one_mul]
  rw [e, key, Matrix.diagonal_mul]
  have := hr j
  field_simp

/-- The surface normal does not depend on the size of the pixels. -/
theorem datasetNormal_scaled (mode : Option String) (o : Option Vec3) (B : Matrix (Fin 3) (Fin 2) ℝ) (f : ℝ) (hf : 0 < f) :
    datasetNormal mode o (Matrix.of fun i j => B i j * f) = datasetNormal mode o B := by
  have hc : Vec3.cross (fun i => (Matrix.of fun i j => B i j * f) i 0) (fun i => (Matrix.of fun i j => B i j * f) i 1) =
      fun i => f ^ 2 * Vec3.cross (fun i => B i 0) (fun i => B i 1) i := by
    funext i
    fin_cases i <;> simp [Vec3.cross] <;> ring
  have hf2 : 0 < f ^ 2 := by positivity
  unfold datasetNormal
  rw [hc]
  set c : Vec3 := Vec3.cross (fun i => B i 0) (fun i => B i 1) with hcdef
  have h0 : ((fun i => f ^ 2 * c i : Vec3) = 0) ↔ c = 0 := by
    constructor
    · intro h
      funext i
      have := congrFun h i
      simpa [hf2.ne'] using this
    · rintro h
      funext i
      simp [h]
  have hdot : Vec3.dot (fun i => f ^ 2 * c i) (fun i => f ^ 2 * c i) = (f ^ 2) ^ 2 * c.dot c := by
    simp only [Vec3.dot]
    ring
  have hs : Real.sqrt (Vec3.dot (fun i => f ^ 2 * c i) fun i => f ^ 2 * c i) = f ^ 2 * Real.sqrt (c.dot c) := by
    rw [hdot, Real.sqrt_mul (by positivity), Real.sqrt_sq hf2.le]
  have hdiv : ∀ i, f ^ 2 * c i / (f ^ 2 * Real.sqrt (c.dot c)) = c i / Real.sqrt (c.dot c) := fun i =>
    mul_div_mul_left _ _ hf2.ne'
  simp only [hs, hdiv, h0]

/-! ### The geometry of a new model -/

section geometry
variable {n m N : ℕ} [NeZero n] [NeZero m] (D : FancyData n m N) (O : FancyOpts) (os : ℕ) [NeZero os] [NeZero (os * n)] [NeZero (os * m)]
  (c : ℕ) [NeZero (os * n - 2 * c)] [NeZero (os * m - 2 * c)] (k : ℕ)

/-- The geometry of a new far-field model. -/
theorem fresh_geometry (rp : Fin k → Wave (os * n - 2 * c) (os * m - 2 * c)) (ro : ℕ → ℕ → ℝ)
    (M : Fancy (os * n - 2 * c) (os * m - 2 * c) (os * n) (os * m) N (k + 1)) (h : fancyFromDataset D O os c k rp ro = .ok M)
    (hfar : O.nearField = false) :
    M.objBasis = exitWaveGeometry D.detBasis ![n, m] D.wavelength D.distance os ∧
    datasetNormal O.scatteringMode D.orientation D.detBasis = .ok M.normal ∧
    (∃ t0 rest, List.ofFn D.translations = t0 :: rest ∧
      M.minTranslation = ![minList (translationsToPixel M.objBasis M.normal t0 0) (rest.map fun t => translationsToPixel M.objBasis M.normal t 0) - O.padding,
        minList (translationsToPixel M.objBasis M.normal t0 1) (rest.map fun t => translationsToPixel M.objBasis M.normal t 1) - O.padding] ∧
      (M.obj.h : ℤ) = (objectSetup (os * n) (translationsToPixel M.objBasis M.normal t0 0)
        (rest.map fun t => translationsToPixel M.objBasis M.normal t 0) O.padding).1 ∧
      (M.obj.w : ℤ) = (objectSetup (os * m) (translationsToPixel M.objBasis M.normal t0 1)
        (rest.map fun t => translationsToPixel M.objBasis M.normal t 1) O.padding).1) ∧
    ∀ idx t, M.pixTrans idx t = translationsToPixel M.objBasis M.normal t - M.minTranslation := by
  obtain ⟨t0, rest, S, normal, W, h1, h2, h3, h4, hM⟩ := fresh_fields D O os c k rp ro M h
  have hS : S.objBasis = exitWaveGeometry D.detBasis ![n, m] D.wavelength D.distance os := by
    unfold FancyData.start at h2
    rw [hfar] at h2
    simp only [Bool.false_eq_true, if_false] at h2
    rw [← Except.ok.inj h2]
  have hb : M.objBasis = S.objBasis := by rw [hM]
  have hn : M.normal = normal := by rw [hM]
  refine ⟨hb.trans hS, by rw [hn]; exact h3, ⟨t0, rest, h1, ?_, ?_, ?_⟩, ?_⟩
  · rw [hb, hn, hM]
    rfl
  · rw [hb, hn, hM]
    simp only [initialObject_shape]
    exact Int.toNat_of_nonneg (objectSetup_nonneg _ _ _ _)
  · rw [hb, hn, hM]
    simp only [initialObject_shape]
    exact Int.toNat_of_nonneg (objectSetup_nonneg _ _ _ _)
  · intro idx t
    have ho : M.offsets = some 0 := by rw [hM]
    unfold Fancy.pixTrans
    rw [ho]
    simp

end geometry

/-! ### Downsampling -/

/-- What downsampling does to the attributes. -/
theorem downsample_attributes {I : Type} (d d' : PDataset I) (f : ℕ) (h : d.downsample f = .ok d') :
    ∃ B mq, d.basis = some B ∧ downsampleMasks f d.mask d.qeMask = .ok mq ∧ d' = { d with
        patterns := downsamplePatterns f d.mask d.patterns
        mask := mq.1
        qeMask := mq.2
        basis := some fun i j => B i j * f
        background := d.background.map (Img.sumPool f) } := by
  unfold PDataset.downsample at h
  cases hm : downsampleMasks f d.mask d.qeMask with
  | error e => rw [hm] at h; simp [Except.bind] at h
  | ok mq =>
    rw [hm] at h
    cases hB : d.basis with
    | none => rw [hB] at h; simp [Except.bind] at h
    | some B =>
      rw [hB] at h
      exact ⟨B, mq, rfl, rfl, (Except.ok.inj h).symm⟩

section down
variable {n m n' m' N : ℕ} [NeZero n] [NeZero m] [NeZero n'] [NeZero m'] (d d' : PDataset ExperimentInfo) (f : ℕ)
  (O : FancyOpts) (os : ℕ) [NeZero os] [NeZero (os * n)] [NeZero (os * m)] [NeZero (os * n')] [NeZero (os * m')]
  (c : ℕ) [NeZero (os * n - 2 * c)] [NeZero (os * m - 2 * c)] [NeZero (os * n' - 2 * c)] [NeZero (os * m' - 2 * c)] (k : ℕ)

/-- **C112** (downsampling, geometry): for every dataset of `n × m` pixels, every factor and all options, let `M` be a far-field model
made from the dataset and `M'` one made from it after downsampling (`n' = ⌊n/f⌋`, `m' = ⌊m/f⌋`). The pixels of the object of `M'` are those of
`M` enlarged by `n / (f n')` and `m / (f m')`, and the surface normals agree. If `f` divides the shape, both models have the same object
pixels, and every translation, in particular the recorded one of every exposure, is at the same pixel of both objects; the object of `M'` is smaller by the difference of the exit waves. -/
theorem downsample_model_geometry (hf : 0 < f) (h : d.downsample f = .ok d') (hn : n' = n / f) (hm : m' = m / f)
    (rp : Fin k → Wave (os * n - 2 * c) (os * m - 2 * c)) (rp' : Fin k → Wave (os * n' - 2 * c) (os * m' - 2 * c)) (ro ro' : ℕ → ℕ → ℝ)
    (M : Fancy (os * n - 2 * c) (os * m - 2 * c) (os * n) (os * m) N (k + 1))
    (hM : fancyFromDataset (d.toFancy n m N) O os c k rp ro = .ok M)
    (M' : Fancy (os * n' - 2 * c) (os * m' - 2 * c) (os * n') (os * m') N (k + 1))
    (hM' : fancyFromDataset (d'.toFancy n' m' N) O os c k rp' ro' = .ok M') (hfar : O.nearField = false) :
    (∀ i, M'.objBasis i 0 = M.objBasis i 0 * ((n : ℝ) / (f * n')) ∧ M'.objBasis i 1 = M.objBasis i 1 * ((m : ℝ) / (f * m'))) ∧
    M'.normal = M.normal ∧
    (f ∣ n → f ∣ m → M'.objBasis = M.objBasis ∧ (∀ idx t, M'.pixTrans idx t = M.pixTrans idx t) ∧
      (∀ (idx : Fin N) (x y z : ℝ), d.translations[idx.val]? = some (x, y, z) →
        M'.pixTrans idx ((d'.toFancy n' m' N).translations idx) = M.pixTrans idx ![x, y, z]) ∧
      M.obj.h = M'.obj.h + os * (n - n') ∧ M.obj.w = M'.obj.w + os * (m - m')) := by
  obtain ⟨B, mq, hB, -, rfl⟩ := downsample_attributes d d' f h
  obtain ⟨g1, g2, ⟨t0, rest, g3, g4, g5, g6⟩, g7⟩ := fresh_geometry (d.toFancy n m N) O os c k rp ro M hM hfar
  obtain ⟨k1, k2, ⟨s0, sest, k3, k4, k5, k6⟩, k7⟩ := fresh_geometry _ O os c k rp' ro' M' hM' hfar
  have hn0 : (n' : ℝ) ≠ 0 := Nat.cast_ne_zero.2 (NeZero.ne n')
  have hm0 : (m' : ℝ) ≠ 0 := Nat.cast_ne_zero.2 (NeZero.ne m')
  have hn1 : (n : ℝ) ≠ 0 := Nat.cast_ne_zero.2 (NeZero.ne n)
  have hm1 : (m : ℝ) ≠ 0 := Nat.cast_ne_zero.2 (NeZero.ne m)
  have hf0 : (f : ℝ) ≠ 0 := Nat.cast_ne_zero.2 hf.ne'
  have hdet : (d.toFancy n m N).detBasis = Matrix.of fun i j => B i.val j.val := by
    unfold PDataset.toFancy
    simp only [hB, Option.getD_some]
  have hscale := exitWave_scaled (Matrix.of fun i j => B i.val j.val) (Matrix.of fun i j => B i.val j.val * f) ![n, m] ![n', m']
    d.info.wavelength d.info.distance os os ![f * n' / n, f * m' / m] (by
      intro j
      fin_cases j
      · exact div_ne_zero (mul_ne_zero hf0 hn0) hn1
      · exact div_ne_zero (mul_ne_zero hf0 hm0) hm1) (by
      intro i j
      fin_cases j
      · simp
        field_simp
      · simp
        field_simp)
  rw [hdet] at g1 g2
  have hnormal : M'.normal = M.normal := by
    have e := datasetNormal_scaled O.scatteringMode d.info.orientation (Matrix.of fun i j => B i.val j.val) f (by positivity)
    exact Except.ok.inj (k2.symm.trans (e.trans g2))
  have hbasis : ∀ i j, M'.objBasis i j = M.objBasis i j / ![(f : ℝ) * n' / n, f * m' / m] j := by
    intro i j
    rw [g1, k1]
    exact hscale i j
  refine ⟨fun i => ⟨?_, ?_⟩, hnormal, fun hdn hdm => ?_⟩
  · rw [hbasis i 0]
    simp [div_eq_mul_inv]
  · rw [hbasis i 1]
    simp [div_eq_mul_inv]
  have en : f * n' = n := by rw [hn, Nat.mul_div_cancel' hdn]
  have em : f * m' = m := by rw [hm, Nat.mul_div_cancel' hdm]
  have hobj : M'.objBasis = M.objBasis := by
    ext i j
    rw [hbasis i j]
    have e1 : (f : ℝ) * n' / n = 1 := by rw [← en]; push_cast; exact div_self (mul_ne_zero hf0 hn0)
    have e2 : (f : ℝ) * m' / m = 1 := by rw [← em]; push_cast; exact div_self (mul_ne_zero hf0 hm0)
    rw [e1, e2]
    fin_cases j <;> simp
  have htr : t0 = s0 ∧ rest = sest := by
    have : t0 :: rest = s0 :: sest := by rw [← g3, ← k3]; rfl
    exact List.cons.inj this
  obtain ⟨rfl, rfl⟩ := htr
  have hmin : M'.minTranslation = M.minTranslation := by rw [g4, k4, hobj, hnormal]
  have hn2 : n' ≤ n := by rw [← en]; exact Nat.le_mul_of_pos_left _ hf
  have hm2 : m' ≤ m := by rw [← em]; exact Nat.le_mul_of_pos_left _ hf
  refine ⟨hobj, fun idx t => ?_, fun idx x y z hxyz => ?_, ?_, ?_⟩
  · rw [g7, k7, hobj, hnormal, hmin]
  · rw [g7, k7, hobj, hnormal, hmin]
    have e5 : d.translations.getD idx.val (0, 0, 0) = (x, y, z) := by rw [List.getD_eq_getElem?_getD, hxyz]; rfl
    unfold PDataset.toFancy
    simp only [e5]
  · rw [hobj, hnormal] at k5
    simp only [objectSetup] at g5 k5
    have e3 : os * (n - n') + os * n' = os * n := by rw [← Nat.mul_add, Nat.sub_add_cancel hn2]
    have e4 : ((os * (n - n') : ℕ) : ℤ) + ((os * n' : ℕ) : ℤ) = ((os * n : ℕ) : ℤ) := by exact_mod_cast e3
    omega
  · rw [hobj, hnormal] at k6
    simp only [objectSetup] at g6 k6
    have e3 : os * (m - m') + os * m' = os * m := by rw [← Nat.mul_add, Nat.sub_add_cancel hm2]
    have e4 : ((os * (m - m') : ℕ) : ℤ) + ((os * m' : ℕ) : ℤ) = ((os * m : ℕ) : ℤ) := by exact_mod_cast e3
    omega

end down

/-! ### Illumination -/

/-- The total of the mean counts of a dataset, less the background: the intensity of the first guess of the illumination. -/
noncomputable def FancyData.brightness {n m N : ℕ} (D : FancyData n m N) : ℝ := ∑ i ∈ range n, ∑ j ∈ range m, D.mean i j

/-- The intensity of the first mode of a new far-field model is the brightness of its dataset. -/
theorem fresh_illumination {n m N : ℕ} [NeZero n] [NeZero m] (D : FancyData n m N) (hD : D.Nonneg) (O : FancyOpts) (os : ℕ) [NeZero os]
    [NeZero (os * n)] [NeZero (os * m)] [NeZero (os * n - 2 * 0)] [NeZero (os * m - 2 * 0)] (k : ℕ)
    (rp : Fin k → Wave (os * n - 2 * 0) (os * m - 2 * 0)) (ro : ℕ → ℕ → ℝ)
    (M : Fancy (os * n - 2 * 0) (os * m - 2 * 0) (os * n) (os * m) N (k + 1)) (h : fancyFromDataset D O os 0 k rp ro = .ok M)
    (hfar : O.nearField = false) (hsup : O.supportRadius = none) (hz : O.propagationDistance = none) (hb : D.brightness ≠ 0) :
    power (fun x y => (M.probeNorm : ℂ) * M.basisProbes 0 x y) = D.brightness := by
  obtain ⟨t0, rest, S, normal, W, h1, h2, h3, h4, hM⟩ := fresh_fields D O os 0 k rp ro M h
  have hp : power S.probe = D.brightness := by
    have h2' := h2
    unfold FancyData.start at h2'
    rw [hfar, hz] at h2'
    simp only [Bool.false_eq_true, if_false] at h2'
    rw [← Except.ok.inj h2']
    refine (sharp_probe_matches_data os (Nat.pos_of_ne_zero (NeZero.ne os)) D.mask (List.ofFn D.patterns) D.background hD.mask
      (by intro p hp; obtain ⟨e, rfl⟩ := List.mem_ofFn.1 hp; exact hD.patterns e)).1.trans ?_
    unfold FancyData.brightness
    rw [← sum_pixels]
    refine sum_congr rfl fun i _ => sum_congr rfl fun j _ => ?_
    exact D.mean_eq i j
  have hne : cropProbe 0 S.probe ≠ 0 := by
    rw [cropProbe_zero]
    intro h0
    rw [h0] at hp
    refine hb (hp.symm.trans ?_)
    unfold power
    simp
  have := (fresh_modes D O os 0 k rp ro M h hsup S h2 hne).1
  rw [this, cropProbe_zero]
  exact hp

/-- Every count is non-negative. -/
def PDataset.CountsNonneg {I : Type} (d : PDataset I) : Prop :=
  (∀ p ∈ d.patterns, ∀ i j, 0 ≤ p.px i j) ∧ ∀ b, d.background = some b → ∀ i j, 0 ≤ b.px i j

theorem getD_of_all {α : Type} (l : List α) (x : α) (P : α → Prop) (h : ∀ a ∈ l, P a) (hx : P x) (i : ℕ) : P (l.getD i x) := by
  rw [List.getD_eq_getElem?_getD]
  cases hi : l[i]? with
  | none => exact hx
  | some a => exact h a (List.mem_of_getElem? hi)

theorem toFancy_nonneg {n m N : ℕ} (d : PDataset ExperimentInfo) (h : d.CountsNonneg) : (d.toFancy n m N).Nonneg := by
  refine ⟨fun i j => ?_, fun e i j => ?_, fun b hb i j => ?_⟩
  · unfold PDataset.toFancy
    simp only
    split
    · norm_num
    · split_ifs <;> norm_num
  · unfold PDataset.toFancy
    exact getD_of_all d.patterns _ (fun p : Img ℝ => 0 ≤ p.px i.val j.val) (fun p hp => h.1 p hp _ _) le_rfl e.val
  · unfold PDataset.toFancy at hb
    simp only [Option.map_eq_some_iff] at hb
    obtain ⟨b', h1, rfl⟩ := hb
    exact h.2 b' h1 _ _

/-- The background of a pixel. -/
def PDataset.backgroundAt {I : Type} (d : PDataset I) (i j : ℕ) : ℝ := match d.background with
  | none => 0
  | some b => b.px i j

/-- The mean of a pixel over the exposures. -/
noncomputable def PDataset.meanAt {I : Type} (d : PDataset I) (i j : ℕ) : ℝ := (d.patterns.map fun p => p.px i j).sum / d.patterns.length

open Classical in
theorem toFancy_mean {n m N : ℕ} [NeZero n] [NeZero m] (d : PDataset ExperimentInfo) (hN : d.patterns.length = N) (i j : ℕ) (hi : i < n)
    (hj : j < m) : (d.toFancy n m N).mean i j =
      max ((if Usable d.mask i j then 1 else 0) * d.meanAt i j - d.backgroundAt i j) 0 := by
  subst hN
  unfold FancyData.mean
  have e1 : ∀ e : Fin d.patterns.length, (d.toFancy n m d.patterns.length).patterns e i j = (d.patterns[e]).px i j := by
    intro e
    unfold PDataset.toFancy
    simp only [ZMod.val_cast_of_lt hi, ZMod.val_cast_of_lt hj]
    rw [List.getD_eq_getElem?_getD, List.getElem?_eq_getElem e.isLt]
    rfl
  have e2 : ∑ e, (d.toFancy n m d.patterns.length).patterns e i j = (d.patterns.map fun p => p.px i j).sum := by
    rw [Finset.sum_congr rfl fun e _ => e1 e, Fin.sum_univ_def, ← List.ofFn_eq_map]
    congr 1
    refine List.ext_getElem (by simp) fun q h1 h2 => ?_
    simp
  have e3 : (d.toFancy n m d.patterns.length).mask i j = if Usable d.mask i j then 1 else 0 := by
    unfold PDataset.toFancy Usable
    simp only [ZMod.val_cast_of_lt hi, ZMod.val_cast_of_lt hj]
    cases d.mask with
    | none => simp
    | some b => simp
  have e4 : ((d.toFancy n m d.patterns.length).background.getD fun _ _ => 0) (i : ZMod n) (j : ZMod m) = d.backgroundAt i j := by
    unfold PDataset.toFancy PDataset.backgroundAt
    cases d.background with
    | none => rfl
    | some b => simp only [Option.map_some, Option.getD_some, ZMod.val_cast_of_lt hi, ZMod.val_cast_of_lt hj]
  rw [e2, e3, e4]
  rfl

theorem map_sum_comm {α : Type} (l : List α) (s : Finset ℕ) (g : α → ℕ → ℝ) :
    (l.map fun x => ∑ u ∈ s, g x u).sum = ∑ u ∈ s, (l.map fun x => g x u).sum := by
  induction l with
  | nil => simp
  | cons a l ih => simp only [List.map_cons, List.sum_cons, ih, Finset.sum_add_distrib]

/-- All pixels live, no pixel below the background: downsampling sums the mean counts over blocks. -/
theorem downsample_mean {n m N : ℕ} [NeZero n] [NeZero m] (d d' : PDataset ExperimentInfo) (f : ℕ) (hf : 0 < f) (h : d.downsample f = .ok d')
    (hN : d.patterns.length = N) (hlive : ∀ i j, Usable d.mask i j) (hbg : ∀ i j, d.backgroundAt i j ≤ d.meanAt i j)
    [NeZero (f * n)] [NeZero (f * m)] (i j : ℕ) (hi : i < n) (hj : j < m) :
    (d'.toFancy n m N).mean i j = ∑ u ∈ range f, ∑ v ∈ range f, (d.toFancy (f * n) (f * m) N).mean (f * i + u) (f * j + v) := by
  classical
  obtain ⟨B, mq, hB, hmq, rfl⟩ := downsample_attributes d d' f h
  have hlive' : ∀ i j, Usable mq.1 i j := by
    intro i j x hx
    cases hmask : d.mask with
    | none =>
      rw [hmask] at hmq
      cases hq : d.qeMask with
      | none =>
        rw [hq] at hmq
        have := Except.ok.inj hmq
        rw [← this] at hx
        cases hx
      | some q => rw [hq] at hmq; cases hmq
    | some mk' =>
      rw [hmask] at hmq
      have hpx : ∀ i j, mk'.px i j = true := fun i j => hlive i j mk' hmask
      cases hq : d.qeMask with
      | none =>
        rw [hq] at hmq
        have := Except.ok.inj hmq
        rw [← this] at hx
        rw [← Option.some.inj hx, allPool_px]
        intros
        exact hpx _ _
      | some q =>
        rw [hq] at hmq
        have := Except.ok.inj hmq
        rw [← this] at hx
        rw [← Option.some.inj hx, anyPool_px]
        exact ⟨0, hf, 0, hf, hpx _ _⟩
  have hpat : ∀ i j, ((downsamplePatterns f d.mask d.patterns).map fun p => p.px i j) =
      d.patterns.map fun p => ∑ u ∈ range f, ∑ v ∈ range f, p.px (f * i + u) (f * j + v) := by
    intro i j
    have hx : ∀ (mk' : Img Bool), d.mask = some mk' → ∀ p : Img ℝ, ∀ i j, (applyMask mk' p).px i j = p.px i j := by
      intro mk' hk p i j
      rw [applyMask_px]
      exact if_pos (hk ▸ hlive i j)
    unfold downsamplePatterns
    cases hmask : d.mask with
    | none =>
      simp only [List.map_map]
      rfl
    | some mk' =>
      simp only [List.map_map]
      refine List.map_congr_left fun p _ => ?_
      change ∑ u ∈ range f, ∑ v ∈ range f, (applyMask mk' p).px (f * i + u) (f * j + v) = _
      exact sum_congr rfl fun u _ => sum_congr rfl fun v _ => hx mk' hmask p _ _
  have hlen : (downsamplePatterns f d.mask d.patterns).length = N := by
    rw [← hN]
    unfold downsamplePatterns
    cases d.mask <;> simp
  rw [toFancy_mean _ hlen i j hi hj]
  have hin : ∀ u ∈ range f, ∀ v ∈ range f, (d.toFancy (f * n) (f * m) N).mean (f * i + u) (f * j + v) =
      d.meanAt (f * i + u) (f * j + v) - d.backgroundAt (f * i + u) (f * j + v) := by
    intro u hu v hv
    have hu := mem_range.1 hu
    have hv := mem_range.1 hv
    rw [toFancy_mean d hN _ _ (by nlinarith [Nat.mul_le_mul_left f (Nat.succ_le_of_lt hi)])
      (by nlinarith [Nat.mul_le_mul_left f (Nat.succ_le_of_lt hj)]), if_pos (hlive _ _), one_mul]
    exact max_eq_left (sub_nonneg.2 (hbg _ _))
  rw [sum_congr rfl fun u hu => sum_congr rfl fun v hv => hin u hu v hv, if_pos (hlive' i j), one_mul]
  have e1 : PDataset.meanAt { d with
        patterns := downsamplePatterns f d.mask d.patterns
        mask := mq.1
        qeMask := mq.2
        basis := some fun i j => B i j * f
        background := d.background.map (Img.sumPool f) } i j =
      ∑ u ∈ range f, ∑ v ∈ range f, d.meanAt (f * i + u) (f * j + v) := by
    unfold PDataset.meanAt
    simp only [hpat, hlen, hN]
    rw [map_sum_comm, Finset.sum_div]
    refine sum_congr rfl fun u _ => ?_
    rw [map_sum_comm, Finset.sum_div]
  have e2 : PDataset.backgroundAt { d with
        patterns := downsamplePatterns f d.mask d.patterns
        mask := mq.1
        qeMask := mq.2
        basis := some fun i j => B i j * f
        background := d.background.map (Img.sumPool f) } i j =
      ∑ u ∈ range f, ∑ v ∈ range f, d.backgroundAt (f * i + u) (f * j + v) := by
    unfold PDataset.backgroundAt
    cases d.background with
    | none => simp
    | some b => rfl
  rw [e1, e2, ← Finset.sum_sub_distrib]
  simp only [← Finset.sum_sub_distrib]
  exact max_eq_left (sum_nonneg fun u _ => sum_nonneg fun v _ => sub_nonneg.2 (hbg _ _))

/-- The brightness of a downsampled dataset. -/
theorem downsample_brightness {n m N : ℕ} [NeZero n] [NeZero m] (d d' : PDataset ExperimentInfo) (f : ℕ) (hf : 0 < f)
    (h : d.downsample f = .ok d') (hN : d.patterns.length = N) (hlive : ∀ i j, Usable d.mask i j)
    (hbg : ∀ i j, d.backgroundAt i j ≤ d.meanAt i j) [NeZero (f * n)] [NeZero (f * m)] :
    (d'.toFancy n m N).brightness = (d.toFancy (f * n) (f * m) N).brightness := by
  unfold FancyData.brightness
  rw [sum_congr rfl fun i hi => sum_congr rfl fun j hj =>
    downsample_mean d d' f hf h hN hlive hbg i j (mem_range.1 hi) (mem_range.1 hj), sum_blocks]
  refine sum_congr rfl fun i _ => ?_
  rw [sum_comm]
  refine sum_congr rfl fun u _ => ?_
  exact (sum_blocks (fun j => (d.toFancy (f * n) (f * m) N).mean (f * i + u) j) f m).symm

theorem downsample_nonneg (d d' : PDataset ExperimentInfo) (f : ℕ) (h : d.downsample f = .ok d') (hd : d.CountsNonneg) : d'.CountsNonneg := by
  obtain ⟨B, mq, hB, hmq, rfl⟩ := downsample_attributes d d' f h
  constructor
  · intro p hp i j
    simp only at hp
    unfold downsamplePatterns at hp
    cases hmask : d.mask with
    | none =>
      rw [hmask] at hp
      simp only [List.mem_map] at hp
      obtain ⟨x, hx, rfl⟩ := hp
      rw [sumPool_px]
      exact sum_nonneg fun u _ => sum_nonneg fun v _ => hd.1 x hx _ _
    | some mk' =>
      rw [hmask] at hp
      simp only [List.mem_map] at hp
      obtain ⟨x, hx, rfl⟩ := hp
      rw [sumPool_px]
      refine sum_nonneg fun u _ => sum_nonneg fun v _ => ?_
      rw [applyMask_px]
      unfold usableValue
      split_ifs
      · exact hd.1 x hx _ _
      · exact le_rfl
  · intro b hb i j
    simp only [Option.map_eq_some_iff] at hb
    obtain ⟨x, hx, rfl⟩ := hb
    rw [sumPool_px]
    exact sum_nonneg fun u _ => sum_nonneg fun v _ => hd.2 x hx _ _

/-- **C112** (downsampling, illumination): when the factor divides the shape, no pixel is masked and no pixel has fewer mean counts than the
background, the first illuminations of models made from a dataset before and after downsampling have the same intensity: the total of the
mean counts less the background. -/
theorem downsample_model_illumination {n m N : ℕ} [NeZero n] [NeZero m] (d d' : PDataset ExperimentInfo) (f : ℕ) (hf : 0 < f)
    (h : d.downsample f = .ok d') (hN : d.patterns.length = N) (hlive : ∀ i j, Usable d.mask i j) (hd : d.CountsNonneg)
    (hbg : ∀ i j, d.backgroundAt i j ≤ d.meanAt i j) [NeZero (f * n)] [NeZero (f * m)]
    (O : FancyOpts) (os : ℕ) [NeZero os] [NeZero (os * n)] [NeZero (os * m)] [NeZero (os * n - 2 * 0)] [NeZero (os * m - 2 * 0)]
    [NeZero (os * (f * n))] [NeZero (os * (f * m))] [NeZero (os * (f * n) - 2 * 0)] [NeZero (os * (f * m) - 2 * 0)] (k : ℕ)
    (rp : Fin k → Wave (os * (f * n) - 2 * 0) (os * (f * m) - 2 * 0)) (rp' : Fin k → Wave (os * n - 2 * 0) (os * m - 2 * 0)) (ro ro' : ℕ → ℕ → ℝ)
    (M : Fancy (os * (f * n) - 2 * 0) (os * (f * m) - 2 * 0) (os * (f * n)) (os * (f * m)) N (k + 1))
    (hM : fancyFromDataset (d.toFancy (f * n) (f * m) N) O os 0 k rp ro = .ok M)
    (M' : Fancy (os * n - 2 * 0) (os * m - 2 * 0) (os * n) (os * m) N (k + 1))
    (hM' : fancyFromDataset (d'.toFancy n m N) O os 0 k rp' ro' = .ok M')
    (hfar : O.nearField = false) (hsup : O.supportRadius = none) (hz : O.propagationDistance = none)
    (hb : ∑ i ∈ range (f * n), ∑ j ∈ range (f * m), (d.meanAt i j - d.backgroundAt i j) ≠ 0) :
    power (fun x y => (M'.probeNorm : ℂ) * M'.basisProbes 0 x y) = power (fun x y => (M.probeNorm : ℂ) * M.basisProbes 0 x y) ∧
    power (fun x y => (M.probeNorm : ℂ) * M.basisProbes 0 x y) =
      ∑ i ∈ range (f * n), ∑ j ∈ range (f * m), (d.meanAt i j - d.backgroundAt i j) := by
  classical
  have e : (d.toFancy (f * n) (f * m) N).brightness = ∑ i ∈ range (f * n), ∑ j ∈ range (f * m), (d.meanAt i j - d.backgroundAt i j) := by
    unfold FancyData.brightness
    refine sum_congr rfl fun i hi => sum_congr rfl fun j hj => ?_
    rw [toFancy_mean d hN i j (mem_range.1 hi) (mem_range.1 hj), if_pos (hlive _ _), one_mul]
    exact max_eq_left (sub_nonneg.2 (hbg _ _))
  have e' := downsample_brightness (n := n) (m := m) d d' f hf h hN hlive hbg
  have h1 := fresh_illumination _ (toFancy_nonneg d hd) O os k rp ro M hM hfar hsup hz (by rw [e]; exact hb)
  have h2 := fresh_illumination _ (toFancy_nonneg d' (downsample_nonneg d d' f h hd)) O os k rp' ro' M' hM' hfar hsup hz
    (by rw [e', e]; exact hb)
  exact ⟨by rw [h1, h2, e'], by rw [h1, e]⟩

/-! ### Padding -/

section padding
variable {n m N : ℕ} [NeZero n] [NeZero m] (d : PDataset ExperimentInfo) (arg : PadArg) (value : ℝ) (maskNew : Bool) (l r t b : ℕ)
  [NeZero (n + t + b)] [NeZero (m + l + r)]

/-- **C112** (padding, geometry): padding by `l`, `r`, `t`, `b` pixels refines the pixels of the object of a far-field model by the ratio of the
shapes, and keeps the surface normal. -/
theorem pad_model_geometry (_harg : arg.expand = (l, r, t, b)) (O : FancyOpts) (os : ℕ) [NeZero os] [NeZero (os * n)] [NeZero (os * m)]
    [NeZero (os * (n + t + b))] [NeZero (os * (m + l + r))] (c : ℕ) [NeZero (os * n - 2 * c)] [NeZero (os * m - 2 * c)]
    [NeZero (os * (n + t + b) - 2 * c)] [NeZero (os * (m + l + r) - 2 * c)] (k : ℕ)
    (rp : Fin k → Wave (os * n - 2 * c) (os * m - 2 * c)) (rp' : Fin k → Wave (os * (n + t + b) - 2 * c) (os * (m + l + r) - 2 * c))
    (ro ro' : ℕ → ℕ → ℝ) (M : Fancy (os * n - 2 * c) (os * m - 2 * c) (os * n) (os * m) N (k + 1))
    (hM : fancyFromDataset (d.toFancy n m N) O os c k rp ro = .ok M)
    (M' : Fancy (os * (n + t + b) - 2 * c) (os * (m + l + r) - 2 * c) (os * (n + t + b)) (os * (m + l + r)) N (k + 1))
    (hM' : fancyFromDataset ((d.pad arg value maskNew).toFancy (n + t + b) (m + l + r) N) O os c k rp' ro' = .ok M')
    (hfar : O.nearField = false) :
    (∀ i, M'.objBasis i 0 = M.objBasis i 0 * ((n : ℝ) / (n + t + b : ℕ)) ∧ M'.objBasis i 1 = M.objBasis i 1 * ((m : ℝ) / (m + l + r : ℕ))) ∧
    M'.normal = M.normal := by
  obtain ⟨g1, g2, -, -⟩ := fresh_geometry (d.toFancy n m N) O os c k rp ro M hM hfar
  obtain ⟨k1, k2, -, -⟩ := fresh_geometry _ O os c k rp' ro' M' hM' hfar
  have hn0 : ((n + t + b : ℕ) : ℝ) ≠ 0 := Nat.cast_ne_zero.2 (NeZero.ne _)
  have hm0 : ((m + l + r : ℕ) : ℝ) ≠ 0 := Nat.cast_ne_zero.2 (NeZero.ne _)
  have hn1 : (n : ℝ) ≠ 0 := Nat.cast_ne_zero.2 (NeZero.ne n)
  have hm1 : (m : ℝ) ≠ 0 := Nat.cast_ne_zero.2 (NeZero.ne m)
  have hscale := exitWave_scaled (d.toFancy n m N).detBasis (d.toFancy n m N).detBasis ![n, m] ![n + t + b, m + l + r]
    d.info.wavelength d.info.distance os os ![((n + t + b : ℕ) : ℝ) / n, ((m + l + r : ℕ) : ℝ) / m] (by
      intro j
      fin_cases j
      · exact div_ne_zero hn0 hn1
      · exact div_ne_zero hm0 hm1) (by
      intro i j
      fin_cases j
      · change _ * ((n + t + b : ℕ) : ℝ) = _ * (n : ℝ) * (((n + t + b : ℕ) : ℝ) / n)
        field_simp
      · change _ * ((m + l + r : ℕ) : ℝ) = _ * (m : ℝ) * (((m + l + r : ℕ) : ℝ) / m)
        field_simp)
  have hbasis : ∀ i j, M'.objBasis i j = M.objBasis i j / ![((n + t + b : ℕ) : ℝ) / n, ((m + l + r : ℕ) : ℝ) / m] j := by
    intro i j
    rw [g1, k1]
    exact hscale i j
  refine ⟨fun i => ⟨?_, ?_⟩, Except.ok.inj (k2.symm.trans g2)⟩
  · rw [hbasis i 0]
    change M.objBasis i 0 / (((n + t + b : ℕ) : ℝ) / n) = _
    field_simp
  · rw [hbasis i 1]
    change M.objBasis i 1 / (((m + l + r : ℕ) : ℝ) / m) = _
    field_simp

/-- Padding with zeros adds pixels without counts. -/
theorem pad_mean (harg : arg.expand = (l, r, t, b)) (hN : d.patterns.length = N) (hsh : d.Shaped n m) (i j : ℕ) (hi : i < n + t + b)
    (hj : j < m + l + r) : ((d.pad arg 0 maskNew).toFancy (n + t + b) (m + l + r) N).mean i j =
      if t ≤ i ∧ i < t + n ∧ l ≤ j ∧ j < l + m then (d.toFancy n m N).mean (i - t : ℕ) (j - l : ℕ) else 0 := by
  classical
  have hlen : (d.pad arg 0 maskNew).patterns.length = N := by
    unfold PDataset.pad
    simpa using hN
  rw [toFancy_mean _ hlen i j hi hj]
  have hpx : ∀ p ∈ d.patterns, (Img.pad l r t b (0 : ℝ) p).px i j = if t ≤ i ∧ i < t + n ∧ l ≤ j ∧ j < l + m then p.px (i - t) (j - l) else 0 := by
    intro p hp
    obtain ⟨h1, h2⟩ := hsh.1 p hp
    unfold Img.pad
    simp only [h1, h2]
  have hmean : (d.pad arg 0 maskNew).meanAt i j = if t ≤ i ∧ i < t + n ∧ l ≤ j ∧ j < l + m then d.meanAt (i - t) (j - l) else 0 := by
    unfold PDataset.meanAt PDataset.pad
    simp only [harg, List.map_map, List.length_map]
    have : (d.patterns.map ((fun p => p.px i j) ∘ Img.pad l r t b 0)) =
        d.patterns.map fun p => if t ≤ i ∧ i < t + n ∧ l ≤ j ∧ j < l + m then p.px (i - t) (j - l) else 0 :=
      List.map_congr_left fun p hp => hpx p hp
    rw [this]
    split_ifs with hc
    · rfl
    · simp
  have hback : (d.pad arg 0 maskNew).backgroundAt i j = if t ≤ i ∧ i < t + n ∧ l ≤ j ∧ j < l + m then d.backgroundAt (i - t) (j - l) else 0 := by
    unfold PDataset.backgroundAt PDataset.pad
    simp only [harg]
    cases hb : d.background with
    | none => simp
    | some x =>
      obtain ⟨h1, h2⟩ := hsh.2.2.2 x hb
      simp only [Option.map_some]
      unfold Img.pad
      simp only [h1, h2]
  rw [hmean, hback]
  by_cases hc : t ≤ i ∧ i < t + n ∧ l ≤ j ∧ j < l + m
  · rw [if_pos hc, if_pos hc, if_pos hc, toFancy_mean d hN _ _ (by omega) (by omega)]
    have hu : Usable (d.pad arg 0 maskNew).mask i j ↔ Usable d.mask (i - t) (j - l) := by
      unfold Usable PDataset.pad
      simp only [harg]
      cases hm : d.mask with
      | none => simp
      | some x =>
        obtain ⟨h1, h2⟩ := hsh.2.1 x hm
        simp only [Option.map_some, Option.some.injEq, forall_eq']
        unfold Img.pad
        simp only [h1, h2]
        rw [if_pos hc]
    simp only [hu]
  · rw [if_neg hc, if_neg hc, if_neg hc]
    simp

theorem pad_nonneg (hv : 0 ≤ value) (hd : d.CountsNonneg) : (d.pad arg value maskNew).CountsNonneg := by
  constructor
  · intro p hp i j
    unfold PDataset.pad at hp
    simp only [List.mem_map] at hp
    obtain ⟨x, hx, rfl⟩ := hp
    unfold Img.pad
    simp only
    split_ifs
    · exact hd.1 x hx _ _
    · exact hv
  · intro x hx i j
    unfold PDataset.pad at hx
    simp only [Option.map_eq_some_iff] at hx
    obtain ⟨y, hy, rfl⟩ := hx
    unfold Img.pad
    simp only
    split_ifs
    · exact hd.2 y hy _ _
    · exact le_rfl

theorem sum_padded_range (A B s : ℕ) (h : s + A ≤ B) (g : ℕ → ℝ) :
    ∑ i ∈ range B, (if s ≤ i ∧ i < s + A then g (i - s) else 0) = ∑ i ∈ range A, g i := by
  rw [← Finset.sum_filter]
  have : (range B).filter (fun i => s ≤ i ∧ i < s + A) = Ico s (s + A) := by
    ext i
    simp only [Finset.mem_filter, mem_range, Finset.mem_Ico]
    omega
  rw [this, sum_Ico_eq_sum_range, Nat.add_sub_cancel_left]
  exact sum_congr rfl fun i _ => by rw [Nat.add_sub_cancel_left]

theorem pad_brightness (harg : arg.expand = (l, r, t, b)) (hN : d.patterns.length = N) (hsh : d.Shaped n m) :
    ((d.pad arg 0 maskNew).toFancy (n + t + b) (m + l + r) N).brightness = (d.toFancy n m N).brightness := by
  unfold FancyData.brightness
  rw [sum_congr rfl fun i hi => sum_congr rfl fun j hj =>
    pad_mean (n := n) (m := m) d arg maskNew l r t b harg hN hsh i j (mem_range.1 hi) (mem_range.1 hj)]
  rw [← sum_padded_range n (n + t + b) t (by omega) fun i : ℕ => ∑ j ∈ range m, (d.toFancy n m N).mean i j]
  refine sum_congr rfl fun i _ => ?_
  by_cases hi : t ≤ i ∧ i < t + n
  · rw [if_pos hi, ← sum_padded_range m (m + l + r) l (by omega) fun j : ℕ => (d.toFancy n m N).mean (i - t : ℕ) j]
    refine sum_congr rfl fun j _ => ?_
    by_cases hj : l ≤ j ∧ j < l + m
    · rw [if_pos ⟨hi.1, hi.2, hj.1, hj.2⟩, if_pos hj]
    · rw [if_neg fun h => hj ⟨h.2.2.1, h.2.2.2⟩, if_neg hj]
  · rw [if_neg hi]
    exact sum_eq_zero fun j _ => if_neg fun h => hi ⟨h.1, h.2.1⟩

/-- **C112** (padding, illumination): padding with zeros, with any mask and background and for either choice of masking the new pixels, keeps
the intensity of the first illumination. -/
theorem pad_model_illumination (harg : arg.expand = (l, r, t, b)) (hN : d.patterns.length = N) (hsh : d.Shaped n m) (hd : d.CountsNonneg)
    (O : FancyOpts) (os : ℕ) [NeZero os] [NeZero (os * n)] [NeZero (os * m)] [NeZero (os * n - 2 * 0)] [NeZero (os * m - 2 * 0)]
    [NeZero (os * (n + t + b))] [NeZero (os * (m + l + r))] [NeZero (os * (n + t + b) - 2 * 0)] [NeZero (os * (m + l + r) - 2 * 0)] (k : ℕ)
    (rp : Fin k → Wave (os * n - 2 * 0) (os * m - 2 * 0)) (rp' : Fin k → Wave (os * (n + t + b) - 2 * 0) (os * (m + l + r) - 2 * 0))
    (ro ro' : ℕ → ℕ → ℝ) (M : Fancy (os * n - 2 * 0) (os * m - 2 * 0) (os * n) (os * m) N (k + 1))
    (hM : fancyFromDataset (d.toFancy n m N) O os 0 k rp ro = .ok M)
    (M' : Fancy (os * (n + t + b) - 2 * 0) (os * (m + l + r) - 2 * 0) (os * (n + t + b)) (os * (m + l + r)) N (k + 1))
    (hM' : fancyFromDataset ((d.pad arg 0 maskNew).toFancy (n + t + b) (m + l + r) N) O os 0 k rp' ro' = .ok M')
    (hfar : O.nearField = false) (hsup : O.supportRadius = none) (hz : O.propagationDistance = none)
    (hb : (d.toFancy n m N).brightness ≠ 0) :
    power (fun x y => (M'.probeNorm : ℂ) * M'.basisProbes 0 x y) = power (fun x y => (M.probeNorm : ℂ) * M.basisProbes 0 x y) := by
  have e := pad_brightness (n := n) (m := m) d arg maskNew l r t b harg hN hsh
  rw [fresh_illumination _ (toFancy_nonneg d hd) O os k rp ro M hM hfar hsup hz hb,
    fresh_illumination _ (toFancy_nonneg _ (pad_nonneg d arg 0 maskNew le_rfl hd)) O os k rp' ro' M' hM' hfar hsup hz (by rw [e]; exact hb), e]

end padding

/-! ### Where the pixels are -/

/-- The location of the first corner of pixel `(i, j)`, from `detector_geometry`. -/
def PDataset.location (d : PDataset ExperimentInfo) (i j : ℕ) : Option (Fin 3 → ℝ) :=
  match d.info.corner, d.basis with
  | some p, some B => some fun q => p q + i * B q.val 0 + j * B q.val 1
  | _, _ => none

/-- The direct beam: a uniform exit wave reaches pixel `(n/2, m/2)` only. -/
theorem direct_beam (n m : ℕ) [NeZero n] [NeZero m] (x : ZMod n) (y : ZMod m) :
    farField (fun _ _ => 1 : Wave n m) x y ≠ 0 ↔ x = ((n / 2 : ℕ) : ZMod n) ∧ y = ((m / 2 : ℕ) : ZMod m) := by
  have h1 : ifftshift2 (fun _ _ => 1 : Wave n m) = fun _ _ => 1 := rfl
  have h2 : ∀ k l, fft2 (fun _ _ => 1 : Wave n m) k l = (if k = 0 then (n : ℂ) else 0) * (if l = 0 then (m : ℂ) else 0) := by
    intro k l
    have e1 : ∑ i : ZMod n, stdAddChar (-(i * k)) = if k = 0 then (n : ℂ) else 0 := by
      have := char_sum (-k)
      simp only [mul_neg, neg_eq_zero] at this
      exact this
    have e2 : ∑ j : ZMod m, stdAddChar (-(j * l)) = if l = 0 then (m : ℂ) else 0 := by
      have := char_sum (-l)
      simp only [mul_neg, neg_eq_zero] at this
      exact this
    rw [fft2_eq, ← e1, ← e2, Finset.sum_mul_sum]
    simp
  unfold farField
  rw [h1]
  unfold fftshift2
  simp only [h2]
  have hs : ((Real.sqrt (n * m) : ℝ) : ℂ) ≠ 0 := sqrt_size_ne
  have hn : (n : ℂ) ≠ 0 := Nat.cast_ne_zero.2 (NeZero.ne n)
  have hm : (m : ℂ) ≠ 0 := Nat.cast_ne_zero.2 (NeZero.ne m)
  rw [← sub_eq_zero (a := x), ← sub_eq_zero (a := y)]
  constructor
  · intro h
    constructor
    · by_contra hx
      exact h (by rw [if_neg hx]; simp)
    · by_contra hy
      exact h (by rw [if_neg hy]; simp)
  · rintro ⟨hx, hy⟩
    rw [if_pos hx, if_pos hy]
    exact div_ne_zero (mul_ne_zero hn hm) hs

/-- **C112** (downsampling, positions): every block of pixels is at the location the downsampled dataset gives for its pixel, and the pixel of the
direct beam is in the block that becomes the pixel of the direct beam. -/
theorem downsample_positions (d d' : PDataset ExperimentInfo) (f : ℕ) (h : d.downsample f = .ok d') (i j : ℕ) :
    d'.location i j = d.location (f * i) (f * j) ∧ ∀ n : ℕ, n / 2 / f = n / f / 2 := by
  obtain ⟨B, mq, hB, -, rfl⟩ := downsample_attributes d d' f h
  refine ⟨?_, fun n => by rw [Nat.div_div_eq_div_mul, Nat.div_div_eq_div_mul, mul_comm]⟩
  unfold PDataset.location
  rw [hB]
  cases d.info.corner with
  | none => rfl
  | some p =>
    simp only [Option.some.injEq]
    funext q
    push_cast
    ring

/-- **C112** (padding, direct beam): padding keeps the pixel of the direct beam if as many rows are added before as after, or one more after
for an odd number of rows, or one more before for an even number; otherwise the pattern is off-centre. -/
theorem pad_centre (n t b : ℕ) : t + n / 2 = (n + t + b) / 2 ↔ t = b ∨ (n % 2 = 0 ∧ b = t + 1) ∨ (n % 2 = 1 ∧ t = b + 1) := by
  omega

/-- **C112** (violated): after padding, `detector_geometry` gives another location for every recorded pixel, off by the rows and columns added
before it, if any. -/
theorem pad_positions_violated (d : PDataset ExperimentInfo) (arg : PadArg) (l r t b : ℕ) (_harg : arg.expand = (l, r, t, b)) (value : ℝ)
    (maskNew : Bool) (p : Fin 3 → ℝ) (hp : d.info.corner = some p) (B : ℕ → ℕ → ℝ) (hB : d.basis = some B) (i j : ℕ) :
    (d.pad arg value maskNew).location (t + i) (l + j) = (d.location i j).map (fun x q => x q + (t * B q.val 0 + l * B q.val 1)) ∧
    ((∃ q : Fin 3, (t : ℝ) * B q.val 0 + l * B q.val 1 ≠ 0) → (d.pad arg value maskNew).location (t + i) (l + j) ≠ d.location i j) := by
  have key : (d.pad arg value maskNew).location (t + i) (l + j) = (d.location i j).map (fun x q => x q + (t * B q.val 0 + l * B q.val 1)) := by
    unfold PDataset.location PDataset.pad
    simp only [hp, hB, Option.map_some, Option.some.injEq]
    funext q
    push_cast
    ring
  refine ⟨key, ?_⟩
  rintro ⟨q, hq⟩ h
  rw [key] at h
  unfold PDataset.location at h
  rw [hp, hB] at h
  simp only [Option.map_some, Option.some.injEq] at h
  have := congrFun h q
  exact hq (by linarith)

/-- Two exposures of 2 × 2 pixels, with a corner and a basis. -/
noncomputable def toyScan : PDataset ExperimentInfo where
  translations := [(0, 0, 0), (1, 0, 0)]
  patterns := [⟨2, 2, fun _ _ => 1⟩, ⟨2, 2, fun _ _ => 3⟩]
  intensities := none
  mask := some ⟨2, 2, fun _ _ => true⟩
  qeMask := none
  background := none
  basis := some fun i j => if i + j = 1 then -1 else 0
  info := ⟨1, 1, some fun _ => 0, none⟩

/-- Non-vacuity: the toy scan meets the hypotheses on datasets above: it can be downsampled, its models exist before and after downsampling
and after padding, and it is not dark. -/
example : toyScan.Shaped 2 2 ∧ toyScan.CountsNonneg ∧ toyScan.patterns.length = 2 ∧ (∀ i j, Usable toyScan.mask i j) ∧
    (∀ i j, toyScan.backgroundAt i j ≤ toyScan.meanAt i j) ∧
    (∑ i ∈ range (2 * 1), ∑ j ∈ range (2 * 1), (toyScan.meanAt i j - toyScan.backgroundAt i j)) = 8 ∧
    ∃ d', toyScan.downsample 2 = .ok d' := by
  have hm : ∀ i j, toyScan.meanAt i j = 2 := by
    intro i j
    simp [PDataset.meanAt, toyScan]
    norm_num
  have hb : ∀ i j, toyScan.backgroundAt i j = 0 := by
    intro i j
    rfl
  refine ⟨⟨?_, ?_, ?_, ?_⟩, ⟨?_, ?_⟩, rfl, ?_, ?_, ?_, ⟨_, rfl⟩⟩
  · intro p hp
    simp only [toyScan, List.mem_cons, List.not_mem_nil, or_false] at hp
    rcases hp with rfl | rfl <;> exact ⟨rfl, rfl⟩
  · intro p hp
    rw [← Option.some.inj hp]
    exact ⟨rfl, rfl⟩
  · intro q hq; cases hq
  · intro q hq; cases hq
  · intro p hp i j
    simp only [toyScan, List.mem_cons, List.not_mem_nil, or_false] at hp
    rcases hp with rfl | rfl <;> norm_num
  · intro q hq; cases hq
  · intro i j x hx
    rw [← Option.some.inj hx]
  · intro i j
    rw [hm, hb]
    norm_num
  · simp only [hm, hb]
    norm_num

/-- Non-vacuity: models of the toy scan exist, before and after downsampling by 2 and padding. -/
example (d' : PDataset ExperimentInfo) (_h : toyScan.downsample 2 = .ok d') :
    (∃ M, fancyFromDataset (toyScan.toFancy 2 2 2) {} 1 0 0 Fin.elim0 (fun _ _ => 0) = .ok M) ∧
    (haveI : NeZero (1 * 1 - 2 * 0) := ⟨by norm_num⟩
     ∃ M', fancyFromDataset (d'.toFancy 1 1 2) {} 1 0 0 Fin.elim0 (fun _ _ => 0) = .ok M') ∧
    (∃ M'', fancyFromDataset ((toyScan.pad (.one 1) 0 true).toFancy (2 + 1 + 1) (2 + 1 + 1) 2) {} 1 0 0 Fin.elim0 (fun _ _ => 0) = .ok M'') := by
  refine ⟨?_, ?_, ?_⟩ <;>
    simp [fancyFromDataset, FancyData.start, datasetNormal, initialWeights, fancyInit, List.ofFn_succ]

end Cdtools
