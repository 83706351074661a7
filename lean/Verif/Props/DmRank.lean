/-
C109, continued: the option `dm_rank`. A fresh model with weight matrices of rank `r` is the model without them in which only the
first `r` modes have light.
-/
import Verif.Props.FancyFromDataset
import Verif.Props.MultisliceFromDataset

set_option linter.unusedSectionVars false
set_option linter.unusedSimpArgs false

namespace Cdtools
open Finset ZMod

variable {n m a b N k : ℕ} [NeZero n] [NeZero m] [NeZero a] [NeZero b]

/-- The model with other probe modes and one number per exposure. -/
def Fancy.incoherent (M : Fancy n m a b N k) (P : Fin k → Wave n m) (w : Fin N → ℝ) : Fancy n m a b N k :=
  { M with probe := P, weights := .perShot w }

/-- The first `r` modes; the others are dark. -/
def firstModes (r : ℕ) (P : Fin k → Wave n m) : Fin k → Wave n m := fun j => if j.val < r then P j else 0

theorem firstModes_all (P : Fin k → Wave n m) : firstModes k P = P := by
  funext j
  exact if_pos j.2

/-- Weight matrices that are multiples of the (truncated) identity, behind linear optics. -/
theorem truncated_sum (L : Wave n m → Wave a b) (hl : IsLinearMap ℂ L) (r : ℕ) (hr : r ≤ k) (w : Fin N → ℝ) (B : Fin k → Wave n m)
    (idx : Fin N) (x : ZMod a) (y : ZMod b) :
    (∑ i : Fin r, ‖L (shotProbes (.matrices r fun s => Matrix.of fun i j => if i.val = j.val then (w s : ℂ) else 0) idx B i) x y‖ ^ 2) =
      ∑ j : Fin k, ‖L (shotProbes (.perShot w) idx (firstModes r B) j) x y‖ ^ 2 := by
  have key : ∀ j : Fin k, shotProbes (.perShot w) idx (firstModes r B) j = if j.val < r then (w idx : ℂ) • B j else 0 := by
    intro j
    funext x y
    have : shotProbes (.perShot w) idx (firstModes r B) j x y = (w idx : ℂ) * firstModes r B j x y := rfl
    rw [this]
    unfold firstModes
    split_ifs
    · rfl
    · exact mul_zero _
  have key2 : ∀ i : Fin r, shotProbes (.matrices r fun s => Matrix.of fun i j => if i.val = j.val then (w s : ℂ) else 0) idx B i =
      (w idx : ℂ) • B ⟨i.val, lt_of_lt_of_le i.2 hr⟩ := by
    intro i
    funext x y
    simp only [shotProbes, Matrix.of_apply, ite_mul, zero_mul]
    rw [Finset.sum_eq_single ⟨i.val, lt_of_lt_of_le i.2 hr⟩]
    · rw [if_pos rfl]; rfl
    · intro j _ hj
      rw [if_neg]
      intro he
      exact hj (Fin.ext he.symm)
    · intro h; exact absurd (mem_univ _) h
  have rhs : (∑ j : Fin k, ‖L (shotProbes (.perShot w) idx (firstModes r B) j) x y‖ ^ 2) =
      ∑ j : Fin k, if j.val < r then ‖L ((w idx : ℂ) • B j) x y‖ ^ 2 else 0 := by
    refine sum_congr rfl fun j _ => ?_
    have e : ∀ q : Wave n m, shotProbes (.perShot w) idx (firstModes r B) j = q →
        ‖L q x y‖ ^ 2 = (if j.val < r then ‖L ((w idx : ℂ) • B j) x y‖ ^ 2 else 0) := by
      intro q hq
      rw [← hq, key j]
      split_ifs
      · rfl
      · rw [hl.map_zero]
        simp
    exact e _ rfl
  rw [rhs, ← Finset.sum_filter]
  refine Finset.sum_bij (fun i _ => ⟨i.val, lt_of_lt_of_le i.2 hr⟩) ?_ ?_ ?_ ?_
  · intro i _
    simp
  · intro i _ j _ h
    exact Fin.ext (Fin.mk.inj h)
  · intro j hj
    have hj' := (mem_filter.1 hj).2
    exact ⟨⟨j.val, hj'⟩, mem_univ _, rfl⟩
  · intro i _
    rw [key2]

theorem forward_truncated_weights (M : Fancy n m a b N k) (r : ℕ) (hr : r ≤ k) (w : Fin N → ℝ)
    (hw : M.weights = .matrices r fun s => Matrix.of fun i j => if i.val = j.val then (w s : ℂ) else 0) (idx : Fin N) (t : Fin 3 → ℝ) :
    M.forward idx t = (M.incoherent (firstModes r M.probe) w).forward idx t := by
  set M' := M.incoherent (firstModes r M.probe) w with hM'
  have hb : M'.basisProbes = firstModes r M.basisProbes := by
    funext j
    unfold firstModes
    by_cases hj : j.val < r
    · rw [if_pos hj]
      have : M'.probe j = M.probe j := if_pos hj
      unfold Fancy.basisProbes
      simp only
      rw [this]
      rfl
    · rw [if_neg hj]
      have : M'.probe j = 0 := if_neg hj
      unfold Fancy.basisProbes
      simp only
      rw [this]
      have h0 : (fun (x : ZMod n) (y : ZMod m) => (0 : Wave n m) x y * (if M'.support x y then (1 : ℂ) else 0)) = 0 := by
        funext x y
        exact zero_mul _
      rw [h0]
      split_ifs
      · exact isLinear_inverseFarField.map_zero
      · rfl
  have e0 : M'.transmission = M.transmission := rfl
  have e1 : M'.pixTrans idx t = M.pixTrans idx t := rfl
  unfold Fancy.forward
  rw [e0, e1]
  refine if_congr Iff.rfl rfl ?_
  refine congrArg (fun f => Except.map f (objWindow a b M.transmission ⌊M.pixTrans idx t 0⌋ ⌊M.pixTrans idx t 1⌋)) ?_
  funext sel
  refine congrArg (measQuadratic { saturation := M.saturation, oversampling := M.oversampling } M.background M.qe) ?_
  unfold sumModes
  refine congrArg (Img.mk a b) (funext fun x => funext fun y => ?_)
  rw [List.map_ofFn, List.sum_ofFn, List.map_ofFn, List.sum_ofFn, hw, hb]
  exact truncated_sum (M.toDetector idx t sel) (M.isLinear_toDetector idx t sel) r hr w M.basisProbes idx x y

/-- The multislice model with other probe modes and one number per exposure. -/
def Multislice.incoherent (M : Multislice n m a b N k) (P : Fin k → Wave n m) (w : Fin N → ℝ) : Multislice n m a b N k :=
  { M with probe := P, weights := some (.perShot w) }

theorem multislice_truncated_weights (M : Multislice n m a b N k) (r : ℕ) (hr : r ≤ k) (w : Fin N → ℝ)
    (hw : M.effectiveWeights = .matrices r fun s => Matrix.of fun i j => if i.val = j.val then (w s : ℂ) else 0) (idx : Fin N)
    (t : Fin 3 → ℝ) : M.forward idx t = (M.incoherent (firstModes r M.probe) w).forward idx t := by
  set M' := M.incoherent (firstModes r M.probe) w with hM'
  have hb : (fun j => M'.realSpace (M'.probe j)) = firstModes r fun j => M.realSpace (M.probe j) := by
    funext j
    unfold firstModes
    by_cases hj : j.val < r
    · rw [if_pos hj]
      have : M'.probe j = M.probe j := if_pos hj
      rw [this]
      rfl
    · rw [if_neg hj]
      have : M'.probe j = 0 := if_neg hj
      rw [this]
      unfold Multislice.realSpace
      have h0 : (fun (x : ZMod n) (y : ZMod m) => (0 : Wave n m) x y * (if M'.support x y then (1 : ℂ) else 0)) = 0 := by
        funext x y
        exact zero_mul _
      simp only
      rw [h0]
      split_ifs
      · exact isLinear_inverseFarField.map_zero
      · rfl
  have hws : M'.effectiveWeights = .perShot w := rfl
  unfold Multislice.forward
  have e1 : M'.pixTrans idx t = M.pixTrans idx t := rfl
  have e2 : (fun o => objWindow a b (M'.transmission o) ⌊M'.pixTrans idx t 0⌋ ⌊M'.pixTrans idx t 1⌋) =
    fun o => objWindow a b (M.transmission o) ⌊M.pixTrans idx t 0⌋ ⌊M.pixTrans idx t 1⌋ := rfl
  simp only
  rw [e2, show M'.slices = M.slices from rfl, show M'.propagator = M.propagator from rfl]
  cases M.slices.mapM (fun o => objWindow a b (M.transmission o) ⌊M.pixTrans idx t 0⌋ ⌊M.pixTrans idx t 1⌋) with
  | error e => rfl
  | ok ws =>
    simp only
    refine if_congr Iff.rfl rfl ?_
    refine congrArg (fun I => Except.ok (measQuadratic { saturation := M.saturation, oversampling := M.oversampling } M.background none I)) ?_
    unfold sumModes
    refine congrArg (Img.mk a b) (funext fun x => funext fun y => ?_)
    rw [List.map_ofFn, List.sum_ofFn, List.map_ofFn, List.sum_ofFn, hw, hws, hb]
    have hlin := isLinear_comp isLinear_farField (isLinear_comp
      (isLinear_passSlices (M.pixTrans idx t 0, M.pixTrans idx t 1) M.prop ws)
      (isLinear_comp (isLinear_mulLeft (M.probeNorm : ℂ)) (isLinear_comp isLinear_padProbe (isLinear_mulRight (M.ramp t)))))
    exact truncated_sum (M.toDetector idx t ws) (show IsLinearMap ℂ (M.toDetector idx t ws) from hlin) r hr w (fun j => M.realSpace (M.probe j)) idx x y

theorem initialWeights_rank (N k : ℕ) (d : ℤ) (h0 : d ≠ 0) (W : Weights N k) (h4 : initialWeights N k (some d) = .ok W) :
    ∃ r : ℕ, (r : ℤ) = (if d = -1 then (k : ℤ) else d) ∧ (r ≤ k ∧ (0 < k → 1 ≤ r)) ∧
      W = .matrices r fun _ => Matrix.of fun i j => if i.val = j.val then 1 else 0 := by
  unfold initialWeights at h4
  simp only [if_pos h0] at h4
  by_cases q1 : d > (k : ℤ)
  · rw [if_pos q1] at h4; cases h4
  rw [if_neg q1] at h4
  by_cases q3 : (if d = -1 then (k : ℤ) else d) < 0
  · rw [if_pos q3] at h4; cases h4
  rw [if_neg q3] at h4
  obtain ⟨r, hrd⟩ : ∃ r : ℕ, r = (if d = -1 then (k : ℤ) else d).toNat := ⟨_, rfl⟩
  rw [← hrd] at h4
  have hrz : (r : ℤ) = (if d = -1 then (k : ℤ) else d) := by rw [hrd, Int.toNat_of_nonneg (not_lt.1 q3)]
  refine ⟨r, hrz, ?_, (Except.ok.inj h4).symm⟩
  split_ifs at hrz <;> omega

section fresh
variable (D : FancyData n m N) (O : FancyOpts) (os : ℕ) [NeZero os] [NeZero (os * n)] [NeZero (os * m)]
  (c : ℕ) [NeZero (os * n - 2 * c)] [NeZero (os * m - 2 * c)] (k : ℕ)

/-- **C109** (weight matrices): a model made by `from_dataset` with `dm_rank = d` different from zero simulates every exposure, at every translation,
exactly like the model made without the option in which only the first `r` modes have light, where `r` is the number of modes if `d = -1` and `d`
otherwise; with `d = -1` it is thus the same as without the option. For all datasets, options and random numbers. -/
theorem from_dataset_dm_rank (rp : Fin k → Wave (os * n - 2 * c) (os * m - 2 * c)) (ro : ℕ → ℕ → ℝ)
    (M : Fancy (os * n - 2 * c) (os * m - 2 * c) (os * n) (os * m) N (k + 1)) (h : fancyFromDataset D O os c k rp ro = .ok M)
    (d : ℤ) (hd : O.dmRank = some d) (h0 : d ≠ 0) :
    ∃ (r : ℕ) (M0 : Fancy (os * n - 2 * c) (os * m - 2 * c) (os * n) (os * m) N (k + 1)),
      (r : ℤ) = (if d = -1 then ((k + 1 : ℕ) : ℤ) else d) ∧ 1 ≤ r ∧ r ≤ k + 1 ∧
      fancyFromDataset D { O with dmRank := none } os c k rp ro = .ok M0 ∧
      (∀ idx t, M.forward idx t = (M0.incoherent (firstModes r M0.probe) (exposureWeight D)).forward idx t) ∧
      (r = k + 1 → ∀ idx t, M.forward idx t = M0.forward idx t) := by
  obtain ⟨t0, rest, S, normal, W, h1, h2, h3, h4, hM⟩ := fresh_fields D O os c k rp ro M h
  rw [hd] at h4
  obtain ⟨r, hrz, hr1, hW⟩ := initialWeights_rank N (k + 1) d h0 W h4
  have hscale : scaleWeights D.intensities W =
      .matrices r fun s => Matrix.of fun i j => if i.val = j.val then (exposureWeight D s : ℂ) else 0 := by
    rw [hW]
    unfold scaleWeights exposureWeight
    cases D.intensities with
    | none =>
      simp only [Complex.ofReal_one]
    | some I =>
      simp only
      congr 1
      funext s
      ext i j
      simp only [Matrix.of_apply]
      split_ifs <;> simp
  have hex : ∃ M0, fancyFromDataset D { O with dmRank := none } os c k rp ro = .ok M0 := by
    unfold fancyFromDataset at h ⊢
    have h2' : D.start { O with dmRank := none } os = .ok S := h2
    simp only [h1, h2', h3, initialWeights, fancyInit]
    cases O.allowFourierShifts <;> exact ⟨_, rfl⟩
  obtain ⟨M0, hM0⟩ := hex
  obtain ⟨t0', rest', S', normal', W', g1, g2, g3, g4, hM0'⟩ := fresh_fields D { O with dmRank := none } os c k rp ro M0 hM0
  obtain ⟨rfl, rfl⟩ : t0' = t0 ∧ rest' = rest := by
    rw [h1] at g1
    exact ⟨(List.cons.inj g1).1.symm, (List.cons.inj g1).2.symm⟩
  obtain rfl : S' = S := by
    have := h2.symm.trans g2
    exact (Except.ok.inj this).symm
  obtain rfl : normal' = normal := by
    have := h3.symm.trans g3
    exact (Except.ok.inj this).symm
  have hw0 : scaleWeights D.intensities W' = .perShot (exposureWeight D) := scaleWeights_perShot D W' g4
  have hall : ∀ idx t, M.forward idx t = (M0.incoherent (firstModes r M0.probe) (exposureWeight D)).forward idx t := by
    intro idx t
    have hMw : M.weights = .matrices r fun s => Matrix.of fun i j => if i.val = j.val then (exposureWeight D s : ℂ) else 0 := by
      rw [hM]; exact hscale
    rw [forward_truncated_weights M r hr1.1 _ hMw]
    congr 1
    rw [hM, hM0']
    rfl
  refine ⟨r, M0, ?_, hr1.2 (Nat.succ_pos k), hr1.1, hM0, hall, fun hrk idx t => ?_⟩
  · exact hrz
  · rw [hall, hrk, firstModes_all]
    congr 1
    have : M0.weights = .perShot (exposureWeight D) := by rw [hM0']; exact hw0
    unfold Fancy.incoherent
    rw [← this]

end fresh

/-- **C110** (weight matrices): the same for `MultislicePtycho.from_dataset`, for datasets without recorded intensities. -/
theorem multislice_from_dataset_dm_rank (D : FancyData n m N) (O : MultisliceOpts) (os : ℕ) [NeZero os] [NeZero (os * n)] [NeZero (os * m)]
    (c : ℕ) [NeZero (os * n - 2 * c)] [NeZero (os * m - 2 * c)] (k : ℕ)
    (rp : Fin k → Wave (os * n - 2 * c) (os * m - 2 * c)) (ro : ℕ → ℕ → ℕ → ℝ)
    (M : Multislice (os * n - 2 * c) (os * m - 2 * c) (os * n) (os * m) N (k + 1)) (h : multisliceFromDataset D O os c k rp ro = .ok M)
    (d : ℤ) (hd : O.dmRank = some d) (h0 : d ≠ 0) (hI : D.intensities = none) :
    ∃ (r : ℕ) (M0 : Multislice (os * n - 2 * c) (os * m - 2 * c) (os * n) (os * m) N (k + 1)),
      (r : ℤ) = (if d = -1 then ((k + 1 : ℕ) : ℤ) else d) ∧ 1 ≤ r ∧ r ≤ k + 1 ∧
      multisliceFromDataset D { O with dmRank := none } os c k rp ro = .ok M0 ∧
      (∀ idx t, M.forward idx t = (M0.incoherent (firstModes r M0.probe) fun _ => 1).forward idx t) ∧
      (r = k + 1 → ∀ idx t, M.forward idx t = M0.forward idx t) := by
  obtain ⟨hp, hnz, F, W, W', hF, h4, h5, hM⟩ := multislice_fresh D O os c k rp ro M h
  rw [hd] at h4
  obtain ⟨r, hrz, hr1, hW⟩ := initialWeights_rank N (k + 1) d h0 W h4
  have hW' : W' = W := by
    rw [hI] at h5
    exact (Except.ok.inj h5).symm
  have hex : ∃ M0, multisliceFromDataset D { O with dmRank := none } os c k rp ro = .ok M0 ∧
      M0 = { M with weights := some (.perShot fun _ => 1) } := by
    have hex0 : ∃ M0, multisliceFromDataset D { O with dmRank := none } os c k rp ro = .ok M0 := by
      unfold multisliceFromDataset at h ⊢
      split at h
      · rename_i t0 rest S normal W1 g1 g2 g3 g4
        have g2' : D.start ({ O with dmRank := none } : MultisliceOpts).shared os = .ok S := g2
        simp only [g1, g2', g3, initialWeights, hp, hnz, if_false, Bool.false_eq_true, multisliceWeights, hI]
        exact ⟨_, rfl⟩
      all_goals cases h
    obtain ⟨M0, hM0⟩ := hex0
    refine ⟨M0, hM0, ?_⟩
    obtain ⟨-, -, F0, W0, W0', hF0, g4, g5, hM0'⟩ := multislice_fresh D { O with dmRank := none } os c k rp ro M0 hM0
    have hF0' : F0 = { F with weights := F0.weights } := by
      obtain ⟨t0, rest, S, normal, W1, i1, i2, i3, i4, hFe⟩ := fresh_fields D O.shared os c k rp (ro 0) F hF
      obtain ⟨t0', rest', S', normal', W1', j1, j2, j3, j4, hFe'⟩ :=
        fresh_fields D ({ O with dmRank := none } : MultisliceOpts).shared os c k rp (ro 0) F0 hF0
      obtain ⟨rfl, rfl⟩ : t0' = t0 ∧ rest' = rest := by
        rw [i1] at j1
        exact ⟨(List.cons.inj j1).1.symm, (List.cons.inj j1).2.symm⟩
      obtain rfl : S' = S := (Except.ok.inj (i2.symm.trans j2)).symm
      obtain rfl : normal' = normal := (Except.ok.inj (i3.symm.trans j3)).symm
      rw [hFe, hFe']
      rfl
    have hw0 : W0' = .perShot fun _ => 1 := by
      have e1 : W0 = .perShot fun _ => 1 := (Except.ok.inj g4).symm
      rw [hI] at g5
      rw [← e1]
      exact (Except.ok.inj g5).symm
    rw [hM0', hM, hw0, hF0']
    rfl
  obtain ⟨M0, hM0, hM0e⟩ := hex
  have hall : ∀ idx t, M.forward idx t = (M0.incoherent (firstModes r M0.probe) fun _ => 1).forward idx t := by
    intro idx t
    have hMw : M.effectiveWeights = .matrices r fun s => Matrix.of fun i j => if i.val = j.val then (((fun _ => 1 : Fin N → ℝ) s : ℝ) : ℂ) else 0 := by
      rw [hM]
      show W' = _
      rw [hW', hW]
      simp only [Complex.ofReal_one]
    rw [multislice_truncated_weights M r hr1.1 _ hMw, hM0e]
    rfl
  refine ⟨r, M0, hrz, hr1.2 (Nat.succ_pos k), hr1.1, hM0, hall, fun hrk idx t => ?_⟩
  rw [hall, hrk, firstModes_all, hM0e]
  rfl

/-- Non-vacuity: the toy dataset with three modes and matrices of rank two. -/
example (rp : Fin 2 → Wave (1 * 4 - 2 * 1) (1 * 4 - 2 * 1)) (ro : ℕ → ℕ → ℝ) :
    ∃ M, fancyFromDataset toyFancyData { dmRank := some 2 } 1 1 2 rp ro = .ok M := by
  unfold fancyFromDataset
  simp [FancyData.start, datasetNormal, initialWeights, fancyInit, toyFancyData]

end Cdtools
