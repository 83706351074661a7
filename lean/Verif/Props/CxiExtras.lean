/-
Further facts about what is read from files: dark stacks (C17), surface normals (C19), and results dictionaries with
missing entries (C16). Added after wrong programs (N11, X12, X13, X21 in `seeded/LOG.jsonl`) went unnoticed.
-/
import Verif.Props.CxiMeta
import Verif.Props.Cxi
import Verif.Props.NestedDict

set_option linter.unusedSectionVars false

namespace Cdtools

/-! ### C17: dark images -/

theorem getD_flatten_uniform {n : ℕ} : ∀ (L : List (List ℝ)), (∀ l ∈ L, l.length = n) → ∀ (j i : ℕ), i < n →
    L.flatten.getD (j * n + i) 0 = (L.getD j []).getD i 0
  | [], _, j, i, _ => by simp
  | l :: L, h, 0, i, hi => by
      have hl : i < l.length := by rw [h l (by simp)]; exact hi
      simp [List.getElem?_append_left hl]
  | l :: L, h, j + 1, i, hi => by
      have hl : l.length = n := h l (by simp)
      have hle : l.length ≤ (j + 1) * n + i := by rw [hl, Nat.add_mul, Nat.one_mul]; omega
      have := getD_flatten_uniform L (fun l' h' => h l' (by simp [h'])) j i hi
      rw [List.getD_eq_getElem?_getD] at this
      rw [List.flatten_cons, List.getD_eq_getElem?_getD, List.getElem?_append_right hle, hl,
        show (j + 1) * n + i - n = j * n + i by rw [Nat.add_mul, Nat.one_mul]; omega, this]
      rfl

theorem map_range_getD (L : List (List ℝ)) (i : ℕ) :
    ((List.range L.length).map fun j => (L.getD j []).getD i 0) = L.map fun l => l.getD i 0 := by
  apply List.ext_getElem
  · simp
  · intro k h1 h2
    simp at h1
    simp [h1]

/-- **C17** (dark stacks): a file with a stack of dark images, stored in row-major order, reads as the pixel-wise mean
of the images; -/
theorem dark_stack_mean (g : H5File) (h w : ℕ) (images : List (List ℝ)) (hl : ∀ l ∈ images, l.length = h * w)
    (hi : g.has pInstr = true)
    (hg : g (pDet ++ ["data_dark"]) = some (.dataset (.arr ⟨[images.length, h, w], images.flatten⟩) none)) :
    ∃ d, getDark g = .ok (some ⟨[h, w], d⟩) ∧ d.length = h * w ∧
      ∀ i < h * w, d.getD i 0 = (images.map fun l => l.getD i 0).sum / images.length := by
  refine ⟨_, by simp [getDark, getDetArr, hi, has_of_dataset hg, read_of_dataset hg, bind, Except.bind, stackMean];
                rfl, by simp, fun i hi' => ?_⟩
  rw [List.getD_eq_getElem?_getD, List.getElem?_map, List.getElem?_range hi', Option.map_some, Option.getD_some]
  have : ∀ j : ℕ, images.flatten[j * (h * w) + i]?.getD 0 = (images.getD j []).getD i 0 := by
    intro j
    rw [← List.getD_eq_getElem?_getD]
    exact getD_flatten_uniform images hl j i hi'
  simp only [this]
  rw [map_range_getD]

/-- … a single image reads as itself, and no image as None. -/
theorem dark_single (g : H5File) (hi : g.has pInstr = true) :
    (∀ a : Arr ℝ, a.shape.length = 2 → g (pDet ++ ["data_dark"]) = some (.dataset (.arr a) none) →
      getDark g = .ok (some a)) ∧
    (g (pDet ++ ["data_dark"]) = none → getDark g = .ok none) := by
  refine ⟨fun a ha hg => ?_, fun hg => ?_⟩
  · simp [getDark, getDetArr, hi, has_of_dataset hg, read_of_dataset hg, bind, Except.bind, stackMean, ha]
  · simp [getDark, getDetArr, hi, has_of_none hg, bind, Except.bind]

/-! ### C19: surface normals -/

/-- Scalar product of triples. -/
def dot3 (a b : ℝ × ℝ × ℝ) : ℝ := a.1 * b.1 + a.2.1 * b.2.1 + a.2.2 * b.2.2

theorem unit3_eq (a : ℝ × ℝ × ℝ) (h : dot3 a a ≠ 0) : ∃ c : ℝ, c ≠ 0 ∧ c ^ 2 * dot3 a a = 1 ∧ 0 < c ∧
    unit3 a = (c * a.1, c * a.2.1, c * a.2.2) := by
  have hp : 0 < dot3 a a := lt_of_le_of_ne (by unfold dot3; nlinarith [sq_nonneg a.1, sq_nonneg a.2.1, sq_nonneg a.2.2]) h.symm
  have e : a.1 ^ 2 + a.2.1 ^ 2 + a.2.2 ^ 2 = dot3 a a := by unfold dot3; ring
  refine ⟨(Real.sqrt (dot3 a a))⁻¹, by positivity, ?_, by positivity, ?_⟩
  · rw [inv_pow, Real.sq_sqrt hp.le, inv_mul_cancel₀ h]
  · unfold unit3
    simp only [e, div_eq_inv_mul]

/-- **C19** (surface normals): a file with a surface normal `z` (in single precision) that is not along the y axis reads
as an orientation whose third row is `z` and whose first two rows are orthonormal and perpendicular to it, the first
one horizontal, and right-handed. A surface normal takes precedence over an orientation. -/
theorem surface_normal_frame {D : Type} (f32 : ℝ → ℝ) (g : H5File) (z0 z1 z2 : ℝ)
    (h0 : f32 z0 = z0) (h1 : f32 z1 = z1) (h2 : f32 z2 = z2) (hz : z0 ≠ 0 ∨ z2 ≠ 0)
    (hg : g (pGeom ++ ["surface_normal"]) = some (.dataset (.arr ⟨[3], [z0, z1, z2]⟩) none))
    (r : Option (SampleInfo D)) (hp : g.has pSample = true) (hr : getSampleInfo f32 g = .ok r) :
    ∃ x y s, r = some s ∧ s.orientation = some (x, y, (z0, z1, z2)) ∧
      dot3 x x = 1 ∧ dot3 y y = 1 ∧ dot3 x y = 0 ∧ dot3 x (z0, z1, z2) = 0 ∧ dot3 y (z0, z1, z2) = 0 ∧
      x.2.1 = 0 ∧ 0 < dot3 (cross3 x y) (z0, z1, z2) ∧
      (dot3 (z0, z1, z2) (z0, z1, z2) = 1 → cross3 x y = (z0, z1, z2)) := by
  have ht : triple f32 ⟨[3], [z0, z1, z2]⟩ 0 = (z0, z1, z2) := by simp [triple, h0, h1, h2]
  have hsn : readSurfaceNormal f32 g = some (unit3 (cross3 (0, 1, 0) (z0, z1, z2)),
      unit3 (cross3 (z0, z1, z2) (unit3 (cross3 (0, 1, 0) (z0, z1, z2)))), (z0, z1, z2)) := by
    simp only [readSurfaceNormal, tryArr, read_of_dataset hg, ht]
  have hs : 0 < z2 ^ 2 + z0 ^ 2 := by
    rcases hz with h | h
    · have := sq_pos_of_ne_zero h; positivity
    · have := sq_pos_of_ne_zero h; positivity
  have hc : cross3 (0, 1, 0) (z0, z1, z2) = (z2, 0, -z0) := by simp [cross3]
  obtain ⟨c, -, hc2, hcp, hx⟩ := unit3_eq (z2, 0, -z0) (by unfold dot3; simp only; nlinarith)
  simp only [dot3] at hc2
  have hcr : cross3 (z0, z1, z2) (c * z2, c * 0, c * -z0) = (-c * z0 * z1, c * (z2 ^ 2 + z0 ^ 2), -c * z1 * z2) := by
    simp only [cross3, Prod.mk.injEq]; refine ⟨?_, ?_, ?_⟩ <;> ring
  obtain ⟨e, -, he2, hep, hy⟩ := unit3_eq (-c * z0 * z1, c * (z2 ^ 2 + z0 ^ 2), -c * z1 * z2) (by
    unfold dot3; simp only
    have : 0 < (c * (z2 ^ 2 + z0 ^ 2)) * (c * (z2 ^ 2 + z0 ^ 2)) := by positivity
    nlinarith [sq_nonneg (c * z0 * z1), sq_nonneg (c * z1 * z2)])
  simp only [dot3] at he2
  rw [hc, hx, hcr, hy] at hsn
  have hfin : ∃ s : SampleInfo D, r = some s ∧ s.orientation = readSurfaceNormal f32 g := by
    unfold getSampleInfo at hr
    rw [hp] at hr
    simp only [Bool.not_true, Bool.false_eq_true, if_false, bind, Except.bind] at hr
    split at hr
    · exact absurd hr (by simp)
    split at hr
    · exact absurd hr (by simp)
    split at hr
    · exact absurd hr (by simp)
    rw [hsn] at hr ⊢
    simp only [Option.some_or, Option.isNone_some, Bool.and_false, Bool.false_eq_true, if_false] at hr
    injection hr with hr
    exact ⟨_, hr.symm, rfl⟩
  obtain ⟨s, rfl, ho⟩ := hfin
  refine ⟨_, _, s, rfl, ho.trans hsn, ?_, ?_, ?_, ?_, ?_, by simp, ?_, ?_⟩
  · simp only [dot3]; linear_combination hc2
  · simp only [dot3]; linear_combination he2
  · simp only [dot3]; ring
  · simp only [dot3]; ring
  · simp only [dot3]; ring
  · have hq : c ^ 2 * (z2 ^ 2 + z0 ^ 2) = 1 := by linear_combination hc2
    have : dot3 (cross3 (c * z2, c * 0, c * -z0) (e * (-c * z0 * z1), e * (c * (z2 ^ 2 + z0 ^ 2)), e * (-c * z1 * z2)))
        (z0, z1, z2) = e * (c ^ 2 * (z2 ^ 2 + z0 ^ 2)) * (z0 ^ 2 + z1 ^ 2 + z2 ^ 2) := by
      simp only [dot3, cross3]; ring
    rw [this, hq]
    have : 0 < z0 ^ 2 + z1 ^ 2 + z2 ^ 2 := by nlinarith [sq_nonneg z1]
    positivity
  · intro hu
    simp only [dot3] at hu
    have hq : c ^ 2 * (z2 ^ 2 + z0 ^ 2) = 1 := by linear_combination hc2
    have he1 : e = 1 := by
      have h3 : e ^ 2 = 1 := by
        have : (-c * z0 * z1) * (-c * z0 * z1) + (c * (z2 ^ 2 + z0 ^ 2)) * (c * (z2 ^ 2 + z0 ^ 2)) +
            (-c * z1 * z2) * (-c * z1 * z2) = 1 := by
          have : (-c * z0 * z1) * (-c * z0 * z1) + (c * (z2 ^ 2 + z0 ^ 2)) * (c * (z2 ^ 2 + z0 ^ 2)) +
            (-c * z1 * z2) * (-c * z1 * z2) = (c ^ 2 * (z2 ^ 2 + z0 ^ 2)) * (z0 * z0 + z1 * z1 + z2 * z2) := by ring
          rw [this, hq, hu, one_mul]
        rw [this, mul_one] at he2
        exact he2
      nlinarith
    subst he1
    simp only [cross3, Prod.mk.injEq]
    refine ⟨?_, ?_, ?_⟩
    · linear_combination z0 * hq
    · linear_combination z1 * hq
    · linear_combination z2 * hq

/-! ### C16: results dictionaries with missing entries -/

variable {S : Type}

/-- **C13** (missing entries): loading a results dictionary replaces the loss history, the epoch and the training
history of the model even if the dictionary lacks them (by nothing, 0 and the empty text): nothing of the run history
the model had before survives. Without a state dictionary nothing is loaded and KeyError is raised. -/
theorem load_results_missing (toNat : S → ℕ) (pyStr : Tree (PyLeaf S) → Name) (m : ResultsModel S)
    (d : Forest (PyLeaf S)) :
    (d.find kStateDict = none → loadResults toNat pyStr m d = .error .keyError) ∧
    ∀ m', loadResults toNat pyStr m d = .ok m' →
      (d.find kLossHistory = none → m'.lossHistory = []) ∧ (d.find kEpoch = none → m'.epoch = 0) ∧
      (d.find kTrainingHistory = none → m'.trainingHistory = []) := by
  refine ⟨fun h => by simp [loadResults, h, bind, Except.bind], fun m' h => ?_⟩
  unfold loadResults at h
  rcases h1 : d.find kStateDict with _ | (l | sd)
  · simp [h1, bind, Except.bind] at h
  · simp [h1, bind, Except.bind] at h
  rcases hs : nestedDictToTorch sd with e | sd'
  · simp [h1, hs, bind, Except.bind] at h
  rcases ht : loadStateDict sd' m.state with e | st
  · simp [h1, hs, ht, bind, Except.bind] at h
  simp only [h1, hs, ht, bind, Except.bind] at h
  refine ⟨fun h2 => ?_, fun h3 => ?_, fun h4 => ?_⟩
  · simp only [h2] at h
    rcases h3 : d.find kEpoch with _ | v
    · simp only [h3, Except.ok.injEq] at h; rw [← h]
    · rcases h3' : pyIntOf toNat v with e | ep
      · simp [h3, h3'] at h
      · simp only [h3, h3', Except.ok.injEq] at h; rw [← h]
  · simp only [h3] at h
    rcases h2 : d.find kLossHistory with _ | v
    · simp only [h2, Except.ok.injEq] at h; rw [← h]
    · rcases h2' : pyListOf v with e | ls
      · simp [h2, h2'] at h
      · simp only [h2, h2', Except.ok.injEq] at h; rw [← h]
  · simp only [h4] at h
    rcases h2 : d.find kLossHistory with _ | v
    · rcases h3 : d.find kEpoch with _ | v
      · simp only [h2, h3, Except.ok.injEq] at h; rw [← h]
      · rcases h3' : pyIntOf toNat v with e | ep
        · simp [h2, h3, h3'] at h
        · simp only [h2, h3, h3', Except.ok.injEq] at h; rw [← h]
    · rcases h2' : pyListOf v with e | ls
      · simp [h2, h2'] at h
      · rcases h3 : d.find kEpoch with _ | v
        · simp only [h2, h2', h3, Except.ok.injEq] at h; rw [← h]
        · rcases h3' : pyIntOf toNat v with e | ep
          · simp [h2, h2', h3, h3'] at h
          · simp only [h2, h2', h3, h3', Except.ok.injEq] at h; rw [← h]

/-- Non-vacuity of `load_results_missing`: a bare state dictionary, loaded into a model with a history. -/
example : loadResults id (fun _ => []) (⟨[], [1, 2], 2, ['x']⟩ : ResultsModel ℕ) (.cons kStateDict (.map .nil) .nil) =
    .ok ⟨[], [], 0, []⟩ := by
  rfl

end Cdtools
