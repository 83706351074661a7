/-
C67: `make_illumination_map`.
-/
import Verif.Model.ReconSets
import Verif.Props.NestedDict
import Verif.Props.Interactions

set_option linter.unusedSectionVars false

namespace Cdtools
open Finset ZMod

variable {n m k : ℕ} [NeZero n] [NeZero m]

/-! ### Specification -/

/-- A rounded position relative to the model's minimum. -/
noncomputable def roundedPosition (minT : ℝ × ℝ) (t : ℝ × ℝ) : ℤ × ℤ :=
  (roundHalfEven (t.1 - minT.1), roundHalfEven (t.2 - minT.2))

/-- What one exposure deposits at pixel `(i, j)` of the object: the intensity of the probe there. -/
def deposit (I : ZMod n → ZMod m → ℝ) (p : ℤ × ℤ) (i j : ℕ) : ℝ :=
  if p.1 ≤ i ∧ (i : ℤ) < p.1 + n ∧ p.2 ≤ j ∧ (j : ℤ) < p.2 + m then
    I (((i : ℤ) - p.1 : ℤ) : ZMod n) (((j : ℤ) - p.2 : ℤ) : ZMod m) else 0

/-- The window of an exposure lies inside the object. -/
def WindowInside (n m h w : ℕ) (p : ℤ × ℤ) : Prop := 0 ≤ p.1 ∧ p.1 + n ≤ h ∧ 0 ≤ p.2 ∧ p.2 + m ≤ w

/-! ### Lemmas -/

theorem addWindow_inside (I : ZMod n → ZMod m → ℝ) (map : Img ℝ) (p : ℤ × ℤ) (h : WindowInside n m map.h map.w p) :
    addWindow I map p = .ok ⟨map.h, map.w, fun i j => map.px i j + deposit I p i j⟩ := by
  obtain ⟨h0, h1, h2, h3⟩ := h
  unfold addWindow
  simp only [sliceExtent_inside h0 h1, sliceExtent_inside h2 h3]
  rw [if_pos ⟨trivial, trivial⟩]
  congr 2
  funext i j
  unfold deposit
  by_cases hin : p.1 ≤ i ∧ (i : ℤ) < p.1 + n ∧ p.2 ≤ j ∧ (j : ℤ) < p.2 + m
  · rw [if_pos hin, if_pos (by omega)]
    congr 2
    · rw [show ((i : ℤ) - p.1) = ((i - p.1.toNat : ℕ) : ℤ) by omega, Int.cast_natCast]
    · rw [show ((j : ℤ) - p.2) = ((j - p.2.toNat : ℕ) : ℤ) by omega, Int.cast_natCast]
  · rw [if_neg hin, if_neg (by omega), add_zero]

theorem foldlM_addWindow (I : ZMod n → ZMod m → ℝ) (ps : List (ℤ × ℤ)) :
    ∀ map : Img ℝ, (∀ p ∈ ps, WindowInside n m map.h map.w p) →
      ps.foldlM (addWindow I) map = .ok ⟨map.h, map.w, fun i j => map.px i j + (ps.map fun p => deposit I p i j).sum⟩ := by
  induction ps with
  | nil => intro map _; simp; rfl
  | cons p ps ih =>
    intro map h
    rw [List.foldlM_cons, addWindow_inside I map p (h p (by simp))]
    change ps.foldlM (addWindow I) _ = _
    rw [ih ⟨map.h, map.w, fun i j => map.px i j + deposit I p i j⟩ fun q hq => h q (by simp [hq])]
    congr 2
    funext i j
    simp only [List.map_cons, List.sum_cons]
    ring

theorem sum_window {N L : ℕ} [NeZero L] {s : ℕ} (hs : s + L ≤ N) (f : ZMod L → ℝ) :
    ∑ i ∈ range N, (if s ≤ i ∧ i < s + L then f ((i - s : ℕ) : ZMod L) else 0) = ∑ x, f x := by
  rw [← sum_filter]
  refine sum_bij' (fun i _ => ((i - s : ℕ) : ZMod L)) (fun x _ => s + x.val) ?_ ?_ ?_ ?_ ?_
  · intro i _; exact mem_univ _
  · intro x _
    have := ZMod.val_lt x
    simp only [mem_filter, mem_range]; omega
  · intro i hi
    simp only [mem_filter, mem_range] at hi
    rw [ZMod.val_natCast_of_lt (by omega)]; omega
  · intro x _; simp
  · intro i _; rfl

theorem deposit_total (I : ZMod n → ZMod m → ℝ) (h w : ℕ) (p : ℤ × ℤ) (hp : WindowInside n m h w p) :
    ∑ i ∈ range h, ∑ j ∈ range w, deposit I p i j = ∑ x, ∑ y, I x y := by
  obtain ⟨h0, h1, h2, h3⟩ := hp
  have e : ∀ i j : ℕ, deposit I p i j = if p.1.toNat ≤ i ∧ i < p.1.toNat + n then
      (fun x : ZMod n => if p.2.toNat ≤ j ∧ j < p.2.toNat + m then I x ((j - p.2.toNat : ℕ) : ZMod m) else 0)
        ((i - p.1.toNat : ℕ) : ZMod n) else 0 := by
    intro i j
    unfold deposit
    by_cases a : p.1.toNat ≤ i ∧ i < p.1.toNat + n
    · by_cases b : p.2.toNat ≤ j ∧ j < p.2.toNat + m
      · rw [if_pos (by omega), if_pos a]
        simp only
        rw [if_pos b, show ((i : ℤ) - p.1) = ((i - p.1.toNat : ℕ) : ℤ) by omega, Int.cast_natCast,
          show ((j : ℤ) - p.2) = ((j - p.2.toNat : ℕ) : ℤ) by omega, Int.cast_natCast]
      · rw [if_neg (by omega), if_pos a]
        simp only
        rw [if_neg b]
    · rw [if_neg (by omega), if_neg a]
  simp only [e]
  rw [sum_comm]
  have : ∀ j ∈ range w, (∑ i ∈ range h, if p.1.toNat ≤ i ∧ i < p.1.toNat + n then
      (fun x : ZMod n => if p.2.toNat ≤ j ∧ j < p.2.toNat + m then I x ((j - p.2.toNat : ℕ) : ZMod m) else 0)
        ((i - p.1.toNat : ℕ) : ZMod n) else 0) =
      ∑ x, if p.2.toNat ≤ j ∧ j < p.2.toNat + m then I x ((j - p.2.toNat : ℕ) : ZMod m) else 0 := by
    intro j _
    exact sum_window (by omega) fun x : ZMod n =>
      if p.2.toNat ≤ j ∧ j < p.2.toNat + m then I x ((j - p.2.toNat : ℕ) : ZMod m) else 0
  rw [sum_congr rfl this, sum_comm]
  refine sum_congr rfl fun x _ => ?_
  exact sum_window (by omega) fun y : ZMod m => I x y

/-! ### C67 -/

/-- The intensity of the probe, and its rescaling to a given total. -/
theorem probe_intensity_map (probe : Fin k → Wave n m) :
    probeIntensityMap probe none = some (fun i j => ∑ a, ‖probe a i j‖ ^ 2) ∧
    ∀ s : ℝ, (∃ a i j, probe a i j ≠ 0) → ∃ I, probeIntensityMap probe (some s) = some I ∧
      ∑ i, ∑ j, I i j = s ∧ ∃ c : ℝ, ∀ i j, I i j = c * ∑ a, ‖probe a i j‖ ^ 2 := by
  refine ⟨rfl, fun s ⟨a, x, y, hne⟩ => ?_⟩
  have hpos : 0 < ∑ i, ∑ j, ∑ a, ‖probe a i j‖ ^ 2 := by
    have h3 : 0 < ‖probe a x y‖ ^ 2 := by
      have := norm_pos_iff.2 hne; positivity
    refine lt_of_lt_of_le h3 ?_
    refine le_trans (single_le_sum (f := fun a => ‖probe a x y‖ ^ 2) (fun _ _ => by positivity) (mem_univ a)) ?_
    refine le_trans (single_le_sum (f := fun y => ∑ a, ‖probe a x y‖ ^ 2)
      (fun _ _ => sum_nonneg fun _ _ => by positivity) (mem_univ y)) ?_
    exact single_le_sum (f := fun x => ∑ y, ∑ a, ‖probe a x y‖ ^ 2)
      (fun _ _ => sum_nonneg fun _ _ => sum_nonneg fun _ _ => by positivity) (mem_univ x)
  refine ⟨fun i j => (∑ a, ‖probe a i j‖ ^ 2) / (∑ i, ∑ j, ∑ a, ‖probe a i j‖ ^ 2) * s, ?_, ?_,
    s / (∑ i, ∑ j, ∑ a, ‖probe a i j‖ ^ 2), ?_⟩
  · unfold probeIntensityMap
    simp only [if_neg hpos.ne']
  · simp only [← sum_mul, ← sum_div]
    rw [div_self hpos.ne', one_mul]
  · intro i j; ring

/-- **C67** (what holds): given a dictionary with the keys it reads, the illumination map is, at every pixel of the
object, the sum over the exposures of the probe intensity at the rounded positions; it is not defined only for a
vanishing probe; and its total is the number of exposures times the total intensity of the probe (which is
`total_probe_intensity` when given). This for every scan whose windows lie inside the object. Missing: the
dictionaries that `FancyPtycho.save_results` writes do not have these keys (`illumination_map_violated`). -/
theorem illumination_map_partial (keys : List String)
    (hk : ∀ key ∈ ["probe", "obj", "translations", "basis", "state_dict"], key ∈ keys)
    (probe : Fin k → Wave n m) (h w : ℕ) (T : List (ℝ × ℝ)) (minT : ℝ × ℝ) (total : Option ℝ)
    (hT : ∀ t ∈ T, WindowInside n m h w (roundedPosition minT t)) (I : ZMod n → ZMod m → ℝ)
    (hI : probeIntensityMap probe total = some I) :
    ∃ map, makeIlluminationMap keys probe h w T minT total = .ok (some map) ∧ map.h = h ∧ map.w = w ∧
      (∀ i j, map.px i j = (T.map fun t => deposit I (roundedPosition minT t) i j).sum) ∧
      map.total = T.length * ∑ x, ∑ y, I x y := by
  have hreq : ∀ l : List String, (∀ key ∈ l, key ∈ keys) → requireKeys keys l = .ok () := by
    intro l
    induction l with
    | nil => intro _; rfl
    | cons a l ih =>
      intro hl
      simp only [requireKeys, if_pos (hl a (by simp))]
      exact ih fun key hkey => hl key (by simp [hkey])
  have hfold := foldlM_addWindow I (T.map (roundedPosition minT)) ⟨h, w, fun _ _ => 0⟩ (by
    intro p hp
    obtain ⟨t, ht, rfl⟩ := List.mem_map.1 hp
    exact hT t ht)
  refine ⟨⟨h, w, fun i j => 0 + ((T.map (roundedPosition minT)).map fun p => deposit I p i j).sum⟩, ?_, rfl, rfl, ?_, ?_⟩
  · unfold makeIlluminationMap
    rw [hreq _ hk, hI]
    simp only
    rw [show (T.map fun t => (roundHalfEven (t.1 - minT.1), roundHalfEven (t.2 - minT.2))) =
      T.map (roundedPosition minT) from rfl, hfold]
    rfl
  · intro i j
    simp only [zero_add, List.map_map]
    rfl
  · simp only [Img.total, zero_add, List.map_map]
    clear hfold hI
    induction T with
    | nil => simp
    | cons t T ih =>
      simp only [List.map_cons, List.sum_cons, sum_add_distrib, Function.comp_apply, List.length_cons]
      rw [deposit_total I h w _ (hT t (by simp))]
      simp only [Function.comp_def] at ih ⊢
      rw [ih fun s hs => hT s (by simp [hs])]
      push_cast; ring

/-- The dictionary of a `FancyPtycho` model has everything that the base model saves. -/
theorem fancy_save_keys_base {S : Type} (ofNat : ℕ → S) (ln cls ver : Name) (M : ResultsModel S) :
    ∃ d, saveResults ofNat ln cls ver M = .ok d ∧ ∀ k ∈ d.keys, k ∈ fancySaveKeys.map String.toList := by
  obtain ⟨d, hd, hk⟩ := save_results_names ofNat ln cls ver M
  refine ⟨d, hd, ?_⟩
  rw [hk]
  decide

/-- **C67 is violated** for the results of `FancyPtycho.save_results`: they have no entry `basis`, so the function
always raises KeyError on them. -/
theorem illumination_map_violated (probe : Fin k → Wave n m) (h w : ℕ) (T : List (ℝ × ℝ)) (minT : ℝ × ℝ)
    (total : Option ℝ) : makeIlluminationMap fancySaveKeys probe h w T minT total = .error "KeyError basis" := by
  have hk : requireKeys fancySaveKeys ["probe", "obj", "translations", "basis", "state_dict"] = .error "basis" := by
    decide
  unfold makeIlluminationMap
  rw [hk]
  rfl

/-- Non-vacuity: a 2 × 2 probe at `(0, 0)` and `(1.4, 2)` on a 4 × 5 object. -/
example : ∀ t ∈ [((0 : ℝ), (0 : ℝ)), (1, 2)], WindowInside 2 2 4 5 (roundedPosition (0, 0) t) := by
  have h0 : roundHalfEven 0 = 0 := by simpa using roundHalfEven_int 0
  have h1 : roundHalfEven 1 = 1 := by simpa using roundHalfEven_int 1
  have h2 : roundHalfEven 2 = 2 := by simpa using roundHalfEven_int 2
  intro t ht
  simp only [List.mem_cons, List.not_mem_nil, or_false] at ht
  rcases ht with rfl | rfl <;> simp [WindowInside, roundedPosition, h0, h1, h2]

end Cdtools
