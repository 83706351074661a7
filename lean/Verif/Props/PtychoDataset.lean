/- Property theorems C21, C22, C25, C26: NaN masking, split, filters, indexing. -/
import Verif.Spec.PtychoDataset
import Mathlib.Data.List.Sort
import Mathlib.Data.List.Perm.Basic
import Mathlib.Data.List.Basic

namespace Cdtools
set_option linter.unusedSectionVars false
variable {M : Type}

/-! ### C21: NaNs -/

theorem Fl.foldl_add_isNan (l : List Fl) : ∀ acc : Fl, (l.foldl Fl.add acc).isNan = true ↔
    Fl.nan ∈ acc :: l ∨ (Fl.inf true ∈ acc :: l ∧ Fl.inf false ∈ acc :: l) := by
  induction l with
  | nil => intro acc; cases acc <;> simp [Fl.isNan]
  | cons a l ih =>
    intro acc
    rw [List.foldl_cons, ih]
    cases acc with
    | nan => cases a <;> simp [Fl.add]
    | fin x => cases a <;> simp [Fl.add]
    | inf s =>
      cases a with
      | nan => simp [Fl.add]
      | fin y => simp [Fl.add]
      | inf s' => cases s <;> cases s' <;> simp [Fl.add] <;> tauto

/-- **C21** (constructor): for every stack of patterns and every given (or default) mask, after
construction (1) no pattern holds a NaN, (2) pixels that were not NaN keep their value and NaN
pixels become 0, (3) a detector pixel is masked off afterwards iff it was masked off before, or is
NaN in some exposure, or is +inf in one exposure and −inf in another (whose sum is NaN). -/
theorem nan_pixels_masked (mask : Option (ℕ → ℕ → Bool)) (p : Stack Fl) :
    (∀ q ∈ (maskNans mask p).2.frames, ∀ i j, q i j ≠ .nan) ∧
    (maskNans mask p).2.frames.length = p.frames.length ∧
    (∀ (k : ℕ) (q : ℕ → ℕ → Fl), p.frames[k]? = some q → ∃ q' : ℕ → ℕ → Fl, (maskNans mask p).2.frames[k]? = some q' ∧
      ∀ i j, (q i j ≠ .nan → q' i j = q i j) ∧ (q i j = .nan → q' i j = .fin 0)) ∧
    (∀ i j, (maskNans mask p).1 i j = false ↔
      (∃ m, mask = some m ∧ m i j = false) ∨ (∃ q ∈ p.frames, q i j = .nan) ∨
      ((∃ q ∈ p.frames, q i j = .inf true) ∧ ∃ q ∈ p.frames, q i j = .inf false)) := by
  refine ⟨?_, by simp [maskNans], ?_, ?_⟩
  · intro q hq i j
    simp only [maskNans, List.mem_map] at hq
    obtain ⟨q0, _, rfl⟩ := hq
    cases h : q0 i j <;> simp [Fl.isNan, h]
  · intro k q hq
    refine ⟨fun i j => if (q i j).isNan then .fin 0 else q i j, by simp [maskNans, hq],
      fun i j => ?_⟩
    cases h : q i j <;> simp [Fl.isNan, h]
  · intro i j
    have key : (Fl.sum (p.frames.map fun q => q i j)).isNan = true ↔
        (∃ q ∈ p.frames, q i j = .nan) ∨
        ((∃ q ∈ p.frames, q i j = .inf true) ∧ ∃ q ∈ p.frames, q i j = .inf false) := by
      rw [Fl.sum, Fl.foldl_add_isNan]
      simp
    simp only [maskNans]
    by_cases h : (Fl.sum (p.frames.map fun q => q i j)).isNan = true
    · simp only [h, if_true]
      simp only [true_iff]
      exact Or.inr (key.1 h)
    · rw [if_neg h]
      rw [key] at h
      cases mask with
      | none => simp only [h, or_false]; simp
      | some m => simp only [h, or_false]; simp

/-- Non-vacuity: a pixel that is NaN in the second of two exposures. -/
example : (maskNans none ⟨1, 1, [fun _ _ => .fin 1, fun _ _ => .nan]⟩).1 0 0 = false := by
  rw [(nan_pixels_masked _ _).2.2.2]
  exact Or.inr (Or.inl ⟨_, by simp; exact Or.inr rfl, rfl⟩)

/-- **C21**, loading from a file: `cut_zeros` sets exactly the negative values (including minus infinity) to zero; nothing else in the
patterns changes, without it nothing at all; the mask is that of the file, or true everywhere. -/
theorem from_cxi_cut_zeros (cut : Bool) (mask : Option (ℕ → ℕ → Bool)) (p : Stack Fl) :
    let r := loadMaskPatterns cut mask p
    (r.2.h, r.2.w) = (p.h, p.w) ∧ r.2.frames.length = p.frames.length ∧
    (∀ m, mask = some m → r.1 = m) ∧ (mask = none → ∀ i j, r.1 i j = true) ∧
    ∀ e (he : e < p.frames.length) (he' : e < r.2.frames.length) i j,
      (cut = false → r.2.frames[e] i j = p.frames[e] i j) ∧
      (cut = true → (p.frames[e] i j = .inf true ∨ (∃ x, x < 0 ∧ p.frames[e] i j = .fin x) → r.2.frames[e] i j = .fin 0) ∧
        (p.frames[e] i j = .nan ∨ p.frames[e] i j = .inf false ∨ (∃ x, 0 ≤ x ∧ p.frames[e] i j = .fin x) →
          r.2.frames[e] i j = p.frames[e] i j)) := by
  refine ⟨rfl, by simp [loadMaskPatterns], ?_, ?_, ?_⟩
  · rintro m rfl; rfl
  · rintro rfl i j; rfl
  · intro e he he' i j
    have e0 : (loadMaskPatterns cut mask p).2.frames[e] i j =
        if cut then (p.frames[e] i j).max0 else p.frames[e] i j := by
      have := List.getElem_map (fun (q : ℕ → ℕ → Fl) i j => if cut then (q i j).max0 else q i j) (l := p.frames) (i := e)
        (h := by simpa using he)
      exact congrFun (congrFun this i) j
    rw [e0]
    refine ⟨fun h => by simp [h], fun h => ⟨?_, ?_⟩⟩
    · rintro (h' | ⟨x, hx, h'⟩)
      · rw [h', h]; rfl
      · rw [h', h]
        simp [Fl.max0, max_eq_right hx.le]
    · rintro (h' | h' | ⟨x, hx, h'⟩)
      · rw [h', h]; rfl
      · rw [h', h]; rfl
      · rw [h', h]
        simp [Fl.max0, max_eq_left hx]

/-- **C21 is violated by `from_cxi`**: a NaN in a file stays in the loaded patterns and its pixel
stays unmasked, with or without `cut_zeros`. -/
theorem nan_from_file_violated (cut : Bool) :
    let r := loadMaskPatterns cut none ⟨1, 1, [fun _ _ => .nan]⟩
    (∃ q ∈ r.2.frames, q 0 0 = .nan) ∧ r.1 0 0 = true := by
  refine ⟨⟨_, by simp [loadMaskPatterns]; rfl, ?_⟩, rfl⟩
  cases cut <;> rfl

/-- **C21 is violated** also by infinities of both signs: the pixel is masked although no exposure
holds a NaN there. -/
theorem opposite_infinities_masked_violated :
    let p : Stack Fl := ⟨1, 1, [fun _ _ => .inf true, fun _ _ => .inf false]⟩
    (∀ q ∈ p.frames, ∀ i j, q i j ≠ .nan) ∧ (maskNans none p).1 0 0 = false := by
  refine ⟨by simp, ?_⟩
  rw [(nan_pixels_masked _ _).2.2.2]
  simp

/-! ### Boolean indexing -/

theorem boolIndex_map {α β : Type} (f : α → β) (bs : List Bool) (xs : List α) :
    boolIndex bs (xs.map f) = (boolIndex bs xs).map f := by
  simp only [boolIndex, List.zip_map_right, List.filter_map, List.map_map]
  rfl

theorem boolIndex_eq {α : Type} (bs : List Bool) (xs : List α) :
    boolIndex bs xs = (boolIndex bs (List.range xs.length)).filterMap fun i => xs[i]? := by
  have h : xs.map some = (List.range xs.length).map fun i => xs[i]? := by
    apply List.ext_getElem
    · simp
    · intro i h1 h2; simp at h1 h2; simp [h1]
  have h2 : (boolIndex bs xs).map some =
      (boolIndex bs (List.range xs.length)).map fun i => xs[i]? := by
    rw [← boolIndex_map, h, boolIndex_map]
  have h3 : ((boolIndex bs xs).map some).filterMap id = boolIndex bs xs := by
    simp [List.filterMap_map]
  rw [← h3, h2, List.filterMap_map]
  rfl

theorem boolIndex_sublist {α : Type} (bs : List Bool) (xs : List α) :
    (boolIndex bs xs).Sublist xs := by
  induction bs generalizing xs with
  | nil => simp [boolIndex]
  | cons b bs ih =>
    cases xs with
    | nil => simp [boolIndex]
    | cons x xs =>
      have := ih xs
      cases b
      · exact List.Sublist.cons x (by simpa [boolIndex] using this)
      · simpa [boolIndex] using this

theorem boolIndex_perm {α : Type} (bs : List Bool) (xs : List α) (h : bs.length = xs.length) :
    (boolIndex bs xs ++ boolIndex (bs.map not) xs).Perm xs := by
  induction bs generalizing xs with
  | nil =>
    cases xs with
    | nil => simp [boolIndex]
    | cons x xs => simp at h
  | cons b bs ih =>
    cases xs with
    | nil => simp at h
    | cons x xs =>
      have := ih xs (by simpa using h)
      cases b
      · have e1 : boolIndex (false :: bs) (x :: xs) = boolIndex bs xs := by simp [boolIndex]
        have e2 : boolIndex ((false :: bs).map not) (x :: xs) = x :: boolIndex (bs.map not) xs := by
          simp [boolIndex]
        rw [e1, e2]
        exact List.perm_middle.trans (this.cons x)
      · have e1 : boolIndex (true :: bs) (x :: xs) = x :: boolIndex bs xs := by simp [boolIndex]
        have e2 : boolIndex ((true :: bs).map not) (x :: xs) = boolIndex (bs.map not) xs := by
          simp [boolIndex]
        rw [e1, e2]
        exact this.cons x

theorem boolIndex_length {α β : Type} (bs : List Bool) (xs : List α) (ys : List β)
    (h : xs.length = ys.length) : (boolIndex bs xs).length = (boolIndex bs ys).length := by
  rw [boolIndex_eq bs xs, boolIndex_eq bs ys]
  have key : ∀ {γ : Type} (zs : List γ), ((boolIndex bs (List.range zs.length)).filterMap
      fun i => zs[i]?).length = (boolIndex bs (List.range zs.length)).length := by
    intro γ zs
    have : ∀ I : List ℕ, (∀ i ∈ I, i < zs.length) →
        (I.filterMap fun i => zs[i]?).length = I.length := by
      intro I hI
      induction I with
      | nil => rfl
      | cons i I ih =>
        have hi := hI i (by simp)
        rw [List.filterMap_cons_some (List.getElem?_eq_getElem hi)]
        simp [ih (fun j hj => hI j (by simp [hj]))]
    exact this _ fun i hi => by
      simpa using (boolIndex_sublist bs (List.range zs.length)).subset hi
  rw [key xs, key ys, h]

/-! ### C22: split -/

theorem cutSelection_length (sel : List Bool) (hs : sel ≠ []) (n : ℕ) :
    (cutSelection sel n).length = n := by
  have hp : 0 < sel.length := List.length_pos_iff.2 hs
  rw [cutSelection, List.length_take, List.length_flatten]
  simp only [List.map_replicate, List.sum_replicate, smul_eq_mul]
  apply min_eq_left
  have := Nat.div_add_mod (n + sel.length - 1) sel.length
  have := Nat.mod_lt (n + sel.length - 1) hp
  rw [Nat.mul_comm]
  omega

/-- **C22**: there is a rule, depending only on the number `n` of exposures, that cuts `0, ..., n-1`
into two increasing lists of indices which together are all of them, each once; `split` of any
aligned dataset with `n` exposures returns the exposures with the first indices and those with the
second, patterns, translations and intensities alike, and both parts keep all other attributes. -/
theorem split_partitions (sel : List Bool) (hs : sel ≠ []) :
    ∃ I J : ℕ → List ℕ, (∀ n, (I n).Pairwise (· < ·) ∧ (J n).Pairwise (· < ·) ∧
        (I n ++ J n).Perm (List.range n)) ∧
      ∀ d : PDataset M, d.Aligned →
        (∀ (r : PDataset M) (K : List ℕ),
          (r = (d.split sel).1 ∧ K = I d.len) ∨ (r = (d.split sel).2 ∧ K = J d.len) →
          r.translations = K.filterMap (fun i => d.translations[i]?) ∧
          r.patterns = K.filterMap (fun i => d.patterns[i]?) ∧
          r.intensities = d.intensities.map (fun l => K.filterMap fun i => l[i]?) ∧
          r.SameRest d) := by
  refine ⟨fun n => boolIndex (cutSelection sel n) (List.range n),
    fun n => boolIndex ((cutSelection sel n).map not) (List.range n), fun n => ⟨?_, ?_, ?_⟩, ?_⟩
  · exact List.Pairwise.sublist (boolIndex_sublist _ _) List.pairwise_lt_range
  · exact List.Pairwise.sublist (boolIndex_sublist _ _) List.pairwise_lt_range
  · exact boolIndex_perm _ _ (by simp [cutSelection_length sel hs])
  · intro d ⟨hp, hi⟩ r K h
    have gen : ∀ bs : List Bool, r = d.selectBool bs → K = boolIndex bs (List.range d.len) →
        r.translations = K.filterMap (fun i => d.translations[i]?) ∧
        r.patterns = K.filterMap (fun i => d.patterns[i]?) ∧
        r.intensities = d.intensities.map (fun l => K.filterMap fun i => l[i]?) ∧
        r.SameRest d := by
      rintro bs rfl rfl
      refine ⟨?_, ?_, ?_, rfl, rfl, rfl, rfl, rfl, by simp [PDataset.selectBool]⟩
      · simp only [PDataset.selectBool, PDataset.len]
        rw [boolIndex_eq, ← hp]
      · simp only [PDataset.selectBool, PDataset.len]
        rw [boolIndex_eq]
      · simp only [PDataset.selectBool, PDataset.len]
        rcases hd : d.intensities with _ | l
        · rfl
        · simp only [Option.map_some, Option.some.injEq]
          rw [boolIndex_eq, hi l hd, hp]
    rcases h with ⟨h1, h2⟩ | ⟨h1, h2⟩
    · exact gen _ h1 h2
    · exact gen _ h1 h2

/-- The two halves together have as many exposures as the dataset. -/
theorem split_lengths (sel : List Bool) (hs : sel ≠ []) (d : PDataset M) :
    (d.split sel).1.len + (d.split sel).2.len = d.len := by
  have := (boolIndex_perm (cutSelection sel d.len) d.patterns
    (by simp [cutSelection_length sel hs, PDataset.len])).length_eq
  simpa [PDataset.split, PDataset.selectBool, PDataset.len] using this

/-- Non-vacuity: seven exposures, a selection of length three. -/
example : cutSelection [false, true, true] 7 = [false, true, true, false, true, true, false] ∧
    boolIndex (cutSelection [false, true, true] 7) [10, 11, 12, 13, 14, 15, 16]
      = [11, 12, 14, 15] := by decide

/-! ### C25: filters -/

theorem exposures_aux (e : PDataset M) (he : e.Aligned) (I : List ℕ)
    (hI : ∀ i ∈ I, i < e.translations.length) :
    (I.filterMap e.exposureAt).map some = I.map e.exposureAt := by
  induction I with
  | nil => rfl
  | cons i I ih =>
    have h1 := hI i (by simp)
    have h2 : i < e.patterns.length := by rw [he.1]; exact h1
    have h3 : e.exposureAt i = some ⟨e.translations[i], e.patterns[i],
        e.intensities.bind fun l => l[i]?⟩ := by simp [PDataset.exposureAt, h1, h2]
    rw [List.filterMap_cons_some h3]
    simp only [List.map_cons]
    rw [ih (fun j hj => hI j (by simp [hj])), h3]

theorem exposures_length (d : PDataset M) (hd : d.Aligned) :
    d.exposures.length = d.translations.length := by
  have := congrArg List.length (exposures_aux d hd (List.range d.translations.length) (by simp))
  simpa [PDataset.exposures] using this

theorem exposures_selectBool (d : PDataset M) (hd : d.Aligned) (bs : List Bool) :
    (d.selectBool bs).exposures = boolIndex bs d.exposures ∧ (d.selectBool bs).Aligned ∧
    (d.selectBool bs).SameRest d := by
  obtain ⟨hp, hi⟩ := hd
  have hal : (d.selectBool bs).Aligned := by
    refine ⟨boolIndex_length _ _ _ hp, fun l hl => ?_⟩
    simp only [PDataset.selectBool, Option.map_eq_some_iff] at hl
    obtain ⟨l', hl', rfl⟩ := hl
    exact boolIndex_length _ _ _ (hi l' hl')
  refine ⟨?_, hal, rfl, rfl, rfl, rfl, rfl, by simp [PDataset.selectBool]⟩
  have expo : ∀ e : PDataset M, e.Aligned →
      e.exposures.map some = (List.range e.translations.length).map e.exposureAt := by
    intro e he
    rw [PDataset.exposures]
    exact exposures_aux e he _ (by simp)
  have inj : Function.Injective (List.map (some : Exposure → Option Exposure)) :=
    List.map_injective_iff.2 (Option.some_injective _)
  apply inj
  rw [expo _ hal, ← boolIndex_map, expo d ⟨hp, hi⟩, boolIndex_map]
  -- compare entrywise
  have tl : (d.selectBool bs).translations.length =
      (boolIndex bs (List.range d.translations.length)).length :=
    boolIndex_length _ _ _ (by simp)
  apply List.ext_getElem
  · simp [tl]
  · intro k h1 h2
    simp only [List.length_map, List.length_range] at h1 h2
    have hk : k < (boolIndex bs (List.range d.translations.length)).length := h2
    have look : ∀ {γ : Type} (zs : List γ), zs.length = d.translations.length →
        (boolIndex bs zs)[k]? =
          zs[(boolIndex bs (List.range d.translations.length))[k]]? := by
      intro γ zs hz
      have e := congrArg (fun l => l[k]?) (show (boolIndex bs zs).map some =
        (boolIndex bs (List.range zs.length)).map fun i => zs[i]? by
          rw [← boolIndex_map, ← boolIndex_map]
          congr 1
          apply List.ext_getElem
          · simp
          · intro i h1 h2; simp at h1 h2; simp [h1])
      simp only [List.getElem?_map, hz] at e
      rw [List.getElem?_eq_getElem hk] at e
      simp only [Option.map_some] at e
      have hk' : k < (boolIndex bs zs).length := by
        rw [boolIndex_length bs zs (List.range d.translations.length) (by simp [hz])]; exact hk
      rw [List.getElem?_eq_getElem hk'] at e ⊢
      simpa using e
    simp only [List.getElem_map, List.getElem_range, PDataset.exposureAt]
    rw [show (d.selectBool bs).translations = boolIndex bs d.translations from rfl,
      show (d.selectBool bs).patterns = boolIndex bs d.patterns from rfl,
      show (d.selectBool bs).intensities = d.intensities.map (boolIndex bs) from rfl,
      look d.translations rfl, look d.patterns hp]
    have hint : ((d.intensities.map (boolIndex bs)).bind fun l => l[k]?) =
        d.intensities.bind fun l => l[(boolIndex bs (List.range d.translations.length))[k]]? := by
      cases hdi : d.intensities with
      | none => rfl
      | some l =>
        simp only [Option.map_some, Option.bind_some]
        rw [look l (hi l hdi)]
    rw [hint]

theorem boolIndex_decide {α : Type} (P : α → Prop) [DecidablePred P] (xs : List α) :
    boolIndex (xs.map fun x => decide (P x)) xs = xs.filter fun x => decide (P x) := by
  induction xs with
  | nil => rfl
  | cons x xs ih =>
    by_cases h : P x <;> simp [boolIndex, h] at ih ⊢ <;> exact ih

/-- **C25** (`remove_translations_mask`): with a mask of the wrong length ValueError is raised and
the dataset stays as it was; otherwise the exposures whose mask entry is False remain, in order and
still aligned, and nothing else changes. -/
theorem remove_mask_keeps_alignment (d : PDataset M) (hd : d.Aligned) (bs : List Bool) :
    (bs.length ≠ d.exposures.length → d.removeMask bs = (d, some .valueError)) ∧
    (bs.length = d.exposures.length → ∃ d', d.removeMask bs = (d', none) ∧
      d'.exposures = ((bs.zip d.exposures).filter fun p => !p.1).map (fun p => p.2) ∧
      d'.Aligned ∧ d'.SameRest d) := by
  have hlen := exposures_length d hd
  rw [hlen]
  refine ⟨fun h => by simp [PDataset.removeMask, h], fun h => ?_⟩
  obtain ⟨e1, e2, e3⟩ := exposures_selectBool d hd (bs.map not)
  refine ⟨d.selectBool (bs.map not), by simp [PDataset.removeMask, h], ?_, e2, e3⟩
  rw [e1]
  simp only [boolIndex, List.zip_map_left, List.filter_map, List.map_map]
  rfl

theorem exposures_translations (d : PDataset M) (hd : d.Aligned) :
    d.exposures.map (fun e => e.translation) = d.translations := by
  unfold PDataset.exposures
  have h2 : ∀ I : List ℕ, (∀ i ∈ I, i < d.translations.length) →
      (I.filterMap d.exposureAt).map (fun e => e.translation) =
        I.filterMap fun i => d.translations[i]? := by
    intro I hI
    induction I with
    | nil => rfl
    | cons i I ih =>
      have h1 := hI i (by simp)
      have h2 : i < d.patterns.length := by rw [hd.1]; exact h1
      rw [List.filterMap_cons_some (b := ⟨d.translations[i], d.patterns[i],
        d.intensities.bind fun l => l[i]?⟩) (by simp [PDataset.exposureAt, h1, h2]),
        List.filterMap_cons_some (List.getElem?_eq_getElem h1)]
      simp [ih (fun j hj => hI j (by simp [hj]))]
  rw [h2 _ (by simp)]
  have := boolIndex_eq (List.replicate d.translations.length true) d.translations
  have e : ∀ {α : Type} (xs : List α), boolIndex (List.replicate xs.length true) xs = xs := by
    intro α xs
    induction xs with
    | nil => rfl
    | cons x xs ih => simpa [boolIndex, List.replicate_succ] using ih
  rw [e] at this
  have e' := e (List.range d.translations.length)
  simp only [List.length_range] at e'
  rw [e'] at this
  exact this.symm

open Classical in
/-- **C25** (`crop_translations`): if no exposure lies in the box, ValueError is raised and the
dataset stays as it was; otherwise exactly the exposures in the closed box with the given corners
(in either order) remain, in order and still aligned, and nothing else changes. -/
theorem crop_keeps_box (d : PDataset M) (hd : d.Aligned) (r0 r1 r2 r3 : ℝ) :
    ((∀ e ∈ d.exposures, ¬ InBox r0 r1 r2 r3 e.translation) →
      d.crop r0 r1 r2 r3 = (d, some .valueError)) ∧
    ((∃ e ∈ d.exposures, InBox r0 r1 r2 r3 e.translation) →
      ∃ d', d.crop r0 r1 r2 r3 = (d', none) ∧
        d'.exposures = d.exposures.filter (fun e => decide (InBox r0 r1 r2 r3 e.translation)) ∧
        d'.Aligned ∧ d'.SameRest d) := by
  have hs : ∀ a b : ℝ, sorted2 a b = (min a b, max a b) := by
    intro a b
    unfold sorted2
    split
    · rename_i h; rw [min_eq_left h, max_eq_right h]
    · rename_i h; rw [min_eq_right (le_of_not_ge h), max_eq_left (le_of_not_ge h)]
  have hin : d.translations.map (fun t => decide ((sorted2 r0 r1).1 ≤ t.1 ∧ t.1 ≤ (sorted2 r0 r1).2 ∧
      t.2.1 ≤ (sorted2 r2 r3).2 ∧ (sorted2 r2 r3).1 ≤ t.2.1)) =
      d.exposures.map fun e => decide (InBox r0 r1 r2 r3 e.translation) := by
    rw [← exposures_translations d hd, List.map_map]
    refine List.map_congr_left fun e _ => ?_
    simp only [Function.comp, hs, InBox]
    congr 1
    rw [eq_iff_iff]
    tauto
  have hc : d.crop r0 r1 r2 r3 =
      if (d.exposures.map fun e => decide (InBox r0 r1 r2 r3 e.translation)).any id then
        d.removeMask ((d.exposures.map fun e => decide (InBox r0 r1 r2 r3 e.translation)).map not)
      else (d, some .valueError) := by
    rw [← hin]; rfl
  constructor
  · intro h
    rw [hc, if_neg]
    simp only [List.any_map, List.any_eq_true, not_exists, not_and]
    intro e he
    simpa using h e he
  · rintro ⟨e, he, hb⟩
    rw [hc, if_pos]
    · obtain ⟨d', h1, h2, h3, h4⟩ := (remove_mask_keeps_alignment d hd
        ((d.exposures.map fun e => decide (InBox r0 r1 r2 r3 e.translation)).map not)).2 (by simp)
      refine ⟨d', h1, ?_, h3, h4⟩
      rw [h2, ← boolIndex_decide]
      simp only [boolIndex, List.map_map, List.zip_map_left, List.filter_map]
      congr 1
      refine List.filter_congr fun x _ => ?_
      simp
    · simp only [List.any_map, List.any_eq_true]
      exact ⟨e, he, by simpa using hb⟩

/-- A filter call. -/
inductive FilterOp where
  | mask (bs : List Bool)
  | crop (r0 r1 r2 r3 : ℝ)

/-- One filter call on a dataset (errors are caught by the caller). -/
noncomputable def applyFilter (d : PDataset M) : FilterOp → PDataset M
  | .mask bs => (d.removeMask bs).1
  | .crop a b c e => (d.crop a b c e).1

/-- **C25** (sequences): after any sequence of filter calls, failing ones included, the exposures
are a sublist of the original ones — same order, translations, patterns and intensities still
together — and everything else is unchanged. -/
theorem filter_sequences_keep_alignment (ops : List FilterOp) (d : PDataset M) (hd : d.Aligned) :
    (ops.foldl applyFilter d).Aligned ∧
    ((ops.foldl applyFilter d).exposures).Sublist d.exposures ∧
    (ops.foldl applyFilter d).SameRest d := by
  induction ops generalizing d with
  | nil => exact ⟨hd, List.Sublist.refl _, rfl, rfl, rfl, rfl, rfl, rfl⟩
  | cons op ops ih =>
    have step : (applyFilter d op).Aligned ∧ (applyFilter d op).exposures.Sublist d.exposures ∧
        (applyFilter d op).SameRest d := by
      cases op with
      | mask bs =>
        by_cases h : bs.length = d.exposures.length
        · obtain ⟨d', h1, h2, h3, h4⟩ := (remove_mask_keeps_alignment d hd bs).2 h
          simp only [applyFilter, h1]
          refine ⟨h3, ?_, h4⟩
          have := boolIndex_sublist (bs.map not) d.exposures
          rw [h2]
          simp only [boolIndex, List.zip_map_left, List.filter_map, List.map_map] at this
          exact this
        · simp only [applyFilter, (remove_mask_keeps_alignment d hd bs).1 h]
          exact ⟨hd, List.Sublist.refl _, rfl, rfl, rfl, rfl, rfl, rfl⟩
      | crop a b c e =>
        by_cases h : ∃ x ∈ d.exposures, InBox a b c e x.translation
        · obtain ⟨d', h1, h2, h3, h4⟩ := (crop_keeps_box d hd a b c e).2 h
          simp only [applyFilter, h1]
          exact ⟨h3, by rw [h2]; exact List.filter_sublist, h4⟩
        · push Not at h
          simp only [applyFilter, (crop_keeps_box d hd a b c e).1 h]
          exact ⟨hd, List.Sublist.refl _, rfl, rfl, rfl, rfl, rfl, rfl⟩
    obtain ⟨s1, s2, s3⟩ := step
    obtain ⟨i1, i2, i3⟩ := ih _ s1
    refine ⟨i1, i2.trans s2, ?_⟩
    obtain ⟨a1, a2, a3, a4, a5, a6⟩ := i3
    obtain ⟨b1, b2, b3, b4, b5, b6⟩ := s3
    exact ⟨a1.trans b1, a2.trans b2, a3.trans b3, a4.trans b4, a5.trans b5, a6.trans b6⟩

/-- A three-exposure dataset. -/
def smallDataset : PDataset Unit where
  translations := [(0, 0, 0), (1, 0, 0), (2, 5, 0)]
  patterns := [⟨1, 1, fun _ _ => 10⟩, ⟨1, 1, fun _ _ => 11⟩, ⟨1, 1, fun _ _ => 12⟩]
  intensities := some [1, 2, 3]
  mask := none
  qeMask := none
  background := none
  basis := none
  info := ()

/-- Non-vacuity: the dataset is aligned and a box selects its first two exposures. -/
example : smallDataset.Aligned ∧ ∃ e ∈ smallDataset.exposures, InBox 1 (-1) 0 1 e.translation := by
  have ha : smallDataset.Aligned := ⟨rfl, by intro l hl; cases hl; rfl⟩
  refine ⟨ha, ?_⟩
  have : ((0 : ℝ), (0 : ℝ), (0 : ℝ)) ∈ smallDataset.exposures.map (fun e => e.translation) := by
    rw [exposures_translations _ ha]; simp [smallDataset]
  obtain ⟨e, he, ht⟩ := List.mem_map.1 this
  exact ⟨e, he, by rw [ht]; simp [InBox]⟩

/-! ### C26: indexing -/

/-- **C26**: `len(dataset)` is the number of exposures; `dataset[i]` is
`((i, translations[i]), patterns[i])` for every int in range (negative ones counting from the
end), every list of such ints and every slice; ints out of range raise IndexError. `get_as` only
converts the returned translations and patterns (`conv`, `convP`), entry by entry. -/
theorem indexing_returns_exposures {T P : Type} (conv : ℝ × ℝ × ℝ → T) (convP : Img ℝ → P)
    (d : PDataset M) (hd : d.Aligned) :
    d.len = d.translations.length ∧
    (∀ i (h : i < d.len), ∃ t p, d.translations[i]? = some t ∧ d.patterns[i]? = some p ∧
      d.getItem conv convP (.int i) = .ok ((.int i, .inl (conv t)), .inl (convP p)) ∧
      d.getItem conv convP (.int (i - d.len)) = .ok ((.int (i - d.len), .inl (conv t)),
        .inl (convP p))) ∧
    (∀ i : ℤ, ((d.len : ℤ) ≤ i ∨ i < -(d.len : ℤ)) →
      d.getItem conv convP (.int i) = .error .indexError) ∧
    (∀ l : List ℕ, (∀ i ∈ l, i < d.len) →
      d.getItem conv convP (.list (l.map (↑))) = .ok ((.list (l.map (↑)),
        .inr ((l.filterMap fun i => d.translations[i]?).map conv)),
        .inr ((l.filterMap fun i => d.patterns[i]?).map convP))) ∧
    (∀ a b, d.getItem conv convP (.slice a b) = .ok ((.slice a b,
        .inr (((d.translations.take b).drop a).map conv)),
        .inr (((d.patterns.take b).drop a).map convP))) := by
  obtain ⟨hp, hi⟩ := hd
  have getNat : ∀ {α : Type} (xs : List α) (i : ℕ) (h : i < xs.length),
      pyGet xs (i : ℤ) = .ok xs[i] := by
    intro α xs i h
    simp [pyGet, h]
  have getNeg : ∀ {α : Type} (xs : List α) (i : ℕ) (h : i < xs.length),
      pyGet xs ((i : ℤ) - xs.length) = .ok xs[i] := by
    intro α xs i h
    have h1 : ¬ (0 ≤ (i : ℤ) - xs.length) := by omega
    have h2 : -(xs.length : ℤ) ≤ (i : ℤ) - xs.length := by omega
    have h3 : ((xs.length : ℤ) + ((i : ℤ) - xs.length)).toNat = i := by omega
    rw [pyGet, if_neg h1, if_pos h2, h3]
    simp [h]
  have getOut : ∀ {α : Type} (xs : List α) (i : ℤ),
      ((xs.length : ℤ) ≤ i ∨ i < -(xs.length : ℤ)) → pyGet xs i = .error .indexError := by
    intro α xs i h
    unfold pyGet
    split
    · have : xs[i.toNat]? = none := List.getElem?_eq_none (by omega)
      rw [this]
    · rw [if_neg (by omega)]
  have getList : ∀ {α : Type} (xs : List α) (l : List ℕ), (∀ i ∈ l, i < xs.length) →
      (l.map (fun i : ℕ => (i : ℤ))).mapM (pyGet xs) = .ok (l.filterMap fun i => xs[i]?) := by
    intro α xs l hl
    induction l with
    | nil => rfl
    | cons i l ih =>
      have h := hl i (by simp)
      rw [List.map_cons, List.mapM_cons, getNat xs i h,
        List.filterMap_cons_some (List.getElem?_eq_getElem h)]
      have := ih (fun j hj => hl j (by simp [hj]))
      simp only [bind, Except.bind, pure, Except.pure] at this ⊢
      rw [this]
  refine ⟨hp, fun i h => ?_, fun i h => ?_, fun l hl => ?_, fun a b => rfl⟩
  · have ht : i < d.translations.length := by rw [← hp]; exact h
    refine ⟨d.translations[i], d.patterns[i], List.getElem?_eq_getElem ht,
      List.getElem?_eq_getElem h, ?_, ?_⟩
    · simp [PDataset.getItem, pyIndex, getNat _ _ ht, getNat _ _ (show i < d.patterns.length from h),
        Except.map, Except.bind]
      rfl
    · have e1 := getNeg d.translations i ht
      have e2 := getNeg d.patterns i h
      rw [← hp] at e1
      simp [PDataset.getItem, pyIndex, PDataset.len, e1, e2, Except.map, Except.bind]
  · rw [PDataset.getItem, pyIndex, getOut d.translations i (by rw [← hp]; exact h)]
    rfl
  · have e1 := getList d.translations l (by rw [← hp]; exact hl)
    have e2 := getList d.patterns l hl
    simp [PDataset.getItem, pyIndex, e1, e2, Except.map, Except.bind]

end Cdtools
