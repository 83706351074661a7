/- Property theorems C128: a larger object array changes nothing. -/
import Verif.Props.Origin

set_option linter.unusedSectionVars false

namespace Cdtools
open Finset Matrix

variable {n m a b N k os : ℕ} [NeZero n] [NeZero m] [NeZero a] [NeZero b]

/-! ### Specification -/

/-- An array with `q` more pixels on every side, with the values of `v` there. -/
def Img.padded {α : Type} (q : ℕ) (v : ℕ → ℕ → α) (o : Img α) : Img α :=
  ⟨o.h + 2 * q, o.w + 2 * q, fun i j => if q ≤ i ∧ i < q + o.h ∧ q ≤ j ∧ j < q + o.w then o.px (i - q) (j - q) else v i j⟩

/-- A `FancyPtycho` model with `q` more pixels around its object. -/
noncomputable def Fancy.padded {n m a b N k : ℕ} (M : Fancy n m a b N k) (q : ℕ) (v : ℕ → ℕ → ℂ) : Fancy n m a b N k :=
  { M with obj := M.obj.padded q v, minTranslation := fun i => M.minTranslation i - q }

/-- A `MultislicePtycho` model with `q` more pixels around its slices. -/
noncomputable def Multislice.padded {n m a b N k : ℕ} (M : Multislice n m a b N k) (q : ℕ) (v : ℕ → ℕ → ℕ → ℂ) : Multislice n m a b N k :=
  { M with slices := M.slices.mapIdx fun s o => o.padded q (v s), minTranslation := fun i => M.minTranslation i - q }

/-- A `Bragg2DPtycho` model with `q` more pixels around its object. -/
noncomputable def Bragg.padded {n m a b N k : ℕ} (M : Bragg n m a b N k) (q : ℕ) (v : ℕ → ℕ → ℂ) : Bragg n m a b N k :=
  { M with obj := M.obj.padded q v, minTranslation := fun i => M.minTranslation i - q }

/-! ### Windows -/

theorem objWindow_padded (o : Img ℂ) (q : ℕ) (v : ℕ → ℕ → ℂ) (p p' : ℤ) (hp : 0 ≤ p) (hp' : 0 ≤ p') (sel : Wave a b)
    (h : objWindow a b o p p' = .ok sel) : objWindow a b (o.padded q v) (p + q) (p' + q) = .ok sel := by
  have ha := NeZero.pos a
  have hb := NeZero.pos b
  unfold objWindow at h ⊢
  simp only [Img.padded] at h ⊢
  by_cases hfit : (sliceExtent o.h p (p + a)).2 = a ∧ (sliceExtent o.w p' (p' + b)).2 = b
  · rw [if_pos hfit] at h
    have hc : sliceExtent (o.h + 2 * q) (p + q) (p + q + a) = ((sliceExtent o.h p (p + a)).1 + q, a) ∧
        sliceExtent (o.w + 2 * q) (p' + q) (p' + q + b) = ((sliceExtent o.w p' (p' + b)).1 + q, b) ∧
        (sliceExtent o.h p (p + a)).1 + a ≤ o.h ∧ (sliceExtent o.w p' (p' + b)).1 + b ≤ o.w := by
      unfold sliceExtent sliceBound at hfit ⊢
      simp only [Prod.mk.injEq] at hfit ⊢
      rw [if_neg (by omega), if_neg (by omega), if_neg (by omega), if_neg (by omega)] at hfit
      rw [if_neg (by omega), if_neg (by omega), if_neg (by omega), if_neg (by omega), if_neg (by omega), if_neg (by omega)]
      push_cast
      omega
    obtain ⟨h1, h2, h3, h4⟩ := hc
    simp only [h1, h2, and_self, if_true]
    rw [← h]
    refine congrArg Except.ok ?_
    funext u w
    have hu := ZMod.val_lt u
    have hw := ZMod.val_lt w
    rw [if_pos (by omega)]
    congr 1 <;> omega
  · rw [if_neg hfit] at h
    cases h

theorem Img.padded_map {α β : Type} (f : α → β) (o : Img α) (q : ℕ) (v : ℕ → ℕ → α) :
    (o.padded q v).map f = (o.map f).padded q fun i j => f (v i j) := by
  unfold Img.padded Img.map
  simp only [apply_ite f]

theorem floor_sub_pad (x y : ℝ) (q : ℕ) : ⌊x - (y - q)⌋ = ⌊x - y⌋ + q := by
  rw [sub_sub_eq_add_sub, add_sub_right_comm, Int.floor_add_natCast]

/-- Whole pixels do not matter to the interaction. -/
theorem sincApply_pad (shiftBack : Bool) (x y : ℝ) (q : ℕ) (sel p : Wave n m) :
    sincApply shiftBack (x + q, y + q) sel p = sincApply shiftBack (x, y) sel p := by
  unfold sincApply
  simp only [Int.floor_add_natCast, Int.cast_add, Int.cast_natCast, add_sub_add_right_eq_sub]

theorem objectSetup_pad (p : ℕ) (x : ℝ) (l : List ℝ) (pad : ℤ) (q : ℕ) (hp : 0 ≤ pad) :
    (objectSetup p x l (pad + q)).1.toNat = (objectSetup p x l pad).1.toNat + 2 * q ∧
      (objectSetup p x l (pad + q)).2 = (objectSetup p x l pad).2 - q := by
  have h : 0 ≤ maxList x l - minList x l :=
    sub_nonneg.2 ((minList_le x l x (by simp)).trans (le_maxList x l x (by simp)))
  have h' := Int.ceil_nonneg h
  unfold objectSetup
  constructor
  · simp only
    omega
  · simp only
    push_cast
    ring

/-- The exposures of a new object begin inside of it. -/
theorem objectSetup_position_nonneg (p : ℕ) (x : ℝ) (l : List ℝ) (pad : ℤ) (hp : 0 ≤ pad) (y : ℝ) (hy : y ∈ x :: l) :
    0 ≤ y - (objectSetup p x l pad).2 := by
  have h := minList_le x l y hy
  have h2 : (0 : ℝ) ≤ pad := by exact_mod_cast hp
  simp only [objectSetup]
  linarith

/-! ### FancyPtycho -/

/-- Whatever the parameters: a simulation of an exposure whose window begins inside the object gives the same pattern, and whatever the new pixels
hold. -/
theorem forward_padded (M : Fancy n m a b N k) (q : ℕ) (v : ℕ → ℕ → ℂ) (idx : Fin N) (t : Fin 3 → ℝ) (hpos : ∀ c, 0 ≤ M.pixTrans idx t c)
    (Q : Img ℝ) (hQ : M.forward idx t = .ok Q) : (M.padded q v).forward idx t = .ok Q := by
  have h0 : ∀ c, (M.padded q v).pixTrans idx t c = M.pixTrans idx t c + q := fun c => by
    unfold Fancy.pixTrans Fancy.padded
    cases M.offsets with
    | none =>
      simp only [Pi.sub_apply]
      ring
    | some o =>
      simp only [Pi.sub_apply, Pi.add_apply]
      ring
  have hT : ∃ v', (M.padded q v).transmission = M.transmission.padded q v' := by
    unfold Fancy.transmission
    rw [show (M.padded q v).exponentiate = M.exponentiate from rfl, show (M.padded q v).phaseOnly = M.phaseOnly from rfl,
      show (M.padded q v).obj = M.obj.padded q v from rfl]
    split_ifs
    · exact ⟨_, Img.padded_map _ _ _ _⟩
    · exact ⟨_, Img.padded_map _ _ _ _⟩
    · exact ⟨_, rfl⟩
  have h1 : ∀ sel p, (M.padded q v).toDetector idx t sel p = M.toDetector idx t sel p := fun sel p => by
    unfold Fancy.toDetector
    simp only [h0, sincApply_pad]
    rfl
  obtain ⟨v', hv⟩ := hT
  unfold Fancy.forward at hQ ⊢
  rw [show (M.padded q v).simulateTranslation = M.simulateTranslation from rfl, show (M.padded q v).fourierShifts = M.fourierShifts from rfl]
  by_cases he : M.simulateTranslation = true ∧ M.fourierShifts = none
  · rw [if_pos he] at hQ
    cases hQ
  · rw [if_neg he] at hQ ⊢
    simp only at hQ ⊢
    rw [h0, h0, Int.floor_add_natCast, Int.floor_add_natCast, hv]
    cases hw : objWindow a b M.transmission ⌊M.pixTrans idx t 0⌋ ⌊M.pixTrans idx t 1⌋ with
    | error e => rw [hw] at hQ; cases hQ
    | ok sel =>
      rw [objWindow_padded _ q v' _ _ (Int.floor_nonneg.2 (hpos 0)) (Int.floor_nonneg.2 (hpos 1)) sel hw]
      rw [hw] at hQ
      rw [← hQ]
      simp only [Except.map, h1]
      rfl

/-- The random numbers of a padded object, at the place of the object. -/
def PaddedNumbers (q : ℕ) (ro ro' : ℕ → ℕ → ℝ) : Prop := ∀ i j, ro' (i + q) (j + q) = ro i j

theorem initialObject_padded (O : FancyOpts) (pad : ℕ) (h w q : ℕ) (ro ro' : ℕ → ℕ → ℝ) (hr : PaddedNumbers q ro ro') :
    initialObject { O with padding := pad } (h + 2 * q) (w + 2 * q) ro' = (initialObject O h w ro).padded q (initialObject O h w ro').px := by
  unfold initialObject Img.padded Img.map
  split_ifs <;> simp only [Img.mk.injEq, true_and] <;>
  · funext i j
    by_cases hc : q ≤ i ∧ i < q + h ∧ q ≤ j ∧ j < q + w
    · rw [if_pos hc, ← hr (i - q) (j - q), Nat.sub_add_cancel hc.1, Nat.sub_add_cancel hc.2.2.1]
    · rw [if_neg hc]

/-- `obj_padding=p + q` builds the model of `obj_padding=p` with `q` more pixels around the object. -/
theorem from_dataset_padded (D : FancyData n m N) (O : FancyOpts) (q os : ℕ) [NeZero os] [NeZero (os * n)] [NeZero (os * m)]
    (c : ℕ) [NeZero (os * n - 2 * c)] [NeZero (os * m - 2 * c)] (rp : Fin k → Wave (os * n - 2 * c) (os * m - 2 * c)) (ro ro' : ℕ → ℕ → ℝ)
    (hr : PaddedNumbers q ro ro') :
    fancyFromDataset D { O with padding := O.padding + q } os c k rp ro' =
      (fancyFromDataset D O os c k rp ro).map fun M => M.padded q (initialObject O M.obj.h M.obj.w ro').px := by
  unfold fancyFromDataset
  rw [show D.start { O with padding := O.padding + q } os = D.start O os from rfl]
  cases List.ofFn D.translations with
  | nil =>
    cases D.start O os <;> cases datasetNormal O.scatteringMode D.orientation D.detBasis <;> cases initialWeights N (k + 1) O.dmRank <;> rfl
  | cons t0 rest =>
    cases D.start O os with
    | error e => rfl
    | ok S =>
      cases datasetNormal O.scatteringMode D.orientation D.detBasis with
      | error e => rfl
      | ok normal =>
        cases initialWeights N (k + 1) O.dmRank with
        | error e => rfl
        | ok W =>
          simp only [Except.map, Nat.cast_add, (objectSetup_pad _ _ _ _ q (Int.natCast_nonneg _)).1, (objectSetup_pad _ _ _ _ q (Int.natCast_nonneg _)).2]
          generalize hI : fancyInit _ = I
          generalize hJ : fancyInit _ = J
          obtain rfl : I = J := hI.symm.trans hJ
          clear hI hJ
          cases I with
          | error e => rfl
          | ok P =>
            refine congrArg Except.ok ?_
            simp only
            rw [initialObject_padded O (O.padding + q) _ _ q ro ro' hr]
            unfold Fancy.padded
            have hh : ∀ h w, (initialObject O h w ro).h = h ∧ (initialObject O h w ro).w = w := fun h w => by
              unfold initialObject
              split_ifs <;> exact ⟨rfl, rfl⟩
            simp only [hh]
            congr 1
            ext i
            fin_cases i <;> rfl

/-- The exposures of a new model begin inside the object. -/
theorem from_dataset_positions (D : FancyData n m N) (O : FancyOpts) (os : ℕ) [NeZero os] [NeZero (os * n)] [NeZero (os * m)] (c : ℕ)
    [NeZero (os * n - 2 * c)] [NeZero (os * m - 2 * c)] (rp : Fin k → Wave (os * n - 2 * c) (os * m - 2 * c)) (ro : ℕ → ℕ → ℝ)
    (M : Fancy (os * n - 2 * c) (os * m - 2 * c) (os * n) (os * m) N (k + 1)) (hM : fancyFromDataset D O os c k rp ro = .ok M) (idx : Fin N)
    (x : Fin 2) : 0 ≤ M.pixTrans idx (D.translations idx) x := by
  have hmem : D.translations idx ∈ List.ofFn D.translations := List.mem_ofFn.2 ⟨idx, rfl⟩
  unfold fancyFromDataset at hM
  cases hl : List.ofFn D.translations with
  | nil => rw [hl] at hmem; cases hmem
  | cons t0 rest =>
    rw [hl] at hM hmem
    cases hS : D.start O os with
    | error e => rw [hS] at hM; cases hM
    | ok S =>
      cases hn : datasetNormal O.scatteringMode D.orientation D.detBasis with
      | error e => rw [hS, hn] at hM; cases hM
      | ok normal =>
        cases hW : initialWeights N (k + 1) O.dmRank with
        | error e => rw [hS, hn, hW] at hM; cases hM
        | ok W =>
          rw [hS, hn, hW] at hM
          have hp : ∀ q (c : Fin 2), 0 ≤ translationsToPixel S.objBasis normal (D.translations idx) c -
              (objectSetup q (translationsToPixel S.objBasis normal t0 c) (rest.map fun t => translationsToPixel S.objBasis normal t c)
                O.padding).2 := fun q c => by
            refine objectSetup_position_nonneg q _ _ _ (Int.natCast_nonneg _) _ ?_
            rcases List.mem_cons.1 hmem with h | h
            · rw [h]
              exact List.mem_cons_self
            · exact List.mem_cons_of_mem _ (List.mem_map.2 ⟨_, h, rfl⟩)
          have hz : ∀ P, fancyInit ⟨(match O.supportRadius.map fun r => supportDisc (os * n - 2 * c) (os * m - 2 * c) r with
              | none => probeStack O.fourierProbe rp (cropProbe c S.probe)
              | some s => fun j x y => probeStack O.fourierProbe rp (cropProbe c S.probe) j x y * (if s x y then 1 else 0)), some 0,
              if O.allowFourierShifts then some 0 else none, O.translationScale,
              O.supportRadius.map fun r => supportDisc (os * n - 2 * c) (os * m - 2 * c) r⟩ = .ok P →
              P.offsets = some (0 : Fin N → Fin 2 → ℝ) := fun P hP => by
            unfold fancyInit at hP
            by_cases ha : O.allowFourierShifts = true
            · simp only [ha, if_true, Option.map_some] at hP
              cases hP
              refine congrArg some ?_
              funext i
              exact smul_zero _
            · simp only [ha, Bool.false_eq_true, if_false, Option.map_some] at hP
              cases hP
              refine congrArg some ?_
              funext i
              exact smul_zero _
          simp only at hM
          split at hM
          · cases hM
          · rename_i P hP
            have ho := hz P hP
            cases hM
            unfold Fancy.pixTrans
            simp only [ho, Pi.add_apply, Pi.sub_apply, Pi.smul_apply, Pi.zero_apply, smul_zero, add_zero]
            have h0 := hp (os * n) 0
            have h1 := hp (os * m) 1
            fin_cases x
            · exact h0
            · exact h1

/-- A new model with more padding simulates the exposures of its dataset as one with less. -/
theorem new_model_padding (D : FancyData n m N) (O : FancyOpts) (q os : ℕ) [NeZero os] [NeZero (os * n)] [NeZero (os * m)] (c : ℕ)
    [NeZero (os * n - 2 * c)] [NeZero (os * m - 2 * c)] (rp : Fin k → Wave (os * n - 2 * c) (os * m - 2 * c)) (ro ro' : ℕ → ℕ → ℝ)
    (hr : PaddedNumbers q ro ro') (M : Fancy (os * n - 2 * c) (os * m - 2 * c) (os * n) (os * m) N (k + 1))
    (hM : fancyFromDataset D O os c k rp ro = .ok M) :
    ∃ M', fancyFromDataset D { O with padding := O.padding + q } os c k rp ro' = .ok M' ∧
      M'.obj.h = M.obj.h + 2 * q ∧ M'.obj.w = M.obj.w + 2 * q ∧
      ∀ idx Q, M.forward idx (D.translations idx) = .ok Q → M'.forward idx (D.translations idx) = .ok Q := by
  refine ⟨M.padded q (initialObject O M.obj.h M.obj.w ro').px, ?_, rfl, rfl, fun idx Q hQ => ?_⟩
  · rw [from_dataset_padded D O q os c rp ro ro' hr, hM]
    rfl
  · exact forward_padded M q _ idx _ (from_dataset_positions D O os c rp ro M hM idx) Q hQ

/-! ### MultislicePtycho -/

/-- `obj_padding=p + q` builds the model of `obj_padding=p` with `q` more pixels around the slices. -/
theorem multislice_from_dataset_padded (D : FancyData n m N) (O : MultisliceOpts) (q os : ℕ) [NeZero os] [NeZero (os * n)] [NeZero (os * m)]
    (c : ℕ) [NeZero (os * n - 2 * c)] [NeZero (os * m - 2 * c)] (k : ℕ) (rp : Fin k → Wave (os * n - 2 * c) (os * m - 2 * c))
    (ro ro' : ℕ → ℕ → ℕ → ℝ) (hr : ∀ s, PaddedNumbers q (ro s) (ro' s)) :
    multisliceFromDataset D { O with padding := O.padding + q } os c k rp ro' =
      (multisliceFromDataset D O os c k rp ro).map fun M => M.padded q fun s => (initialSlice O 0 0 (ro' s)).px := by
  unfold multisliceFromDataset
  rw [show D.start (MultisliceOpts.shared { O with padding := O.padding + q }) os = D.start O.shared os from rfl]
  cases List.ofFn D.translations with
  | nil =>
    cases D.start O.shared os <;> cases datasetNormal O.scatteringMode D.orientation D.detBasis <;> cases initialWeights N (k + 1) O.dmRank <;> rfl
  | cons t0 rest =>
    cases D.start O.shared os with
    | error e => rfl
    | ok S =>
      cases datasetNormal O.scatteringMode D.orientation D.detBasis with
      | error e => rfl
      | ok normal =>
        cases initialWeights N (k + 1) O.dmRank with
        | error e => rfl
        | ok W =>
          simp only [Except.map, Nat.cast_add, (objectSetup_pad _ _ _ _ q (Int.natCast_nonneg _)).1,
            (objectSetup_pad _ _ _ _ q (Int.natCast_nonneg _)).2]
          by_cases h1 : O.probeShape = true
          · simp only [h1, if_true]
          · by_cases h2 : O.nz = 0
            · simp only [h1, h2, if_true, Bool.false_eq_true, if_false]
            · simp only [h1, h2, Bool.false_eq_true, if_false]
              cases multisliceWeights D.intensities W with
              | error e => rfl
              | ok w =>
                refine congrArg Except.ok ?_
                unfold Multislice.padded
                have hs : ∀ h w : ℕ, (List.ofFn fun s : Fin O.nz => initialSlice { O with padding := O.padding + q } (h + 2 * q) (w + 2 * q) (ro' s)) =
                    (List.ofFn fun s : Fin O.nz => initialSlice O h w (ro s)).mapIdx fun s o => o.padded q (initialSlice O 0 0 (ro' s)).px := by
                  intro h w
                  refine List.ext_getElem (by simp) fun i h1 h2 => ?_
                  simp only [List.getElem_ofFn, List.getElem_mapIdx]
                  unfold initialSlice Img.padded
                  simp only [Img.mk.injEq, true_and]
                  funext i' j'
                  by_cases hc : q ≤ i' ∧ i' < q + h ∧ q ≤ j' ∧ j' < q + w
                  · rw [if_pos hc, ← hr i (i' - q) (j' - q), Nat.sub_add_cancel hc.1, Nat.sub_add_cancel hc.2.2.1]
                  · rw [if_neg hc]
                congr 1
                · exact hs _ _
                · funext i
                  fin_cases i <;> rfl

theorem mapM_windows_padded (f : Img ℂ → Img ℂ) (hf : ∀ o q v, ∃ v', f (Img.padded q v o) = (f o).padded q v') (q : ℕ) (p p' : ℤ) (hp : 0 ≤ p)
    (hp' : 0 ≤ p') (l : List (Img ℂ)) (v : ℕ → ℕ → ℕ → ℂ) (ws : List (Wave a b)) (h : (l.mapM fun o => objWindow a b (f o) p p') = .ok ws) :
    ((l.mapIdx fun s o => o.padded q (v s)).mapM fun o => objWindow a b (f o) (p + q) (p' + q)) = .ok ws := by
  induction l generalizing v ws with
  | nil => exact h
  | cons o l ih =>
    rw [List.mapIdx_cons, List.mapM_cons]
    rw [List.mapM_cons] at h
    obtain ⟨v', hv⟩ := hf o q (v 0)
    cases hw : objWindow a b (f o) p p' with
    | error e => rw [hw] at h; cases h
    | ok sel =>
      rw [hw] at h
      cases hl : (l.mapM fun o => objWindow a b (f o) p p') with
      | error e => rw [hl] at h; cases h
      | ok rest =>
        rw [hl] at h
        rw [hv, objWindow_padded _ q v' p p' hp hp' sel hw, ih (fun s => v (s + 1)) rest hl]
        exact h

theorem multislice_forward_padded (M : Multislice n m a b N k) (q : ℕ) (v : ℕ → ℕ → ℕ → ℂ) (idx : Fin N) (t : Fin 3 → ℝ)
    (hpos : ∀ c, 0 ≤ M.pixTrans idx t c) (Q : Img ℝ) (hQ : M.forward idx t = .ok Q) : (M.padded q v).forward idx t = .ok Q := by
  have h0 : ∀ c, (M.padded q v).pixTrans idx t c = M.pixTrans idx t c + q := fun c => by
    unfold Multislice.pixTrans Multislice.padded
    cases M.offsets with
    | none =>
      simp only [Pi.sub_apply]
      ring
    | some o =>
      simp only [Pi.sub_apply, Pi.add_apply]
      ring
  have h1 : ∀ ws p, (M.padded q v).toDetector idx t ws p = M.toDetector idx t ws p := fun ws p => by
    unfold Multislice.toDetector passSlices
    simp only [h0, sincApply_pad]
    rfl
  have hT : ∀ o q v, ∃ v', M.transmission (Img.padded q v o) = (M.transmission o).padded q v' := fun o q v => by
    unfold Multislice.transmission
    split_ifs
    · exact ⟨_, Img.padded_map _ _ _ _⟩
    · exact ⟨_, rfl⟩
  unfold Multislice.forward at hQ ⊢
  simp only at hQ ⊢
  rw [h0, h0, Int.floor_add_natCast, Int.floor_add_natCast]
  cases hw : (M.slices.mapM fun o => objWindow a b (M.transmission o) ⌊M.pixTrans idx t 0⌋ ⌊M.pixTrans idx t 1⌋) with
  | error e => rw [hw] at hQ; cases hQ
  | ok ws =>
    have hm := mapM_windows_padded M.transmission hT q _ _ (Int.floor_nonneg.2 (hpos 0)) (Int.floor_nonneg.2 (hpos 1)) M.slices v ws hw
    rw [show (M.padded q v).slices = M.slices.mapIdx fun s o => o.padded q (v s) from rfl]
    rw [show (M.padded q v).transmission = M.transmission from rfl, hm]
    rw [hw] at hQ
    have hne : (M.slices.mapIdx fun s o => o.padded q (v s)) ≠ [] ↔ M.slices ≠ [] := by simp
    simp only [hne, h1] at hQ ⊢
    exact hQ

/-- The exposures of a new model begin inside the slices. -/
theorem multislice_from_dataset_positions (D : FancyData n m N) (O : MultisliceOpts) (os : ℕ) [NeZero os] [NeZero (os * n)] [NeZero (os * m)]
    (c : ℕ) [NeZero (os * n - 2 * c)] [NeZero (os * m - 2 * c)] (k : ℕ) (rp : Fin k → Wave (os * n - 2 * c) (os * m - 2 * c))
    (ro : ℕ → ℕ → ℕ → ℝ) (M : Multislice (os * n - 2 * c) (os * m - 2 * c) (os * n) (os * m) N (k + 1))
    (hM : multisliceFromDataset D O os c k rp ro = .ok M) (idx : Fin N) (x : Fin 2) : 0 ≤ M.pixTrans idx (D.translations idx) x := by
  have hmem : D.translations idx ∈ List.ofFn D.translations := List.mem_ofFn.2 ⟨idx, rfl⟩
  unfold multisliceFromDataset at hM
  cases hl : List.ofFn D.translations with
  | nil => rw [hl] at hmem; cases hmem
  | cons t0 rest =>
    rw [hl] at hM hmem
    cases hS : D.start O.shared os with
    | error e => rw [hS] at hM; cases hM
    | ok S =>
      cases hn : datasetNormal O.scatteringMode D.orientation D.detBasis with
      | error e => rw [hS, hn] at hM; cases hM
      | ok normal =>
        cases hW : initialWeights N (k + 1) O.dmRank with
        | error e => rw [hS, hn, hW] at hM; cases hM
        | ok W =>
          rw [hS, hn, hW] at hM
          have hp : ∀ q (c : Fin 2), 0 ≤ translationsToPixel S.objBasis normal (D.translations idx) c -
              (objectSetup q (translationsToPixel S.objBasis normal t0 c) (rest.map fun t => translationsToPixel S.objBasis normal t c)
                O.padding).2 := fun q c => by
            refine objectSetup_position_nonneg q _ _ _ (Int.natCast_nonneg _) _ ?_
            rcases List.mem_cons.1 hmem with h | h
            · rw [h]
              exact List.mem_cons_self
            · exact List.mem_cons_of_mem _ (List.mem_map.2 ⟨_, h, rfl⟩)
          simp only at hM
          split_ifs at hM
          split at hM
          · cases hM
          · cases hM
            unfold Multislice.pixTrans
            simp only [Pi.add_apply, Pi.sub_apply, Pi.smul_apply, Pi.zero_apply, smul_zero, add_zero]
            have h0 := hp (os * n) 0
            have h1 := hp (os * m) 1
            fin_cases x
            · exact h0
            · exact h1

/-- A new model with more padding simulates the exposures of its dataset as one with less. -/
theorem multislice_new_model_padding (D : FancyData n m N) (O : MultisliceOpts) (q os : ℕ) [NeZero os] [NeZero (os * n)] [NeZero (os * m)]
    (c : ℕ) [NeZero (os * n - 2 * c)] [NeZero (os * m - 2 * c)] (k : ℕ) (rp : Fin k → Wave (os * n - 2 * c) (os * m - 2 * c))
    (ro ro' : ℕ → ℕ → ℕ → ℝ) (hr : ∀ s, PaddedNumbers q (ro s) (ro' s))
    (M : Multislice (os * n - 2 * c) (os * m - 2 * c) (os * n) (os * m) N (k + 1)) (hM : multisliceFromDataset D O os c k rp ro = .ok M) :
    ∃ M', multisliceFromDataset D { O with padding := O.padding + q } os c k rp ro' = .ok M' ∧
      M'.slices.map (fun o => (o.h, o.w)) = M.slices.map (fun o => (o.h + 2 * q, o.w + 2 * q)) ∧
      ∀ idx Q, M.forward idx (D.translations idx) = .ok Q → M'.forward idx (D.translations idx) = .ok Q := by
  refine ⟨M.padded q fun s => (initialSlice O 0 0 (ro' s)).px, ?_, ?_, fun idx Q hQ => ?_⟩
  · rw [multislice_from_dataset_padded D O q os c k rp ro ro' hr, hM]
    rfl
  · unfold Multislice.padded
    refine List.ext_getElem (by simp) fun i h1 h2 => ?_
    simp [Img.padded]
  · exact multislice_forward_padded M q _ idx _ (multislice_from_dataset_positions D O os c k rp ro M hM idx) Q hQ

/-! ### Bragg2DPtycho -/

/-- `obj_padding=p + q` builds the model of `obj_padding=p` with `q` more pixels around the object. -/
theorem bragg_from_dataset_padded (D : FancyData n m N) (O : BraggOpts) (q os : ℕ) [NeZero os] [NeZero (os * n)]
    [NeZero (os * m)] (c e : ℕ) [NeZero (os * n - 2 * c)] [NeZero (os * m - 2 * e)] (k : ℕ) (rp : Fin k → Wave (os * n - 2 * c) (os * m - 2 * e))
    (ro ro' : ℕ → ℕ → ℝ) (hr : PaddedNumbers q ro ro') :
    braggFromDataset D { O with padding := O.padding + q } os c e k rp ro' = (braggFromDataset D O os c e k rp ro).map fun M =>
      M.padded q fun i j => Complex.exp (Complex.I * ((O.randomizeAng * (ro' i j - 0.5) : ℝ) : ℂ)) := by
  unfold braggFromDataset
  cases List.ofFn D.translations with
  | nil => rfl
  | cons t0 rest =>
    cases braggNormal O.surfaceNormal O.scatteringMode D.orientation D.detBasis with
    | error e => rfl
    | ok normal =>
      have hS1 : ∀ p B axis, (braggSetup p B t0 rest ((O.padding : ℤ) + q) axis).1.toNat = (braggSetup p B t0 rest O.padding axis).1.toNat + 2 * q :=
        fun p B axis => (objectSetup_pad _ _ _ _ q (Int.natCast_nonneg _)).1
      have hS2 : ∀ p B axis, (braggSetup p B t0 rest ((O.padding : ℤ) + q) axis).2 = (braggSetup p B t0 rest O.padding axis).2 - q :=
        fun p B axis => (objectSetup_pad _ _ _ _ q (Int.natCast_nonneg _)).2
      simp only [Except.map, Nat.cast_add, hS1, hS2, show D.braggTilt { O with padding := O.padding + q } os = D.braggTilt O os from rfl]
      split_ifs
      · rfl
      · rfl
      · refine congrArg Except.ok ?_
        unfold Bragg.padded Img.padded
        have hpx : ∀ h w : ℕ, (fun i j : ℕ => Complex.exp (Complex.I * ((O.randomizeAng * (ro' i j - 0.5) : ℝ) : ℂ))) = fun i j =>
            if q ≤ i ∧ i < q + h ∧ q ≤ j ∧ j < q + w then Complex.exp (Complex.I * ((O.randomizeAng * (ro (i - q) (j - q) - 0.5) : ℝ) : ℂ))
            else Complex.exp (Complex.I * ((O.randomizeAng * (ro' i j - 0.5) : ℝ) : ℂ)) := fun h w => by
          funext i j
          by_cases hc : q ≤ i ∧ i < q + h ∧ q ≤ j ∧ j < q + w
          · rw [if_pos hc, ← hr (i - q) (j - q), Nat.sub_add_cancel hc.1, Nat.sub_add_cancel hc.2.2.1]
          · rw [if_neg hc]
        congr 1
        · simp only [Img.mk.injEq, true_and]
          exact hpx _ _
        · ext i
          fin_cases i <;> rfl

theorem bragg_forward_padded (M : Bragg n m a b N k) (q : ℕ) (v : ℕ → ℕ → ℂ) (idx : Fin N) (t : Fin 3 → ℝ)
    (hpos : ∀ c, 0 ≤ M.pixTrans idx t c) (Q : Img ℝ) (hQ : M.forward idx t = .ok Q) : (M.padded q v).forward idx t = .ok Q := by
  have h0 : ∀ c, (M.padded q v).pixTrans idx t c = M.pixTrans idx t c + q := fun c => by
    unfold Bragg.pixTrans Bragg.padded
    cases M.offsets with
    | none =>
      simp only [Pi.sub_apply]
      ring
    | some o =>
      simp only [Pi.sub_apply, Pi.add_apply]
      ring
  unfold Bragg.forward at hQ ⊢
  rw [show (M.padded q v).weights = M.weights from rfl]
  cases hW : M.weights with
  | none => rw [hW] at hQ; cases hQ
  | some W =>
    rw [hW] at hQ
    simp only at hQ ⊢
    rw [h0, h0, Int.floor_add_natCast, Int.floor_add_natCast, show (M.padded q v).obj = M.obj.padded q v from rfl]
    cases hw : objWindow a b M.obj ⌊M.pixTrans idx t 0⌋ ⌊M.pixTrans idx t 1⌋ with
    | error e => rw [hw] at hQ; cases hQ
    | ok sel =>
      rw [objWindow_padded _ q v _ _ (Int.floor_nonneg.2 (hpos 0)) (Int.floor_nonneg.2 (hpos 1)) sel hw]
      rw [hw] at hQ
      simp only [sincApply_pad] at hQ ⊢
      exact hQ

/-- The exposures of a new model begin inside the object. -/
theorem bragg_from_dataset_positions (D : FancyData n m N) (O : BraggOpts) (os : ℕ) [NeZero os] [NeZero (os * n)]
    [NeZero (os * m)] (c e : ℕ) [NeZero (os * n - 2 * c)] [NeZero (os * m - 2 * e)] (k : ℕ) (rp : Fin k → Wave (os * n - 2 * c) (os * m - 2 * e))
    (ro : ℕ → ℕ → ℝ) (M : Bragg (os * n - 2 * c) (os * m - 2 * e) (os * n) (os * m) N (k + 1))
    (hM : braggFromDataset D O os c e k rp ro = .ok M) (idx : Fin N) (x : Fin 2) : 0 ≤ M.pixTrans idx (D.translations idx) x := by
  have hmem : D.translations idx ∈ List.ofFn D.translations := List.mem_ofFn.2 ⟨idx, rfl⟩
  unfold braggFromDataset at hM
  cases hl : List.ofFn D.translations with
  | nil => rw [hl] at hmem; cases hmem
  | cons t0 rest =>
    rw [hl] at hM hmem
    cases hn : braggNormal O.surfaceNormal O.scatteringMode D.orientation D.detBasis with
    | error e => rw [hn] at hM; cases hM
    | ok normal =>
      rw [hn] at hM
      simp only at hM
      split_ifs at hM
      cases hM
      have hp : ∀ q B (c : Fin 2), 0 ≤ (projectToSample B (D.translations idx)).1 c - (braggSetup q B t0 rest O.padding c).2 := fun q B c => by
        refine objectSetup_position_nonneg q _ _ _ (Int.natCast_nonneg _) _ ?_
        rcases List.mem_cons.1 hmem with h | h
        · rw [h]
          exact List.mem_cons_self
        · exact List.mem_cons_of_mem _ (List.mem_map.2 ⟨_, h, rfl⟩)
      unfold Bragg.pixTrans
      simp only [Pi.add_apply, Pi.sub_apply, Pi.smul_apply, Pi.zero_apply, smul_zero, add_zero]
      fin_cases x
      · exact hp _ _ 0
      · exact hp _ _ 1

/-- A new model with more padding simulates the exposures of its dataset as one with less. -/
theorem bragg_new_model_padding (D : FancyData n m N) (O : BraggOpts) (q os : ℕ) [NeZero os] [NeZero (os * n)]
    [NeZero (os * m)] (c e : ℕ) [NeZero (os * n - 2 * c)] [NeZero (os * m - 2 * e)] (k : ℕ) (rp : Fin k → Wave (os * n - 2 * c) (os * m - 2 * e))
    (ro ro' : ℕ → ℕ → ℝ) (hr : PaddedNumbers q ro ro') (M : Bragg (os * n - 2 * c) (os * m - 2 * e) (os * n) (os * m) N (k + 1))
    (hM : braggFromDataset D O os c e k rp ro = .ok M) :
    ∃ M', braggFromDataset D { O with padding := O.padding + q } os c e k rp ro' = .ok M' ∧
      M'.obj.h = M.obj.h + 2 * q ∧ M'.obj.w = M.obj.w + 2 * q ∧
      ∀ idx Q, M.forward idx (D.translations idx) = .ok Q → M'.forward idx (D.translations idx) = .ok Q := by
  refine ⟨M.padded q fun i j => Complex.exp (Complex.I * ((O.randomizeAng * (ro' i j - 0.5) : ℝ) : ℂ)), ?_, rfl, rfl, fun idx Q hQ => ?_⟩
  · rw [bragg_from_dataset_padded D O q os c e k rp ro ro' hr, hM]
    rfl
  · exact bragg_forward_padded M q _ idx _ (bragg_from_dataset_positions D O os c e k rp ro M hM idx) Q hQ

/-! ### A concrete case -/

/-- Three more pixels of padding for two exposures: ones around the numbers of the smaller object. -/
example (rp : Fin 1 → Wave (1 * 4 - 2 * 1) (1 * 4 - 2 * 1)) (ro : ℕ → ℕ → ℝ) :
    ∃ M M', fancyFromDataset toyFancyData {} 1 1 1 rp ro = .ok M ∧
      fancyFromDataset toyFancyData { padding := 203 } 1 1 1 rp (fun i j => if 3 ≤ i ∧ 3 ≤ j then ro (i - 3) (j - 3) else 1) = .ok M' ∧
      ∀ idx, ∃ Q, M.forward idx (toyFancyData.translations idx) = .ok Q ∧ M'.forward idx (toyFancyData.translations idx) = .ok Q := by
  have hM : ∃ M, fancyFromDataset toyFancyData {} 1 1 1 rp ro = .ok M := by
    unfold fancyFromDataset
    simp [FancyData.start, datasetNormal, initialWeights, fancyInit, toyFancyData]
  obtain ⟨M, hM⟩ := hM
  obtain ⟨E, peak, -, -, -, -, h4⟩ := initial_patterns_far toyFancyData toyFancyData_nonneg {} 1 1 rp ro M hM rfl rfl rfl rfl rfl
    (fun h => absurd rfl h) ⟨1, 1, by norm_num, by norm_num, by norm_num, by norm_num, by rw [toyFancyData_mean]; norm_num⟩
  have hr : PaddedNumbers 3 ro (fun i j => if 3 ≤ i ∧ 3 ≤ j then ro (i - 3) (j - 3) else 1) := fun i j => by simp
  obtain ⟨M', hM', -, -, h⟩ := new_model_padding toyFancyData {} 3 1 1 rp ro _ hr M hM
  refine ⟨M, M', hM, hM', fun idx => ?_⟩
  obtain ⟨Q, hQ, -⟩ := h4 idx
  exact ⟨Q, hQ, h idx Q hQ⟩

end Cdtools
