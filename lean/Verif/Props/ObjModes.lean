/-
C86: several object modes in `FancyPtycho`. C87: `ptycho_2D_sinc_s_matrix`.
-/
import Verif.Model.ObjModes
import Verif.Props.FancyForward
import Verif.Props.FancyOptions
import Verif.Props.Multislice2D

set_option linter.unusedSectionVars false

namespace Cdtools
open Finset

variable {n m a b N k : ℕ} [NeZero n] [NeZero m] [NeZero a] [NeZero b]

/-- What the detector of the model records of an intensity. -/
noncomputable def Fancy.recordImage (M : Fancy n m a b N k) (I : ℕ → ℕ → ℝ) : Img ℝ :=
  measQuadratic { saturation := M.saturation, oversampling := M.oversampling } M.background M.qe ⟨a, b, I⟩

/-- The intensity on the detector of the light of all modes of exposure `idx` after one window of an object. -/
noncomputable def Fancy.windowIntensity (M : Fancy n m a b N k) (idx : Fin N) (t : Fin 3 → ℝ) (sel : Wave a b)
    (x y : ℕ) : ℝ :=
  ∑ i, ‖M.toDetector idx t sel (shotProbes M.weights idx M.basisProbes i) x y‖ ^ 2

/-- The window of object `o` at exposure `idx`. -/
noncomputable def Fancy.windowOf (M : Fancy n m a b N k) (idx : Fin N) (t : Fin 3 → ℝ) (o : Img ℂ) :
    Except String (Wave a b) :=
  objWindow a b ({ M with obj := o } : Fancy n m a b N k).transmission ⌊M.pixTrans idx t 0⌋ ⌊M.pixTrans idx t 1⌋

/-- What a model with the single object `o` predicts. -/
theorem forward_single_object (M : Fancy n m a b N k) (o : Img ℂ) (idx : Fin N) (t : Fin 3 → ℝ)
    (hs : ¬ (M.simulateTranslation ∧ M.fourierShifts = none)) :
    ({ M with obj := o } : Fancy n m a b N k).forward idx t =
      (M.windowOf idx t o).map fun sel => M.recordImage (M.windowIntensity idx t sel) := by
  unfold Fancy.forward
  rw [if_neg hs]
  unfold Fancy.windowOf
  refine congrArg (fun f => Except.map f _) (funext fun sel => ?_)
  show measQuadratic _ _ _ (sumModes a b (List.ofFn _)) = _
  rw [sumModes_ofFn]
  rfl

theorem pairModes_one_probe {α β : Type} (x : α) (O : List β) : pairModes [x] O = .ok (O.map fun o => (x, o)) := by
  unfold pairModes
  split_ifs with h
  · match O, h with
    | [y], _ => rfl
  · rfl

theorem pairModes_one_object {α β : Type} (P : List α) (y : β) : pairModes P [y] = .ok (P.map fun x => (x, y)) := by
  unfold pairModes
  split_ifs with h
  · match P, h with
    | [x], _ => rfl
  · match P, h with
    | [], _ => rfl
    | x :: x' :: l, _ => rfl

theorem mapM_windows {α β : Type} {f : α → Except String β} {l : List α} {r : List β} (h : l.mapM f = .ok r) :
    r.length = l.length ∧ ∀ i (h1 : i < l.length) (h2 : i < r.length), f l[i] = .ok r[i] := by
  induction l generalizing r with
  | nil =>
    simp only [List.mapM_nil] at h
    cases h
    simp
  | cons x l ih =>
    rw [List.mapM_cons] at h
    cases hx : f x with
    | error e => rw [hx] at h; exact (nomatch h)
    | ok y =>
      rw [hx] at h
      cases hl : l.mapM f with
      | error e => rw [hl] at h; exact (nomatch h)
      | ok r' =>
        rw [hl] at h
        cases h
        obtain ⟨h1, h2⟩ := ih hl
        refine ⟨by simp [h1], ?_⟩
        rintro (_ | i) hi hi'
        · exact hx
        · exact h2 i _ _

/-- **C86** (one object): a stack of one object mode predicts what the object alone predicts. -/
theorem object_modes_one (M : Fancy n m a b N k) (o : Img ℂ) (idx : Fin N) (t : Fin 3 → ℝ) :
    M.forwardModes [o] idx t = ({ M with obj := o } : Fancy n m a b N k).forward idx t := by
  unfold Fancy.forwardModes Fancy.forward
  split_ifs with hs
  · rfl
  · simp only [List.mapM_cons, List.mapM_nil]
    have hp : ({ M with obj := o } : Fancy n m a b N k).pixTrans idx t = M.pixTrans idx t := rfl
    rw [hp]
    cases objWindow a b ({ M with obj := o } : Fancy n m a b N k).transmission ⌊M.pixTrans idx t 0⌋ ⌊M.pixTrans idx t 1⌋ with
    | error e => rfl
    | ok sel =>
      show (pairModes _ [sel]).map _ = _
      rw [pairModes_one_object]
      simp only [Except.map, List.map_map, List.map_ofFn]
      rfl

/-- **C86** (one probe mode): the pattern of a stack of object modes is the detector image of the sum of the intensities that
the single objects give: an incoherent mixture of the objects. -/
theorem object_modes_mixture (M : Fancy n m a b N k) (hr : M.weights.rank = 1) (objs : List (Img ℂ)) (idx : Fin N)
    (t : Fin 3 → ℝ) (Q : Img ℝ) (h : M.forwardModes objs idx t = .ok Q) :
    ∃ sels : List (Wave a b), objs.mapM (M.windowOf idx t) = .ok sels ∧
      Q = M.recordImage fun x y => (sels.map fun sel => M.windowIntensity idx t sel x y).sum := by
  unfold Fancy.forwardModes at h
  split_ifs at h with hs
  cases hm : objs.mapM (M.windowOf idx t) with
  | error e =>
    have hm' := hm
    unfold Fancy.windowOf at hm'
    simp only [hm', Except.bind, reduceCtorEq] at h
  | ok sels =>
    refine ⟨sels, rfl, ?_⟩
    have hm' := hm
    unfold Fancy.windowOf at hm'
    simp only [hm', Except.bind] at h
    have hl : List.ofFn (shotProbes M.weights idx M.basisProbes) =
        [shotProbes M.weights idx M.basisProbes (Fin.cast hr.symm 0)] := by
      refine List.ext_getElem (by simp [hr]) fun i h1 h2 => ?_
      simp only [List.length_cons, List.length_nil] at h2
      obtain rfl : i = 0 := by omega
      simp only [List.getElem_ofFn, List.getElem_cons_zero]
      rfl
    have hw : ∀ sel x y, M.windowIntensity idx t sel x y =
        ‖M.toDetector idx t sel (shotProbes M.weights idx M.basisProbes (Fin.cast hr.symm 0)) x y‖ ^ 2 := by
      intro sel x y
      unfold Fancy.windowIntensity
      refine Fintype.sum_eq_single _ fun j hj => absurd ?_ hj
      apply Fin.ext
      have := j.2
      simp only [Fin.val_cast, Fin.val_zero]
      omega
    rw [hl, pairModes_one_probe] at h
    simp only [Except.map, Except.ok.injEq, List.map_map] at h
    rw [← h]
    unfold Fancy.recordImage sumModes
    simp only [hw, List.map_map]
    rfl

/-- **C86** (as many object as probe modes): probe mode `i` sees object mode `i` only. -/
theorem object_modes_paired (M : Fancy n m a b N k) (objs : List (Img ℂ)) (hr : objs.length = M.weights.rank) (idx : Fin N)
    (t : Fin 3 → ℝ) (Q : Img ℝ) (h : M.forwardModes objs idx t = .ok Q) :
    ∃ sels : Fin M.weights.rank → Wave a b, (∀ i, M.windowOf idx t objs[i] = .ok (sels i)) ∧
      Q = M.recordImage fun x y => ∑ i, ‖M.toDetector idx t (sels i) (shotProbes M.weights idx M.basisProbes i) x y‖ ^ 2 := by
  unfold Fancy.forwardModes at h
  split_ifs at h with hs
  cases hm : objs.mapM (M.windowOf idx t) with
  | error e =>
    have hm' := hm
    unfold Fancy.windowOf at hm'
    simp only [hm', Except.bind, reduceCtorEq] at h
  | ok sels =>
    obtain ⟨h1, h2⟩ := mapM_windows hm
    refine ⟨fun i => sels[i.val]'(by rw [h1, hr]; exact i.2), fun i => h2 i.val _ _, ?_⟩
    have hm' := hm
    unfold Fancy.windowOf at hm'
    simp only [hm', Except.bind] at h
    unfold pairModes at h
    rw [if_pos (by rw [List.length_ofFn, h1, hr])] at h
    simp only [Except.map, Except.ok.injEq] at h
    rw [← h]
    have hz : (List.ofFn (shotProbes M.weights idx M.basisProbes)).zip sels =
        List.ofFn fun i : Fin M.weights.rank => (shotProbes M.weights idx M.basisProbes i,
          sels[i.val]'(by rw [h1, hr]; exact i.2)) := by
      refine List.ext_getElem (by simp [h1, hr]) fun i h1 h2 => ?_
      simp
    rw [hz, List.map_ofFn, sumModes_ofFn]
    rfl

/-- **C86, violated part**: with more than one probe mode and another number of object modes, more than one, there is no
prediction (RuntimeError). -/
theorem object_modes_mismatch_violated (M : Fancy n m a b N k) (objs : List (Img ℂ)) (h1 : objs.length ≠ M.weights.rank)
    (h2 : 2 ≤ objs.length) (h3 : M.weights.rank ≠ 1) (idx : Fin N) (t : Fin 3 → ℝ) :
    M.forwardModes objs idx t = .error "RuntimeError" := by
  unfold Fancy.forwardModes
  split_ifs with hs
  · rfl
  cases hm : objs.mapM (M.windowOf idx t) with
  | error e =>
    have he : e = "RuntimeError" := by
      clear h1 h2
      induction objs with
      | nil => exact (nomatch hm)
      | cons o l ih =>
        rw [List.mapM_cons] at hm
        cases ho : M.windowOf idx t o with
        | error e' =>
          rw [ho] at hm
          obtain rfl : e' = e := by injection hm
          unfold Fancy.windowOf objWindow at ho
          beta_reduce at ho
          dsimp only at ho
          split_ifs at ho
          injection ho with ho
          exact ho.symm
        | ok q =>
          rw [ho] at hm
          cases hl : l.mapM (M.windowOf idx t) with
          | error e'' =>
            simp only [hl, bind, Except.bind] at hm
            obtain rfl : e'' = e := by injection hm
            exact ih hl
          | ok q' => simp [hl, bind, Except.bind, pure, Except.pure] at hm
    have hm' := hm
    unfold Fancy.windowOf at hm'
    simp only [hm', Except.bind, he]
  | ok sels =>
    obtain ⟨hl, -⟩ := mapM_windows hm
    have hm' := hm
    unfold Fancy.windowOf at hm'
    simp only [hm', Except.bind]
    have hlp : (List.ofFn (shotProbes M.weights idx M.basisProbes)).length = M.weights.rank := List.length_ofFn
    generalize List.ofFn (shotProbes M.weights idx M.basisProbes) = P at hlp
    unfold pairModes
    rw [if_neg (by rw [hlp, hl]; exact fun e => h1 e.symm)]
    match P, sels with
    | [x], _ => simp at hlp; exact absurd hlp.symm h3
    | [], [y] => simp at hl; omega
    | _ :: _ :: _, [y] => simp at hl; omega
    | [], [] => rfl
    | [], _ :: _ :: _ => rfl
    | _ :: _ :: _, [] => rfl
    | _ :: _ :: _, _ :: _ :: _ => rfl

/-! ### C86: exchanging modes -/

/-- Two probe modes of one pixel, one of them dark, and an object of one pixel. -/
noncomputable def toyObjModes (p0 p1 : ℂ) : Fancy 1 1 1 1 1 2 where
  probe := fun j _ _ => if j = 0 then p0 else p1
  probeNorm := 1
  support := fun _ _ => true
  weights := .perShot fun _ => 1
  fourierProbe := false
  obj := ⟨1, 1, fun _ _ => 1⟩
  exponentiate := false
  phaseOnly := false
  nearField := false
  propagator := fun _ _ => 1
  objBasis := !![0, -1; -1, 0; 0, 0]
  detBasis := !![0, -1; -1, 0; 0, 0]
  normal := ![0, 0, 1]
  minTranslation := ![0, 0]
  translationScale := 1
  offsets := none
  fourierShifts := none
  simulateTranslation := false
  oversampling := 1
  background := ⟨1, 1, fun _ _ => 0⟩
  qe := none
  saturation := none

/-- The bright and the opaque object of one pixel. -/
def onePixel (z : ℂ) : Img ℂ := ⟨1, 1, fun _ _ => z⟩

theorem toyObjModes_pos (p0 p1 : ℂ) : (toyObjModes p0 p1).pixTrans 0 0 = ![((0 : ℕ) : ℝ), ((0 : ℕ) : ℝ)] := by
  unfold Fancy.pixTrans
  simp only [toyObjModes, translationsToPixel, Matrix.mulVec_zero]
  funext i; fin_cases i <;> simp

theorem toyObjModes_window (p0 p1 z : ℂ) : (toyObjModes p0 p1).windowOf 0 0 (onePixel z) = .ok fun _ _ => z := by
  unfold Fancy.windowOf
  rw [toyObjModes_pos]
  simp only [Matrix.cons_val_zero, Matrix.cons_val_one, Nat.cast_zero, Int.floor_zero]
  rw [objWindow_inside]
  · rfl
  all_goals simp [toyObjModes, Fancy.transmission, onePixel]

theorem toyObjModes_detector (p0 p1 z p : ℂ) (x y : ZMod 1) :
    (toyObjModes p0 p1).toDetector 0 0 (fun _ _ => z) (fun _ _ => p) x y = p * z := by
  unfold Fancy.toDetector
  have hr : ∀ x y, (toyObjModes p0 p1).ramp 0 0 x y = 1 := fun _ _ => rfl
  simp only [hr, mul_one]
  rw [padProbe_self, toyObjModes_pos]
  simp only [Matrix.cons_val_zero, Matrix.cons_val_one]
  have hb : (toyObjModes p0 p1).nearField = false := rfl
  rw [hb]
  have hp := pass_integer (n := 1) (m := 1) 0 0 ⟨true, fun _ _ => z⟩ (fun _ _ => p)
  simp only [Pass.run, if_true, Int.cast_zero] at hp
  simp only [Nat.cast_zero]
  rw [hp]
  unfold Fancy.propagate
  rw [hb]
  simp only [Bool.false_eq_true, if_false]
  have hn : ((toyObjModes p0 p1).probeNorm : ℂ) = 1 := by simp [toyObjModes]
  simp only [hn, one_mul]
  rw [far_field_unitary.2.2.2.2.2, if_pos ⟨Subsingleton.elim _ _, Subsingleton.elim _ _⟩]
  simp

theorem toyObjModes_forward (p0 p1 z0 z1 : ℂ) : ∃ Q, (toyObjModes p0 p1).forwardModes [onePixel z0, onePixel z1] 0 0 = .ok Q ∧
    Q.px 0 0 = ‖p0 * z0‖ ^ 2 + ‖p1 * z1‖ ^ 2 + 1e-7 := by
  have hm : [onePixel z0, onePixel z1].mapM ((toyObjModes p0 p1).windowOf 0 0) =
      .ok [(fun _ _ => z0 : Wave 1 1), fun _ _ => z1] := by
    simp only [List.mapM_cons, List.mapM_nil, toyObjModes_window]
    rfl
  have hf : ∃ Q, (toyObjModes p0 p1).forwardModes [onePixel z0, onePixel z1] 0 0 = .ok Q := by
    unfold Fancy.forwardModes
    rw [if_neg (by simp [toyObjModes])]
    unfold Fancy.windowOf at hm
    simp only [hm, Except.bind]
    exact ⟨_, rfl⟩
  obtain ⟨Q, hQ⟩ := hf
  refine ⟨Q, hQ, ?_⟩
  obtain ⟨sels, hs, rfl⟩ := object_modes_paired _ _ rfl 0 0 Q hQ
  have h0 := hs (0 : Fin 2)
  have h1 := hs (1 : Fin 2)
  have e0 : sels (0 : Fin 2) = fun _ _ => z0 := by
    have := (toyObjModes_window p0 p1 z0).symm.trans h0
    exact (Except.ok.inj this).symm
  have e1 : sels (1 : Fin 2) = fun _ _ => z1 := by
    have := (toyObjModes_window p0 p1 z1).symm.trans h1
    exact (Except.ok.inj this).symm
  have b0 : shotProbes (toyObjModes p0 p1).weights 0 (toyObjModes p0 p1).basisProbes (0 : Fin 2) = fun _ _ => p0 := by
    funext x y; simp [shotProbes, toyObjModes, Fancy.basisProbes]
  have b1 : shotProbes (toyObjModes p0 p1).weights 0 (toyObjModes p0 p1).basisProbes (1 : Fin 2) = fun _ _ => p1 := by
    funext x y; simp [shotProbes, toyObjModes, Fancy.basisProbes]
  have hrec : ∀ I : ℕ → ℕ → ℝ, ((toyObjModes p0 p1).recordImage I).px 0 0 = I 0 0 + 1e-7 := by
    intro I
    simp [Fancy.recordImage, measQuadratic, readOut, saturate, toyObjModes, Img.zip, Img.map, cutSlice, binPixels]
  rw [hrec]
  congr 1
  show ∑ i : Fin 2, _ = _
  rw [Fin.sum_univ_two, e0, e1, b0, b1, toyObjModes_detector, toyObjModes_detector]

/-- **C86, violated part**: exchanging the two probe modes, which does not change the light, changes the prediction of a model
with two object modes. -/
theorem object_modes_order_violated :
    ∃ Q Q' : Img ℝ, (toyObjModes 1 0).forwardModes [onePixel 1, onePixel 0] 0 0 = .ok Q ∧
      (toyObjModes 0 1).forwardModes [onePixel 1, onePixel 0] 0 0 = .ok Q' ∧ Q.px 0 0 = 1 + 1e-7 ∧ Q'.px 0 0 = 1e-7 := by
  obtain ⟨Q, h, e⟩ := toyObjModes_forward 1 0 1 0
  obtain ⟨Q', h', e'⟩ := toyObjModes_forward 0 1 1 0
  refine ⟨Q, Q', h, h', ?_, ?_⟩
  · rw [e]; simp
  · rw [e']; simp

/-! ### C86: initial guess -/

/-- **C86** (initial guess): the object of `from_dataset` has `n_obj_modes` modes (at least one) of the shape of the first;
the transmission of the additional modes is 0.05 everywhere, but, **violating** that they are weak, of modulus 1 for
exponentiated objects. -/
theorem object_modes_initial (first : Img ℂ) (c : ℤ) (hc : c ≠ 1) :
    ∃ l, initialObjModes first c = .inr l ∧ (l.length : ℤ) = max 1 c ∧ l.head? = some first ∧
      ∀ o ∈ l.tail, (o.h = first.h ∧ o.w = first.w) ∧ ∀ M : Fancy n m a b N k, ∀ i j,
        ‖(({ M with obj := o } : Fancy n m a b N k).transmission).px i j‖ = if M.exponentiate then 1 else 0.05 := by
  refine ⟨first :: List.replicate (c - 1).toNat ⟨first.h, first.w, fun _ _ => (0.05 : ℂ)⟩, ?_, ?_, rfl, ?_⟩
  · unfold initialObjModes
    rw [if_pos hc]
  · simp only [List.length_cons, List.length_replicate]
    push_cast
    omega
  · intro o ho
    rw [List.tail_cons, List.mem_replicate] at ho
    obtain ⟨-, rfl⟩ := ho
    refine ⟨⟨rfl, rfl⟩, fun M i j => ?_⟩
    unfold Fancy.transmission
    have h5 : (0.05 : ℂ) = ((0.05 : ℝ) : ℂ) := by norm_num
    cases he : M.exponentiate with
    | false =>
      simp only [Bool.false_eq_true, if_false]
      rw [h5, Complex.norm_real]
      norm_num
    | true =>
      simp only [if_true]
      split_ifs
      · simp only [Img.map]
        rw [mul_comm, Complex.norm_exp_ofReal_mul_I]
      · simp only [Img.map]
        rw [h5, mul_comm, Complex.norm_exp_ofReal_mul_I]

/-! ### C87 -/

/-- **C87 is violated**: for every probe with more than two pixels along the second axis, or with neither one nor as many
pixels along the first as along the second, `ptycho_2D_sinc_s_matrix` raises RuntimeError; otherwise the result has
a third axis. It never has the shape of an exit wave. -/
theorem s_matrix_violated (h w s0 s1 : ℕ) (hs : 0 < s0 ∧ 0 < s1) :
    (sMatrixShape true h w s0 s1 = .error .runtimeError ↔ ¬ ((w = 1 ∨ w = 2) ∧ (h = 1 ∨ h = w))) ∧
    (∀ x y, sMatrixShape true h w s0 s1 ≠ .ok [x, y]) ∧ sMatrixShape false h w s0 s1 = .error .notImplementedError ∧
    ((w = 1 ∨ w = 2) ∧ (h = 1 ∨ h = w) → sMatrixShape true h w s0 s1 = .ok [h + 2 * (s0 / 2), w + 2 * (s0 / 2), 2]) := by
  have key : broadcastShapes [h, w, 2] [h, w] = some [h, w, 2] ↔ (w = 1 ∨ w = 2) ∧ (h = 1 ∨ h = w) := by
    unfold broadcastShapes
    simp only [List.reverse_cons, List.reverse_nil, List.nil_append, List.cons_append]
    simp only [bcRev]
    by_cases h1 : w = 2 <;> by_cases h2 : w = 1 <;> by_cases h3 : h = w <;> by_cases h4 : h = 1 <;>
      simp [bcDim, h1, h2, h3, h4, eq_comm] <;> first | omega | (subst_vars; simp_all [eq_comm]) | skip
  refine ⟨?_, ?_, rfl, fun hk => if_pos (Or.inr (Or.inr (key.2 hk)))⟩
  · unfold sMatrixShape
    simp only [if_true]
    rw [← key]
    constructor
    · intro e
      split_ifs at e with hc
      exact fun hk => hc (Or.inr (Or.inr hk))
    · intro e
      rw [if_neg]
      rintro (h | h | h)
      · omega
      · omega
      · exact e h
  · intro x y e
    unfold sMatrixShape at e
    simp only [if_true] at e
    split_ifs at e
    simp at e

/-! ### Non-vacuity -/

/-- Two object modes with two probe modes, and with one probe mode: the predictions exist. -/
example : ∃ Q, (toyObjModes 1 2).forwardModes [onePixel 1, onePixel 3] 0 0 = .ok Q ∧ Q.px 0 0 = 37 + 1e-7 := by
  obtain ⟨Q, h, e⟩ := toyObjModes_forward 1 2 1 3
  refine ⟨Q, h, ?_⟩
  rw [e]
  norm_num

example : ∃ M : Fancy 1 1 1 1 1 2, M.weights.rank = 1 ∧ ∃ Q, M.forwardModes [onePixel 1, onePixel 3] 0 0 = .ok Q := by
  refine ⟨{ toyObjModes 1 2 with weights := .matrices 1 fun _ => Matrix.of fun _ _ => 1 }, rfl, ?_⟩
  have hm : [onePixel 1, onePixel 3].mapM (Fancy.windowOf
      { toyObjModes 1 2 with weights := .matrices 1 fun _ => Matrix.of fun _ _ => 1 } 0 0) =
      .ok [(fun _ _ => 1 : Wave 1 1), fun _ _ => 3] := by
    have e : ∀ z, Fancy.windowOf { toyObjModes 1 2 with weights := .matrices 1 fun _ => Matrix.of fun _ _ => 1 } 0 0
        (onePixel z) = .ok fun _ _ => z := toyObjModes_window 1 2
    simp only [List.mapM_cons, List.mapM_nil, e]
    rfl
  unfold Fancy.forwardModes
  rw [if_neg (by simp [toyObjModes])]
  unfold Fancy.windowOf at hm
  simp only [hm, Except.bind]
  exact ⟨_, rfl⟩

end Cdtools
