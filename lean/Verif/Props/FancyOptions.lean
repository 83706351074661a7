/-
**C53**: the options of `FancyPtycho`: loss names, density-matrix rank, weights scaled by the measured
intensities, the crop of the displayed object.
-/
import Verif.Props.TidyProbes

set_option linter.unusedSectionVars false

namespace Cdtools
open Finset Matrix

variable {n m a b N k : ℕ} [NeZero n] [NeZero m] [NeZero a] [NeZero b]

/-! ### Specification -/

/-- The documented names of the losses. -/
def lossNames : LossKind → List String
  | .amplitudeMse => ["amplitude mse", "amplitude_mse"]
  | .poissonNll => ["poisson nll", "poisson_nll"]
  | .intensityMse => ["intensity mse", "intensity_mse"]

/-- `s` is a name of the loss `l`, up to upper case and surrounding white space. -/
def NamesLoss (s : List Char) (l : LossKind) : Prop :=
  ∃ pre core post name, s = pre ++ core ++ post ∧ (∀ c ∈ pre, c.isWhitespace = true) ∧
    (∀ c ∈ post, c.isWhitespace = true) ∧ name ∈ lossNames l ∧ core.map Char.toLower = name.toList

/-! ### Loss names -/

theorem isSpace_lowerChar (c : Char) : isSpace (lowerChar c) = isSpace c := by
  unfold isSpace lowerChar Char.toLower
  split_ifs with h
  · obtain ⟨h1, h2⟩ := h
    have e1 : c.isWhitespace = false := by
      simp only [Char.isWhitespace, Bool.or_eq_false_iff, decide_eq_false_iff_not]
      refine ⟨⟨⟨?_, ?_⟩, ?_⟩, ?_⟩ <;> (rintro rfl; revert h1 h2; decide)
    rw [e1]
    simp only [Char.isWhitespace, Bool.or_eq_false_iff, decide_eq_false_iff_not]
    refine ⟨⟨⟨?_, ?_⟩, ?_⟩, ?_⟩ <;>
    · intro h3
      have h4 := congrArg Char.val h3
      simp only at h4
      have h5 : 65 ≤ c.val.toNat := h1
      have h6 : c.val.toNat ≤ 90 := h2
      have h7 := congrArg UInt32.toNat h4
      rw [UInt32.toNat_add] at h7
      revert h7
      generalize c.val.toNat = v at *
      show (v + (UInt32.toNat _)) % 2 ^ 32 = _ → False
      intro h7
      simp at h7
      omega
  · rfl

theorem normalizeName_eq_iff (s t : List Char) (c d : Char) (hc : t.head? = some c) (hd : t.getLast? = some d)
    (hcs : isSpace c = false) (hds : isSpace d = false) :
    normalizeName s = t ↔ ∃ pre core post, s = pre ++ core ++ post ∧ (∀ x ∈ pre, isSpace x = true) ∧
      (∀ x ∈ post, isSpace x = true) ∧ core.map lowerChar = t := by
  unfold normalizeName
  constructor
  · intro h
    set L := s.map lowerChar with hL
    set D := L.dropWhile isSpace with hD
    have h1 : L = L.takeWhile isSpace ++ D := (List.takeWhile_append_dropWhile).symm
    have h2 : D = t ++ (D.reverse.takeWhile isSpace).reverse := by
      rw [← h, ← List.reverse_append, List.takeWhile_append_dropWhile, List.reverse_reverse]
    have h3 : s.map lowerChar = (L.takeWhile isSpace ++ t) ++ (D.reverse.takeWhile isSpace).reverse := by
      rw [List.append_assoc, ← h2, ← hL]; exact h1
    obtain ⟨s1, post, rfl, e1, e2⟩ := List.map_eq_append_iff.1 h3
    obtain ⟨pre, core, rfl, e3, e4⟩ := List.map_eq_append_iff.1 e1
    refine ⟨pre, core, post, rfl, ?_, ?_, e4⟩
    · intro x hx
      have : lowerChar x ∈ L.takeWhile isSpace := by rw [← e3]; exact List.mem_map_of_mem hx
      rw [← isSpace_lowerChar]
      exact List.all_eq_true.1 List.all_takeWhile _ this
    · intro x hx
      have : lowerChar x ∈ (D.reverse.takeWhile isSpace).reverse := by rw [← e2]; exact List.mem_map_of_mem hx
      rw [List.mem_reverse] at this
      rw [← isSpace_lowerChar]
      exact List.all_eq_true.1 List.all_takeWhile _ this
  · rintro ⟨pre, core, post, rfl, hpre, hpost, rfl⟩
    have hall : ∀ l : List Char, (∀ x ∈ l, isSpace x = true) → ∀ x ∈ l.map lowerChar, isSpace x = true := by
      intro l hl x hx
      obtain ⟨y, hy, rfl⟩ := List.mem_map.1 hx
      rw [isSpace_lowerChar]; exact hl y hy
    rw [List.map_append, List.map_append, List.append_assoc,
      List.dropWhile_append_of_pos (hall _ hpre)]
    set t := core.map lowerChar
    obtain ⟨t1, ht1⟩ : ∃ t1, t = c :: t1 := by
      cases h : t with
      | nil => rw [h] at hc; cases hc
      | cons x xs => rw [h] at hc; simp only [List.head?_cons, Option.some.injEq] at hc; exact ⟨xs, by rw [hc]⟩
    have e1 : (t ++ post.map lowerChar).dropWhile isSpace = t ++ post.map lowerChar := by
      rw [ht1, List.cons_append, List.dropWhile_cons_of_neg (by rw [hcs]; simp)]
    rw [e1, List.reverse_append, List.dropWhile_append_of_pos (by
      intro x hx; exact hall _ hpost x (List.mem_reverse.1 hx))]
    obtain ⟨t2, ht2⟩ : ∃ t2, t.reverse = d :: t2 := by
      rw [← List.head?_reverse] at hd
      cases h : t.reverse with
      | nil => rw [h] at hd; cases hd
      | cons x xs => rw [h] at hd; simp only [List.head?_cons, Option.some.injEq] at hd; exact ⟨xs, by rw [hd]⟩
    rw [ht2, List.dropWhile_cons_of_neg (by rw [hds]; simp), ← ht2, List.reverse_reverse]

theorem normalizeName_names (s : List Char) (l : LossKind) :
    (∃ name ∈ lossNames l, normalizeName s = name.toList) ↔ NamesLoss s l := by
  have key : ∀ name ∈ lossNames l, normalizeName s = name.toList ↔
      ∃ pre core post, s = pre ++ core ++ post ∧ (∀ x ∈ pre, isSpace x = true) ∧
      (∀ x ∈ post, isSpace x = true) ∧ core.map lowerChar = name.toList := by
    intro name hname
    cases l <;>
    · simp only [lossNames, List.mem_cons, List.not_mem_nil, or_false] at hname
      rcases hname with rfl | rfl <;> exact normalizeName_eq_iff s _ _ _ rfl rfl (by decide) (by decide)
  unfold NamesLoss
  constructor
  · rintro ⟨name, h1, h2⟩
    obtain ⟨pre, core, post, e1, e2, e3, e4⟩ := (key name h1).1 h2
    exact ⟨pre, core, post, name, e1, e2, e3, h1, e4⟩
  · rintro ⟨pre, core, post, name, e1, e2, e3, h1, e4⟩
    exact ⟨name, h1, (key name h1).2 ⟨pre, core, post, e1, e2, e3, e4⟩⟩

/-- **C53** (losses): the constructor accepts exactly the documented names, in any case and with surrounding
white space, and gives the loss of that name; every other string raises KeyError. -/
theorem loss_dispatch (s : List Char) :
    (∀ l, lossOf s = .ok l ↔ NamesLoss s l) ∧ (∀ e, lossOf s = .error e ↔ e = .keyError ∧ ∀ l, ¬NamesLoss s l) := by
  have h : ∀ l, lossOf s = .ok l ↔ NamesLoss s l := by
    intro l
    rw [← normalizeName_names]
    unfold lossOf
    simp only
    generalize normalizeName s = t
    have hm : (∃ name ∈ lossNames l, t = name.toList) ↔ match l with
        | .amplitudeMse => t = "amplitude mse".toList ∨ t = "amplitude_mse".toList
        | .poissonNll => t = "poisson nll".toList ∨ t = "poisson_nll".toList
        | .intensityMse => t = "intensity mse".toList ∨ t = "intensity_mse".toList := by
      cases l <;> constructor
      all_goals first
        | (rintro (rfl | rfl)
           · exact ⟨_, List.mem_cons_self, rfl⟩
           · exact ⟨_, List.mem_cons_of_mem _ List.mem_cons_self, rfl⟩)
        | (rintro ⟨name, hn, rfl⟩
           rcases List.mem_cons.1 hn with rfl | hn
           · exact Or.inl rfl
           · rcases List.mem_cons.1 hn with rfl | hn
             · exact Or.inr rfl
             · exact absurd hn (List.not_mem_nil))
    rw [hm]
    have hab : (t = "amplitude mse".toList ∨ t = "amplitude_mse".toList) →
        ¬(t = "poisson nll".toList ∨ t = "poisson_nll".toList) ∧ ¬(t = "intensity mse".toList ∨ t = "intensity_mse".toList) := by
      rintro (rfl | rfl) <;> decide
    have hbc : (t = "poisson nll".toList ∨ t = "poisson_nll".toList) →
        ¬(t = "intensity mse".toList ∨ t = "intensity_mse".toList) := by
      rintro (rfl | rfl) <;> decide
    by_cases hA : (t = "amplitude mse".toList ∨ t = "amplitude_mse".toList)
    · rw [if_pos hA]
      cases l
      · exact ⟨fun _ => hA, fun _ => rfl⟩
      · exact ⟨fun h => (nomatch h), fun h => absurd h (hab hA).1⟩
      · exact ⟨fun h => (nomatch h), fun h => absurd h (hab hA).2⟩
    rw [if_neg hA]
    by_cases hB : (t = "poisson nll".toList ∨ t = "poisson_nll".toList)
    · rw [if_pos hB]
      cases l
      · exact ⟨fun h => (nomatch h), fun h => absurd h hA⟩
      · exact ⟨fun _ => hB, fun _ => rfl⟩
      · exact ⟨fun h => (nomatch h), fun h => absurd h (hbc hB)⟩
    rw [if_neg hB]
    by_cases hC : (t = "intensity mse".toList ∨ t = "intensity_mse".toList)
    · rw [if_pos hC]
      cases l
      · exact ⟨fun h => (nomatch h), fun h => absurd h hA⟩
      · exact ⟨fun h => (nomatch h), fun h => absurd h hB⟩
      · exact ⟨fun _ => hC, fun _ => rfl⟩
    rw [if_neg hC]
    cases l
    · exact ⟨fun h => (nomatch h), fun h => absurd h hA⟩
    · exact ⟨fun h => (nomatch h), fun h => absurd h hB⟩
    · exact ⟨fun h => (nomatch h), fun h => absurd h hC⟩
  refine ⟨h, fun e => ?_⟩
  simp only [← h]
  constructor
  · intro he
    refine ⟨?_, fun l hl => by rw [he] at hl; cases hl⟩
    unfold lossOf at he
    simp only at he
    split_ifs at he
    exact (Except.error.inj he).symm
  · rintro ⟨rfl, hno⟩
    cases hl : lossOf s with
    | ok l => exact absurd hl (hno l)
    | error e =>
      unfold lossOf at hl
      simp only at hl
      split_ifs at hl
      exact hl.symm

example : lossOf "  Poisson NLL ".toList = .ok .poissonNll ∧ lossOf "poisson".toList = .error .keyError := by
  decide

/-! ### Density-matrix rank -/

/-- **C53** (`dm_rank`): None and 0 give one unit weight per exposure (all `k` modes, incoherently); a rank
above the number of modes is a KeyError; -1 means `k`; a rank `1 ≤ r ≤ k` gives `r × k` matrices with which
every exposure initially sees exactly the first `r` basis modes. -/
theorem dm_rank_dispatch (N k : ℕ) (d : Option ℤ) (W : Weights N k) :
    (d = none ∨ d = some 0 → initialWeights N k d = .ok (.perShot fun _ => 1)) ∧
    (∀ r, d = some r → r > k → initialWeights N k d = .error .keyError) ∧
    (∀ r, d = some r → r ≠ 0 → (r : ℤ) ≤ k → -1 ≤ r → initialWeights N k d = .ok W →
      ∃ (r' : ℕ) (V : Fin N → Matrix (Fin r') (Fin k) ℂ) (hk : r' ≤ k), W = .matrices r' V ∧
        (r' : ℤ) = (if r = -1 then (k : ℤ) else r) ∧
        ∀ {n m : ℕ} [NeZero n] [NeZero m] (basis : Fin k → Wave n m) (idx : Fin N) (i : Fin r'),
          shotProbes (.matrices r' V) idx basis i = basis (Fin.castLE hk i)) ∧
    (∀ r, d = some r → r ≠ 0 → (r : ℤ) ≤ k → -1 ≤ r → ∃ W', initialWeights N k d = .ok W') := by
  refine ⟨?_, ?_, ?_, ?_⟩
  · rintro (rfl | rfl)
    · rfl
    · simp only [initialWeights, ne_eq, not_true_eq_false, if_false]
  · rintro r rfl hr
    simp only [initialWeights]
    rw [if_pos (by omega), if_pos hr]
  · rintro r rfl h0 hk h1 hW
    simp only [initialWeights] at hW
    rw [if_pos h0, if_neg (by omega)] at hW
    have hpos : 0 ≤ (if r = -1 then (k : ℤ) else r) := by split_ifs <;> omega
    rw [if_neg (by omega)] at hW
    have hle : (if r = -1 then (k : ℤ) else r).toNat ≤ k := by split_ifs <;> omega
    refine ⟨_, _, hle, (Except.ok.inj hW).symm, Int.toNat_of_nonneg hpos, ?_⟩
    intro n m _ _ basis idx i
    funext x y
    simp only [shotProbes, Matrix.of_apply]
    rw [sum_eq_single (Fin.castLE hle i)]
    · simp
    · intro j _ hj
      rw [if_neg (by intro h; apply hj; ext; exact h.symm), zero_mul]
    · intro h; exact absurd (mem_univ _) h
  · rintro r rfl h0 hk h1
    simp only [initialWeights]
    rw [if_pos h0, if_neg (by omega), if_neg (by split_ifs <;> omega)]
    exact ⟨_, rfl⟩

/-- **C53** (violated in the error class): a rank below -1 is not rejected with the documented KeyError; it
fails later with the RuntimeError of a negative tensor size. -/
theorem dm_rank_negative_violated (N k : ℕ) (r : ℤ) (h : r < -1) :
    initialWeights N k (some r) = .error .runtimeError := by
  simp only [initialWeights]
  rw [if_pos (by omega), if_neg (by omega), if_pos (by split_ifs <;> omega)]

example : ∃ W, initialWeights 3 4 (some 2) = .ok W := (dm_rank_dispatch 3 4 (some 2) (.perShot 0)).2.2.2 2 rfl
  (by decide) (by decide) (by decide)

/-! ### Scaling by the measured intensities -/

/-- **C53** (`dataset.intensities`): when the dataset has non-negative, not all vanishing intensities, the
power of every exposure is scaled in proportion to its intensity, with one common factor chosen such that
the amplitudes average to one. -/
theorem weights_scaled_by_intensities (I : Fin N → ℝ) (hI : ∀ i, 0 ≤ I i) (hne : ∃ i, I i ≠ 0) :
    ∃ c : ℝ, 0 < c ∧ (∑ i, Real.sqrt (c * I i)) / N = 1 ∧
      ∀ (W : Weights N k) (P : Fin k → Wave n m) (i : Fin N),
        stackPower (shotProbes (scaleWeights (some I) W) i P) = c * I i * stackPower (shotProbes W i P) := by
  obtain ⟨i0, hi0⟩ := hne
  have hN : (0 : ℝ) < N := by exact_mod_cast Fin.pos i0
  have hsum : 0 < ∑ i, Real.sqrt (I i) :=
    sum_pos' (fun i _ => Real.sqrt_nonneg _) ⟨i0, mem_univ _, Real.sqrt_pos.2 (lt_of_le_of_ne (hI i0) hi0.symm)⟩
  set μ := (∑ i, Real.sqrt (I i)) / N with hμ
  have hμ0 : 0 < μ := div_pos hsum hN
  refine ⟨(1 / μ) ^ 2, by positivity, ?_, ?_⟩
  · have : ∀ i, Real.sqrt ((1 / μ) ^ 2 * I i) = 1 / μ * Real.sqrt (I i) := fun i => by
      rw [Real.sqrt_mul (by positivity), Real.sqrt_sq (by positivity)]
    simp only [this, ← mul_sum]
    rw [mul_div_assoc, ← hμ, one_div, inv_mul_cancel₀ hμ0.ne']
  · intro W P i
    have hsq : (Real.sqrt (I i) / μ) ^ 2 = (1 / μ) ^ 2 * I i := by
      rw [div_pow, Real.sq_sqrt (hI i)]; ring
    have hpow : ∀ (q : Wave n m), power (fun x y => ((Real.sqrt (I i) / μ : ℝ) : ℂ) * q x y) = (1 / μ) ^ 2 * I i * power q := by
      intro q
      unfold power
      rw [mul_sum]
      refine sum_congr rfl fun x _ => ?_
      rw [mul_sum]
      refine sum_congr rfl fun y _ => ?_
      rw [norm_mul, mul_pow, Complex.norm_real, Real.norm_eq_abs, sq_abs, hsq]
    cases W with
    | perShot w =>
      unfold stackPower
      rw [mul_sum]
      refine sum_congr rfl fun j _ => ?_
      rw [← hpow]
      congr 1
      funext x y
      simp only [shotProbes, scaleWeights]
      rw [← hμ]
      push_cast
      ring
    | matrices r V =>
      unfold stackPower
      rw [mul_sum]
      refine sum_congr rfl fun j _ => ?_
      rw [← hpow]
      congr 1
      funext x y
      simp only [shotProbes, scaleWeights, Matrix.of_apply]
      rw [mul_sum]
      refine sum_congr rfl fun l _ => ?_
      have : (Matrix.of fun a b => V i a b * ((Real.sqrt (I i) / μ : ℝ) : ℂ)) j l = V i j l * ((Real.sqrt (I i) / μ : ℝ) : ℂ) := rfl
      rw [← hμ, this]
      ring

/-- Without intensities the weights are not touched. -/
theorem weights_unscaled (W : Weights N k) : scaleWeights none W = W := rfl

/-! ### The displayed part of the object -/

theorem sliceExtent_crop (L : ℕ) (c : ℤ) (hc : 0 < c) :
    (sliceExtent L c (-c)).1 = min c.toNat L ∧ ((sliceExtent L c (-c)).2 : ℤ) = max 0 (L - 2 * c) := by
  unfold sliceExtent sliceBound
  simp only
  rw [if_neg (by omega), if_pos (by omega)]
  omega

/-- **C53** (view of the object): the displayed part of an `H × W` object has, on every axis, the extent that
remains after removing the crop on both sides (the whole axis when the crop is not positive). -/
theorem object_view_shape (c : ℤ) (H W : ℕ) :
    ∃ h w : ℕ, objViewShape c [H, W] = [h, w] ∧ (h : ℤ) = max 0 (H - 2 * max 0 c) ∧
      (w : ℤ) = max 0 (W - 2 * max 0 c) ∧ h ≤ H ∧ w ≤ W := by
  unfold objViewShape
  split_ifs with hc
  · have h1 := (sliceExtent_crop H c hc).2
    have h2 := (sliceExtent_crop W c hc).2
    exact ⟨_, _, rfl, by omega, by omega, by omega, by omega⟩
  · exact ⟨H, W, rfl, by omega, by omega, by omega, by omega⟩

/-- **C53** (default view): for the object of `calc_object_setup` with non-negative padding, a negative crop
`-e` (or none, `e = 0`) shows the scanned range of every axis, `⌈range⌉ + p - 2 (min(p0, p1) // 2)` pixels,
and `e` pixels more on every side as long as these exist. `p` is the probe after Fourier cropping, so the
setup used a probe of `p + 2 pfc`. -/
theorem default_object_view (p0 p1 pfc : ℕ) (padding : ℤ) (hp : 0 ≤ padding) (e : ℤ) (he : 0 ≤ e)
    (heh : e < ((min p0 p1 / 2 : ℕ) : ℤ) + pfc + padding)
    (x0 x1 : ℝ) (l0 l1 : List ℝ) (H W : ℕ) (hH : (H : ℤ) = (objectSetup (p0 + 2 * pfc) x0 l0 padding).1)
    (hW : (W : ℤ) = (objectSetup (p1 + 2 * pfc) x1 l1 padding).1) :
    ∃ h w : ℕ, objViewShape (objViewCrop p0 p1 pfc (if e = 0 then none else some (-e)) padding) [H, W] = [h, w] ∧
      (h : ℤ) = max 0 (⌈maxList x0 l0 - minList x0 l0⌉ + p0 - 2 * (min p0 p1 / 2 : ℕ) + 2 * e) ∧
      (w : ℤ) = max 0 (⌈maxList x1 l1 - minList x1 l1⌉ + p1 - 2 * (min p0 p1 / 2 : ℕ) + 2 * e) := by
  have hcrop : objViewCrop p0 p1 pfc (if e = 0 then none else some (-e)) padding =
      ((min p0 p1 / 2 : ℕ) : ℤ) + pfc + padding - e := by
    unfold objViewCrop
    by_cases h : e = 0
    · simp [h]
    · simp only [h, if_false]
      rw [if_pos (by omega)]; ring
  obtain ⟨h, w, e1, e2, e3, -⟩ := object_view_shape (objViewCrop p0 p1 pfc (if e = 0 then none else some (-e)) padding) H W
  refine ⟨h, w, e1, ?_, ?_⟩
  · rw [e2, hcrop, max_eq_right (a := (0 : ℤ)) (b := ((min p0 p1 / 2 : ℕ) : ℤ) + pfc + padding - e) (by omega), hH]
    unfold objectSetup
    generalize min p0 p1 / 2 = q
    push_cast
    congr 1
    ring
  · rw [e3, hcrop, max_eq_right (a := (0 : ℤ)) (b := ((min p0 p1 / 2 : ℕ) : ℤ) + pfc + padding - e) (by omega), hW]
    unfold objectSetup
    generalize min p0 p1 / 2 = q
    push_cast
    congr 1
    ring

/-- **C53** (explicit view): a crop `e` that is not negative removes the padding and `e` pixels on every side, so that `e = 0`
shows the part of the object that is illuminated, whatever the padding. -/
theorem explicit_object_view (p0 p1 pfc : ℕ) (padding : ℤ) (hp : 0 ≤ padding) (e : ℤ) (he : 0 ≤ e)
    (x0 x1 : ℝ) (l0 l1 : List ℝ) (H W : ℕ) (hH : (H : ℤ) = (objectSetup (p0 + 2 * pfc) x0 l0 padding).1)
    (hW : (W : ℤ) = (objectSetup (p1 + 2 * pfc) x1 l1 padding).1) :
    ∃ h w : ℕ, objViewShape (objViewCrop p0 p1 pfc (some e) padding) [H, W] = [h, w] ∧
      (h : ℤ) = max 0 ((objectSetup (p0 + 2 * pfc) x0 l0 0).1 - 2 * e) ∧
      (w : ℤ) = max 0 ((objectSetup (p1 + 2 * pfc) x1 l1 0).1 - 2 * e) := by
  have hcrop : objViewCrop p0 p1 pfc (some e) padding = e + padding := by
    unfold objViewCrop
    simp only
    rw [if_neg (by omega)]
  obtain ⟨h, w, e1, e2, e3, -⟩ := object_view_shape (objViewCrop p0 p1 pfc (some e) padding) H W
  refine ⟨h, w, e1, ?_, ?_⟩
  · rw [e2, hcrop, max_eq_right (a := (0 : ℤ)) (b := e + padding) (by omega), hH]
    unfold objectSetup
    push_cast
    congr 1
    ring
  · rw [e3, hcrop, max_eq_right (a := (0 : ℤ)) (b := e + padding) (by omega), hW]
    unfold objectSetup
    push_cast
    congr 1
    ring

/-- **C53** (violated): for a scan along one axis only (no motion along axis 0) with an even square probe, the
default view is empty. -/
theorem default_object_view_empty_violated (p pfc : ℕ) (hp0 : 0 < p) (hp : Even p) (padding : ℤ) (hpad : 0 ≤ padding)
    (x1 : ℝ) (l1 : List ℝ) (t0 : ℝ) (H W : ℕ) (hH : (H : ℤ) = (objectSetup (p + 2 * pfc) t0 (l1.map fun _ => t0) padding).1)
    (hW : (W : ℤ) = (objectSetup (p + 2 * pfc) x1 l1 padding).1) :
    ∃ w : ℕ, objViewShape (objViewCrop p p pfc none padding) [H, W] = [0, w] := by
  obtain ⟨q, rfl⟩ := hp
  obtain ⟨h, w, e1, e2, -⟩ := default_object_view (q + q) (q + q) pfc padding hpad 0 le_rfl (by omega) t0 x1
    (l1.map fun _ => t0) l1 H W hH hW
  have h1 : maxList t0 (l1.map fun _ => t0) - minList t0 (l1.map fun _ => t0) = 0 := by
    have : ∀ l : List ℝ, maxList t0 (l.map fun _ => t0) = t0 ∧ minList t0 (l.map fun _ => t0) = t0 := by
      intro l
      unfold maxList minList
      induction l with
      | nil => exact ⟨rfl, rfl⟩
      | cons y ys ih => simpa using ih
    rw [(this l1).1, (this l1).2, sub_self]
  rw [h1, Int.ceil_zero] at e2
  have : h = 0 := by
    have : min (q + q) (q + q) / 2 = q := by omega
    rw [this] at e2; push_cast at e2; omega
  rw [if_pos rfl] at e1
  exact ⟨w, by rw [e1, this]⟩

/-- **C53** (violated): with several object modes the crop is applied to the mode axis, so that the view shows
nothing as soon as the crop is at least half the number of modes. -/
theorem object_modes_view_violated (c : ℤ) (hc : 0 < c) (K H W : ℕ) (hK : (K : ℤ) ≤ 2 * c) :
    ∃ h : ℕ, objViewShape c [K, H, W] = [0, h, W] := by
  unfold objViewShape
  rw [if_pos hc]
  have h1 := (sliceExtent_crop K c hc).2
  have : (sliceExtent K c (-c)).2 = 0 := by omega
  exact ⟨(sliceExtent H c (-c)).2, by simp only [this]⟩

end Cdtools
