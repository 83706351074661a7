/-
**C54** (construction, back-propagation), **C55** (`sim_to_dataset`) and the part of **C41** about whole
`FancyPtycho` models.
-/
import Verif.Props.FancyForward
import Verif.Lemmas.Reconstructor

set_option linter.unusedSectionVars false

namespace Cdtools
open Finset Matrix

variable {n m a b N k : ℕ} [NeZero n] [NeZero m] [NeZero a] [NeZero b]

/-! ### Construction -/

theorem probeNormOf_spec (g : Fin (k + 1) → Wave n m) :
    (∀ x y, ‖g 0 x y‖ ≤ probeNormOf g) ∧ (∃ x y, ‖g 0 x y‖ = probeNormOf g) := by
  have hb : BddAbove (Set.range fun p : ZMod n × ZMod m => ‖g 0 p.1 p.2‖) := (Set.finite_range _).bddAbove
  refine ⟨fun x y => le_ciSup hb (x, y), ?_⟩
  obtain ⟨p, hp⟩ := exists_eq_ciSup_of_finite (f := fun p : ZMod n × ZMod m => ‖g 0 p.1 p.2‖)
  exact ⟨p.1, p.2, hp⟩

/-- **C54** (initial parameters): for every constructor call that succeeds with a non-vanishing first mode and
a non-zero translation scale, the initial light field is the given probe on the support and zero outside,
stored with a first mode of largest modulus one (before the support), and the initial offsets are the given
ones. -/
theorem initial_parameters (A : FancyArgs n m N k) (P : FancyParams n m N k) (h : fancyInit A = .ok P)
    (hg : ∃ x y, A.probeGuess 0 x y ≠ 0) (hs : A.translationScale ≠ 0) :
    (∀ j x y, (P.probeNorm : ℂ) * P.probe j x y =
      if (A.probeSupport.getD fun _ _ => true) x y then A.probeGuess j x y else 0) ∧
    (∀ x y, ‖P.probe 0 x y‖ ≤ 1) ∧
    (P.support = A.probeSupport.getD fun _ _ => true) ∧
    (P.offsets.map fun o i => A.translationScale • o i) = A.translationOffsets ∧
    (A.probeFourierShifts = none → P.fourierShifts = none) := by
  obtain ⟨x0, y0, h0⟩ := hg
  obtain ⟨hle, -⟩ := probeNormOf_spec A.probeGuess
  have hpos : 0 < probeNormOf A.probeGuess := lt_of_lt_of_le (norm_pos_iff.2 h0) (hle x0 y0)
  have hne : (probeNormOf A.probeGuess : ℂ) ≠ 0 := by exact_mod_cast hpos.ne'
  have hoff : ((A.translationOffsets.map fun o i => (1 / A.translationScale) • o i).map
      fun o i => A.translationScale • o i) = A.translationOffsets := by
    cases A.translationOffsets with
    | none => rfl
    | some o =>
      simp only [Option.map_some, Option.some.injEq]
      funext i
      rw [smul_smul, mul_one_div_cancel hs, one_smul]
  have hp1 : ∀ j x y, (probeNormOf A.probeGuess : ℂ) * (A.probeGuess j x y / probeNormOf A.probeGuess *
      (if (A.probeSupport.getD fun _ _ => true) x y then 1 else 0)) =
      if (A.probeSupport.getD fun _ _ => true) x y then A.probeGuess j x y else 0 := by
    intro j x y
    split_ifs
    · rw [mul_one, mul_div_cancel₀ _ hne]
    · rw [mul_zero, mul_zero]
  have hp2 : ∀ x y, ‖A.probeGuess 0 x y / probeNormOf A.probeGuess *
      (if (A.probeSupport.getD fun _ _ => true) x y then (1 : ℂ) else 0)‖ ≤ 1 := by
    intro x y
    split_ifs
    · rw [mul_one, norm_div, Complex.norm_real, Real.norm_eq_abs, abs_of_pos hpos, div_le_one hpos]
      exact hle x y
    · rw [mul_zero, norm_zero]; exact zero_le_one
  unfold fancyInit at h
  simp only at h
  split at h
  · rename_i hf
    obtain rfl := Except.ok.inj h
    exact ⟨hp1, hp2, rfl, hoff, fun _ => rfl⟩
  · rename_i f o hf ho
    obtain rfl := Except.ok.inj h
    refine ⟨hp1, hp2, rfl, hoff, fun h => ?_⟩
    rw [h] at hf; cases hf
  · cases h

/-- **C54** (violated): the argument `probe_fourier_shifts` is ignored. If it is given, the model starts from
the translation offsets instead (and cannot be built without those). -/
theorem fourier_shifts_violated (A : FancyArgs n m N k) (f : Fin N → Fin 2 → ℝ) (hf : A.probeFourierShifts = some f) :
    (∀ P, fancyInit A = .ok P → P.fourierShifts = A.translationOffsets) ∧
    (A.translationOffsets = none → fancyInit A = .error .typeError) := by
  constructor
  · intro P h
    unfold fancyInit at h
    rw [hf] at h
    cases ho : A.translationOffsets with
    | none => rw [ho] at h; cases h
    | some o => rw [ho] at h; obtain rfl := Except.ok.inj h; rfl
  · intro ho
    unfold fancyInit
    rw [hf, ho]

/-- **C54**: in the far field `backward_propagator` undoes `forward_propagator`, and conversely. -/
theorem backward_propagator_inverse (M : Fancy n m a b N k) (h : M.nearField = false) (w : Wave a b) :
    M.backpropagate (M.propagate w) = .ok w ∧ (M.backpropagate w).map M.propagate = .ok w := by
  unfold Fancy.backpropagate Fancy.propagate
  rw [h]
  simp only [Bool.false_eq_true, if_false]
  refine ⟨congrArg _ (far_field_unitary.1 w), ?_⟩
  show Except.ok _ = _
  exact congrArg _ (far_field_unitary.2.1 w)

/-- **C54** (violated): in the near field `backward_propagator` always raises. -/
theorem backward_propagator_near_violated (M : Fancy n m a b N k) (h : M.nearField = true) (w : Wave a b) :
    M.backpropagate w = .error .attributeError := by
  unfold Fancy.backpropagate
  rw [h]
  rfl

/-! ### The whole model -/

/-- **C41** (`FancyPtycho`): for a model whose object was sized by `calc_object_setup` with some padding, on
every exposure of the scan, the simulation succeeds as long as the position corrections stay within the
padding. -/
theorem fancy_forward_succeeds (M : Fancy n m a b N k) (hs : M.simulateTranslation = true → M.fourierShifts ≠ none)
    (padding : ℕ) (ts : Fin N → Fin 3 → ℝ) (t0 : Fin 3 → ℝ) (rest : List (Fin 3 → ℝ))
    (hl : List.ofFn ts = t0 :: rest)
    (hh : (M.obj.h : ℤ) = (objectSetup a (translationsToPixel M.objBasis M.normal t0 0)
      (rest.map fun t => translationsToPixel M.objBasis M.normal t 0) padding).1)
    (hw : (M.obj.w : ℤ) = (objectSetup b (translationsToPixel M.objBasis M.normal t0 1)
      (rest.map fun t => translationsToPixel M.objBasis M.normal t 1) padding).1)
    (hm : M.minTranslation = ![(objectSetup a (translationsToPixel M.objBasis M.normal t0 0)
        (rest.map fun t => translationsToPixel M.objBasis M.normal t 0) padding).2,
      (objectSetup b (translationsToPixel M.objBasis M.normal t0 1)
        (rest.map fun t => translationsToPixel M.objBasis M.normal t 1) padding).2])
    (ho : ∀ o, M.offsets = some o → ∀ i c, |M.translationScale * o i c| ≤ padding) (idx : Fin N) :
    ∃ img, M.forward idx (ts idx) = .ok img := by
  have hmem : ts idx ∈ t0 :: rest := by rw [← hl]; exact List.mem_ofFn.2 ⟨idx, rfl⟩
  have hoff : ∃ d : Fin 2 → ℝ, (∀ c, |d c| ≤ padding) ∧
      M.pixTrans idx (ts idx) = translationsToPixel M.objBasis M.normal (ts idx) - M.minTranslation + d := by
    unfold Fancy.pixTrans
    cases hc : M.offsets with
    | none => exact ⟨0, fun c => by simp, by simp⟩
    | some o => exact ⟨M.translationScale • o idx, fun c => ho o hc idx c, rfl⟩
  obtain ⟨d, hd, hp⟩ := hoff
  have m1 : translationsToPixel M.objBasis M.normal (ts idx) 0 ∈ translationsToPixel M.objBasis M.normal t0 0 ::
      rest.map fun t => translationsToPixel M.objBasis M.normal t 0 := by
    rw [← List.map_cons (f := fun t => translationsToPixel M.objBasis M.normal t 0)]
    exact List.mem_map_of_mem (f := fun t => translationsToPixel M.objBasis M.normal t 0) hmem
  have m2 : translationsToPixel M.objBasis M.normal (ts idx) 1 ∈ translationsToPixel M.objBasis M.normal t0 1 ::
      rest.map fun t => translationsToPixel M.objBasis M.normal t 1 := by
    rw [← List.map_cons (f := fun t => translationsToPixel M.objBasis M.normal t 1)]
    exact List.mem_map_of_mem (f := fun t => translationsToPixel M.objBasis M.normal t 1) hmem
  obtain ⟨a1, a2⟩ := setup_bounds a _ _ (padding : ℤ) _ m1
  obtain ⟨b1, b2⟩ := setup_bounds b _ _ (padding : ℤ) _ m2
  have e0 : M.pixTrans idx (ts idx) 0 = translationsToPixel M.objBasis M.normal (ts idx) 0 - M.minTranslation 0 + d 0 := by
    rw [hp]; rfl
  have e1 : M.pixTrans idx (ts idx) 1 = translationsToPixel M.objBasis M.normal (ts idx) 1 - M.minTranslation 1 + d 1 := by
    rw [hp]; rfl
  have hm0 := congrFun hm 0
  have hm1 := congrFun hm 1
  simp only [Matrix.cons_val_zero, Matrix.cons_val_one] at hm0 hm1
  rw [← hm0, ← hh] at a2
  rw [← hm0] at a1
  rw [← hm1, ← hw] at b2
  rw [← hm1] at b1
  have d0 := abs_le.1 (hd 0)
  have d1 := abs_le.1 (hd 1)
  push_cast at a1 a2 b1 b2
  have w0 : 0 ≤ ⌊M.pixTrans idx (ts idx) 0⌋ ∧ ⌊M.pixTrans idx (ts idx) 0⌋ + a ≤ M.obj.h := by
    rw [e0]
    refine ⟨Int.floor_nonneg.2 (by linarith), ?_⟩
    have := floor_le_int (x := translationsToPixel M.objBasis M.normal (ts idx) 0 - M.minTranslation 0 + d 0)
      (k := (M.obj.h : ℤ) - a) (by push_cast; linarith)
    linarith
  have w1 : 0 ≤ ⌊M.pixTrans idx (ts idx) 1⌋ ∧ ⌊M.pixTrans idx (ts idx) 1⌋ + b ≤ M.obj.w := by
    rw [e1]
    refine ⟨Int.floor_nonneg.2 (by linarith), ?_⟩
    have := floor_le_int (x := translationsToPixel M.objBasis M.normal (ts idx) 1 - M.minTranslation 1 + d 1)
      (k := (M.obj.w : ℤ) - b) (by push_cast; linarith)
    linarith
  have ht : M.transmission.h = M.obj.h ∧ M.transmission.w = M.obj.w := by
    unfold Fancy.transmission
    split_ifs <;> exact ⟨rfl, rfl⟩
  unfold Fancy.forward
  rw [if_neg (by rintro ⟨h1, h2⟩; exact hs h1 h2)]
  simp only
  rw [objWindow_inside (n := a) (m := b) (by rw [ht.1]; exact w0) (by rw [ht.2]; exact w1)]
  exact ⟨_, rfl⟩

/-! ### sim_to_dataset -/

theorem mapM_flatten {E P : Type} : ∀ L : List (List (Except E P)),
    (L.mapM fun c : List (Except E P) => c.mapM id).map List.flatten = L.flatten.mapM id
  | [] => rfl
  | c :: L => by
    rw [List.mapM_cons, List.flatten_cons, List.mapM_append, ← mapM_flatten L]
    cases c.mapM id with
    | error e => rfl
    | ok x =>
      cases L.mapM (fun c : List (Except E P) => c.mapM id) with
      | error e => rfl
      | ok y => rfl

/-- **C55**: for every list of exposures, every positive calculation width and none, `sim_to_dataset` simulates
each exposure once, in order; if a simulation fails, the failure of the first one is raised. In particular
the patterns do not depend on the width. -/
theorem sim_to_dataset_in_order {I T P : Type} (forward : I → T → Except String P) (indices : List I)
    (translations : List T) (hlen : indices.length = translations.length) (hne : indices ≠ []) (width : Option ℤ)
    (hw : ∀ w, width = some w → 0 < w) :
    simPatterns forward indices translations width = (List.zipWith forward indices translations).mapM id := by
  have hn : 0 < indices.length := List.length_pos_iff.2 hne
  have hpos : 0 < width.getD (indices.length : ℤ) := by
    cases width with
    | none => simpa using hn
    | some w => exact hw w rfl
  unfold simPatterns
  simp only
  rw [if_neg hpos.ne', if_neg (not_lt.2 hpos.le), if_neg hne]
  set w := (width.getD (indices.length : ℤ)).toNat with hwd
  have hw1 : 1 ≤ w := by omega
  unfold forwardBatch
  have : ((pyChunks indices.length w indices).zip (pyChunks indices.length w translations)).mapM
      (fun c => (List.zipWith forward c.1 c.2).mapM id) =
      ((((pyChunks indices.length w indices).zip (pyChunks indices.length w translations)).map
        fun c => List.zipWith forward c.1 c.2).mapM fun c : List (Except String P) => c.mapM id) := by
    rw [List.mapM_map]; rfl
  rw [this, mapM_flatten]
  congr 1
  have hz : ∀ (n : ℕ) (xs : List I) (ys : List T), (List.zipWith forward xs ys) = (xs.zip ys).map fun p => forward p.1 p.2 := by
    intro n xs ys; rw [List.zip, List.map_zipWith]
  have h1 : pyChunks indices.length w (List.zipWith forward indices translations) =
      ((pyChunks indices.length w indices).zip (pyChunks indices.length w translations)).map
        fun c => List.zipWith forward c.1 c.2 := by
    unfold pyChunks
    rw [List.zip_map', List.map_map]
    refine List.map_congr_left fun i _ => ?_
    simp only [pySlice, Function.comp_apply, List.take_zipWith, List.drop_zipWith]
  rw [← h1]
  exact pyChunks_flatten _ _ hw1 _ (by rw [List.length_zipWith]; omega)

/-- **C55** (`FancyPtycho`): when every exposure can be simulated, the dataset has exactly one pattern per
requested exposure, and pattern `j` is the forward model at exposure `j`. -/
theorem sim_to_dataset_patterns (M : Fancy n m a b N k) (indices : List (Fin N)) (translations : List (Fin 3 → ℝ))
    (hlen : indices.length = translations.length) (hne : indices ≠ []) (width : Option ℤ)
    (hw : ∀ w, width = some w → 0 < w) (ps : List (Img ℝ))
    (h : simPatterns M.forward indices translations width = .ok ps) :
    ps.length = indices.length ∧ ∀ (j : ℕ) (h1 : j < indices.length) (h2 : j < translations.length) (h3 : j < ps.length),
      M.forward indices[j] translations[j] = .ok ps[j] := by
  rw [sim_to_dataset_in_order _ _ _ hlen hne _ hw] at h
  have key : ∀ (l : List (Except String (Img ℝ))) (ps : List (Img ℝ)), l.mapM id = .ok ps → l = ps.map .ok := by
    intro l
    induction l with
    | nil => intro ps h; cases h; rfl
    | cons x xs ih =>
      intro ps h
      rw [List.mapM_cons] at h
      cases x with
      | error e => cases h
      | ok p =>
        cases hx : xs.mapM id with
        | error e => rw [hx] at h; cases h
        | ok q =>
          rw [hx] at h
          have := Except.ok.inj h
          rw [← this, ih q hx]; rfl
  have hk := key _ _ h
  have hl := congrArg List.length hk
  rw [List.length_zipWith, List.length_map] at hl
  refine ⟨by omega, fun j h1 h2 h3 => ?_⟩
  have := congrArg (fun l => l[j]?) hk
  simp only [List.getElem?_map, List.getElem?_eq_getElem h3, Option.map_some] at this
  rw [List.getElem?_eq_getElem (by rw [List.length_zipWith]; omega), List.getElem_zipWith] at this
  exact Option.some.inj this

/-- **C55** (arguments that fail): a width of zero is a ValueError, a negative width a RuntimeError; without
exposures there is nothing to simulate and an exception is raised. -/
theorem sim_to_dataset_errors {I T P : Type} (forward : I → T → Except String P) (indices : List I) (translations : List T)
    (width : Option ℤ) :
    (width = some 0 → simPatterns forward indices translations width = .error "ValueError") ∧
    (∀ w, width = some w → w < 0 → simPatterns forward indices translations width = .error "RuntimeError") ∧
    (indices = [] → ∃ e, simPatterns forward indices translations width = .error e) := by
  refine ⟨?_, ?_, ?_⟩
  · rintro rfl; rfl
  · rintro w rfl hw
    unfold simPatterns
    simp only [Option.getD_some]
    rw [if_neg hw.ne, if_pos hw]
  · rintro rfl
    unfold simPatterns
    simp only
    split_ifs <;> exact ⟨_, rfl⟩

/-- **C55** (orientation): for a unit surface normal that is not along the y axis, the rows of the stored
orientation are orthonormal and right-handed, the first row is horizontal, and the last is the normal. -/
theorem sim_orientation (v : Vec3) (h1 : v.dot v = 1) (hy : v 0 ≠ 0 ∨ v 2 ≠ 0) :
    let o := simOrientation v
    o.1.dot o.1 = 1 ∧ o.2.1.dot o.2.1 = 1 ∧ o.2.2 = v ∧ o.1.dot o.2.1 = 0 ∧ o.1.dot v = 0 ∧ o.2.1.dot v = 0 ∧
      o.1 1 = 0 ∧ Vec3.cross o.1 o.2.1 = v := by
  intro o
  have hs : 0 < v 2 ^ 2 + v 0 ^ 2 := by
    rcases hy with h | h
    · have := sq_pos_of_ne_zero h; positivity
    · have := sq_pos_of_ne_zero h; positivity
  set s := Real.sqrt (v 2 ^ 2 + v 0 ^ 2) with hsd
  have hs0 : 0 < s := Real.sqrt_pos.2 hs
  have hs2 : s ^ 2 = v 2 ^ 2 + v 0 ^ 2 := Real.sq_sqrt hs.le
  have hc : Vec3.cross ![0, 1, 0] v = ![v 2, 0, -v 0] := by
    funext i; fin_cases i <;> simp [Vec3.cross]
  have hx : o.1 = ![v 2 / s, 0, -v 0 / s] := by
    show (Vec3.cross ![0, 1, 0] v).unit = _
    rw [hc]
    have : Vec3.dot ![v 2, 0, -v 0] ![v 2, 0, -v 0] = v 2 ^ 2 + v 0 ^ 2 := by simp [Vec3.dot]; ring
    unfold Vec3.unit
    rw [this, ← hsd]
    funext i; fin_cases i <;> simp
  have hn : v 0 ^ 2 + v 1 ^ 2 + v 2 ^ 2 = 1 := by
    have := h1; unfold Vec3.dot at this; nlinarith
  have hcy : Vec3.cross v o.1 = ![-(v 1 * v 0) / s, s, -(v 1 * v 2) / s] := by
    rw [hx]
    funext i
    fin_cases i
    · simp [Vec3.cross]; ring
    · simp [Vec3.cross]; field_simp; linarith
    · simp [Vec3.cross]; ring
  have hdy : Vec3.dot (Vec3.cross v o.1) (Vec3.cross v o.1) = 1 := by
    rw [hcy]
    simp only [Vec3.dot, Matrix.cons_val_zero, Matrix.cons_val_one, Matrix.cons_val_two, Matrix.tail_cons, Matrix.head_cons]
    field_simp
    nlinarith
  have hy2 : o.2.1 = ![-(v 1 * v 0) / s, s, -(v 1 * v 2) / s] := by
    rw [← hcy]
    show (Vec3.cross v o.1).unit = _
    unfold Vec3.unit
    rw [hdy, Real.sqrt_one]
    funext i; rw [div_one]
  have hxx : o.1.dot o.1 = 1 := by
    rw [hx]
    simp only [Vec3.dot, Matrix.cons_val_zero, Matrix.cons_val_one, Matrix.cons_val_two, Matrix.tail_cons, Matrix.head_cons]
    field_simp
    linarith
  refine ⟨hxx, by rw [hy2, ← hcy]; exact hdy, rfl, ?_, ?_, ?_, by rw [hx]; simp, ?_⟩
  · rw [hx, hy2]
    simp [Vec3.dot]; ring
  · rw [hx]
    simp [Vec3.dot]; ring
  · rw [hy2]
    simp [Vec3.dot]; field_simp; rw [hs2]; ring
  · rw [hx, hy2]
    funext i
    fin_cases i
    · simp [Vec3.cross]; field_simp
    · simp [Vec3.cross]; field_simp; rw [hs2]; ring
    · simp [Vec3.cross]; field_simp

/-- **C55** (violated): for a sample whose normal is along y, both cross products divide by zero and the stored
orientation is not a rotation. -/
theorem sim_orientation_violated (v : Vec3) (h0 : v 0 = 0) (h2 : v 2 = 0) :
    (Vec3.cross ![0, 1, 0] v).dot (Vec3.cross ![0, 1, 0] v) = 0 ∧ (simOrientation v).1.dot (simOrientation v).1 ≠ 1 := by
  have hc : Vec3.cross ![0, 1, 0] v = 0 := by
    funext i; fin_cases i <;> simp [Vec3.cross, h0, h2]
  constructor
  · rw [hc]; simp [Vec3.dot]
  · show (Vec3.cross ![0, 1, 0] v).unit.dot (Vec3.cross ![0, 1, 0] v).unit ≠ 1
    rw [hc]; simp [Vec3.unit, Vec3.dot]

/-! ### The hypotheses can be met -/

example : simPatterns (fun (i : ℕ) (t : ℕ) => .ok (10 * i + t)) [1, 2, 3] [4, 5, 6] (some 2) = .ok [14, 25, 36] := by
  rw [sim_to_dataset_in_order _ _ _ (by rfl) (by simp) _ (by rintro w h; cases h; decide)]
  rfl

example : ∃ P, fancyInit (n := 1) (m := 1) (N := 1) (k := 0) ⟨fun _ _ _ => 2, some fun _ _ => 1, none, 3, none⟩ = .ok P :=
  ⟨_, rfl⟩

example : Vec3.dot ![0, 0, 1] ![0, 0, 1] = 1 := by simp [Vec3.dot]

end Cdtools
