/-
C81: browsing a stack of images with the keyboard and the sliders.
-/
import Verif.Model.Browse

set_option linter.unusedSectionVars false
set_option linter.unusedVariables false

namespace Cdtools.Browse

/-! ### Specification -/

/-- The position of an image in a stack of images in row-major order (the last axis changes fastest). -/
def rowMajor : List ℕ → List ℕ → ℕ
  | _ :: ds, i :: is => i * ds.prod + rowMajor ds is
  | _, _ => 0

/-- An index of an image of the stack. -/
def IsIndex (shape idx : List ℕ) : Prop := List.Forall₂ (· < ·) idx shape

/-! ### The odometer -/

/-- Position for pairs with the last axis first. -/
def rankR : List (ℕ × ℕ) → ℕ
  | [] => 0
  | (d, i) :: r => i + d * rankR r

/-- Number of images. -/
def totalR : List (ℕ × ℕ) → ℕ
  | [] => 1
  | (d, _) :: r => d * totalR r

theorem rankR_append (l : List (ℕ × ℕ)) (d i : ℕ) : rankR (l ++ [(d, i)]) = rankR l + totalR l * i := by
  induction l with
  | nil => simp [rankR, totalR]
  | cons a l ih => obtain ⟨e, j⟩ := a; simp only [List.cons_append, rankR, totalR, ih]; ring

theorem totalR_append (l : List (ℕ × ℕ)) (d i : ℕ) : totalR (l ++ [(d, i)]) = totalR l * d := by
  induction l with
  | nil => simp [totalR]
  | cons a l ih => obtain ⟨e, j⟩ := a; simp only [List.cons_append, totalR, ih]; ring

theorem totalR_zip : ∀ (shape idx : List ℕ), idx.length = shape.length →
    totalR (shape.zip idx).reverse = shape.prod
  | [], _, _ => by simp [totalR]
  | d :: ds, [], h => by simp at h
  | d :: ds, i :: is, h => by
    rw [List.zip_cons_cons, List.reverse_cons, totalR_append, totalR_zip ds is (by simpa using h), List.prod_cons, mul_comm]

theorem rankR_zip : ∀ (shape idx : List ℕ), idx.length = shape.length →
    rankR (shape.zip idx).reverse = rowMajor shape idx
  | [], _, _ => by simp [rankR, rowMajor]
  | d :: ds, [], h => by simp at h
  | d :: ds, i :: is, h => by
    rw [List.zip_cons_cons, List.reverse_cons, rankR_append, rankR_zip ds is (by simpa using h),
      totalR_zip ds is (by simpa using h), rowMajor]
    ring

/-- All indices are in range. -/
def OkR (l : List (ℕ × ℕ)) : Prop := ∀ p ∈ l, p.2 < p.1

theorem rankR_lt : ∀ l, OkR l → rankR l < totalR l
  | [], _ => by simp [rankR, totalR]
  | (d, i) :: r, h => by
    have h1 : i < d := h (d, i) (by simp)
    have h2 := rankR_lt r fun p hp => h p (by simp [hp])
    simp only [rankR, totalR]
    calc i + d * rankR r < d + d * rankR r := by omega
      _ = d * (rankR r + 1) := by ring
      _ ≤ d * totalR r := Nat.mul_le_mul_left _ h2

theorem bump_length (c : ℤ) (l : List (ℕ × ℕ)) : (bump c l).length = l.length := by
  induction l generalizing c with
  | nil => rfl
  | cons a l ih =>
    obtain ⟨d, i⟩ := a
    simp only [bump]
    split_ifs <;> simp [ih]

/-- The new pairs. -/
def bumped (c : ℤ) (l : List (ℕ × ℕ)) : List (ℕ × ℕ) := (l.map Prod.fst).zip (bump c l)

theorem zip_self (l : List (ℕ × ℕ)) : (l.map Prod.fst).zip (l.map Prod.snd) = l := by
  induction l with
  | nil => rfl
  | cons a l ih => simp [ih]

theorem totalR_bumped (c : ℤ) (l : List (ℕ × ℕ)) : totalR (bumped c l) = totalR l := by
  have : ∀ (ds : List ℕ) (is js : List ℕ), is.length = ds.length → js.length = ds.length →
      totalR (ds.zip is) = totalR (ds.zip js) := by
    intro ds
    induction ds with
    | nil => intros; simp
    | cons d ds ih =>
      intro is js h1 h2
      match is, js, h1, h2 with
      | i :: is, j :: js, h1, h2 =>
        simp only [List.zip_cons_cons, totalR]
        rw [ih is js (by simpa using h1) (by simpa using h2)]
  rw [bumped, this (l.map Prod.fst) _ (l.map Prod.snd) (by simp [bump_length]) (by simp), zip_self]

theorem bump_down : ∀ l, OkR l → OkR (bumped 1 l) ∧ rankR (bumped 1 l) = (rankR l + 1) % totalR l
  | [], _ => by simp [bumped, bump, rankR, totalR, OkR]
  | (d, i) :: r, h => by
    have h1 : i < d := h (d, i) (by simp)
    have hr : OkR r := fun p hp => h p (by simp [hp])
    obtain ⟨o, e⟩ := bump_down r hr
    have lt := rankR_lt r hr
    simp only [bumped, List.map_cons, bump]
    split_ifs with a b c
    · have : d = 1 := by omega
      subst this
      have hi : i = 0 := by omega
      subst hi
      simp only [List.zip_cons_cons, rankR, totalR]
      refine ⟨?_, ?_⟩
      · intro p hp
        rcases List.mem_cons.mp hp with rfl | hp
        · simp
        · exact o p hp
      · change 0 + 1 * rankR (bumped 1 r) = _
        rw [e]; simp
    · omega
    · have hi : i + 1 = d := by omega
      simp only [List.zip_cons_cons, rankR, totalR]
      refine ⟨?_, ?_⟩
      · intro p hp
        rcases List.mem_cons.mp hp with rfl | hp
        · simpa using by omega
        · exact o p hp
      · change 0 + d * rankR (bumped 1 r) = _
        rw [e, zero_add, ← Nat.mul_mod_mul_left]
        congr 1
        rw [← hi]; ring
    · simp only [List.zip_cons_cons, zip_self, rankR, totalR]
      have hn : ((i : ℤ) + 1).toNat = i + 1 := by omega
      rw [hn]
      refine ⟨?_, ?_⟩
      · intro p hp
        rcases List.mem_cons.mp hp with rfl | hp
        · simpa using by omega
        · exact hr p hp
      · rw [Nat.mod_eq_of_lt]
        · ring
        · have : d * rankR r + d ≤ d * totalR r := by
            calc d * rankR r + d = d * (rankR r + 1) := by ring
              _ ≤ _ := Nat.mul_le_mul_left _ lt
          omega

theorem bump_up : ∀ l, OkR l → OkR (bumped (-1) l) ∧ rankR (bumped (-1) l) = (rankR l + (totalR l - 1)) % totalR l
  | [], _ => by simp [bumped, bump, rankR, totalR, OkR]
  | (d, i) :: r, h => by
    have h1 : i < d := h (d, i) (by simp)
    have hr : OkR r := fun p hp => h p (by simp [hp])
    obtain ⟨o, e⟩ := bump_up r hr
    have lt := rankR_lt r hr
    have hd : 0 < d := by omega
    have ht : 0 < totalR r := by omega
    have hdt : d * totalR r = d * (totalR r - 1) + d := by
      conv_lhs => rw [show totalR r = (totalR r - 1) + 1 by omega, mul_add, mul_one]
    simp only [bumped, List.map_cons, bump]
    split_ifs with a b c
    · have : d = 1 := by omega
      subst this
      have hi : i = 0 := by omega
      subst hi
      simp only [List.zip_cons_cons, rankR, totalR]
      refine ⟨?_, ?_⟩
      · intro p hp
        rcases List.mem_cons.mp hp with rfl | hp
        · simp
        · exact o p hp
      · change 0 + 1 * rankR (bumped (-1) r) = _
        rw [e]; simp
    · have hi : i = 0 := by omega
      subst hi
      simp only [List.zip_cons_cons, rankR, totalR]
      refine ⟨?_, ?_⟩
      · intro p hp
        rcases List.mem_cons.mp hp with rfl | hp
        · simpa using by omega
        · exact o p hp
      · change d - 1 + d * rankR (bumped (-1) r) = _
        have key : 0 + d * rankR r + (d * totalR r - 1) = (d - 1) + d * (rankR r + (totalR r - 1)) := by
          rw [hdt, mul_add]; omega
        rw [e, key]
        generalize rankR r + (totalR r - 1) = x
        have hx := Nat.div_add_mod x (totalR r)
        have hlt := Nat.mod_lt x ht
        have hb : d - 1 + d * (x % totalR r) < d * totalR r := by
          have : d * (x % totalR r) + d ≤ d * totalR r := by
            calc d * (x % totalR r) + d = d * (x % totalR r + 1) := by ring
              _ ≤ _ := Nat.mul_le_mul_left _ hlt
          omega
        have : d - 1 + d * x = (d - 1 + d * (x % totalR r)) + (d * totalR r) * (x / totalR r) := by
          conv_lhs => rw [← hx]
          ring
        rw [this, Nat.add_mul_mod_self_left, Nat.mod_eq_of_lt hb]
    · omega
    · simp only [List.zip_cons_cons, zip_self, rankR, totalR]
      have hn : ((i : ℤ) + -1).toNat = i - 1 := by omega
      have hi : 0 < i := by omega
      rw [hn]
      refine ⟨?_, ?_⟩
      · intro p hp
        rcases List.mem_cons.mp hp with rfl | hp
        · simpa using by omega
        · exact hr p hp
      · have hb : i + d * rankR r < d * totalR r := by
          have : d * rankR r + d ≤ d * totalR r := by
            calc d * rankR r + d = d * (rankR r + 1) := by ring
              _ ≤ _ := Nat.mul_le_mul_left _ lt
          omega
        have : i + d * rankR r + (d * totalR r - 1) = (i - 1 + d * rankR r) + d * totalR r := by omega
        rw [this, Nat.add_mod_right, Nat.mod_eq_of_lt (by omega)]

theorem okR_of_isIndex {shape idx : List ℕ} (h : IsIndex shape idx) : OkR (shape.zip idx).reverse := by
  intro p hp
  rw [List.mem_reverse] at hp
  unfold IsIndex at h
  induction h with
  | nil => simp at hp
  | cons h _ ih =>
    rw [List.zip_cons_cons] at hp
    rcases List.mem_cons.mp hp with rfl | hp
    · exact h
    · exact ih hp

theorem isIndex_of_okR : ∀ {shape idx : List ℕ}, idx.length = shape.length → OkR (shape.zip idx).reverse →
    IsIndex shape idx
  | [], [], _, _ => List.Forall₂.nil
  | [], _ :: _, h, _ => by simp at h
  | _ :: _, [], h, _ => by simp at h
  | d :: ds, i :: is, h, o => by
    refine List.Forall₂.cons (o (d, i) (by simp)) (isIndex_of_okR (by simpa using h) fun p hp => o p ?_)
    rw [List.zip_cons_cons, List.reverse_cons]
    exact List.mem_append_left _ hp

theorem odometer_zip (dir : ℤ) (shape idx : List ℕ) (h : idx.length = shape.length) :
    (odometer dir shape idx).length = shape.length ∧
      (shape.zip (odometer dir shape idx)).reverse = bumped dir (shape.zip idx).reverse := by
  have hl : (odometer dir shape idx).length = shape.length := by simp [odometer, bump_length, h]
  refine ⟨hl, ?_⟩
  rw [bumped, List.map_reverse, List.map_fst_zip (by omega)]
  have h2 : (bump dir (shape.zip idx).reverse).length = shape.length := by simp [bump_length, h]
  rw [odometer]
  generalize bump dir (shape.zip idx).reverse = b at h2
  rw [List.zip, List.reverse_zipWith (by simp [h2]), List.reverse_reverse]

/-- **C81.** The down key shows the next image of the stack in row-major order, the up key the previous one, cyclically,
whatever the number and the lengths of the axes. -/
theorem odometer_cycles (shape idx : List ℕ) (h : IsIndex shape idx) :
    IsIndex shape (odometer 1 shape idx) ∧ IsIndex shape (odometer (-1) shape idx) ∧
      rowMajor shape (odometer 1 shape idx) = (rowMajor shape idx + 1) % shape.prod ∧
      rowMajor shape (odometer (-1) shape idx) = (rowMajor shape idx + (shape.prod - 1)) % shape.prod := by
  have hl : idx.length = shape.length := List.Forall₂.length_eq h
  have ok := okR_of_isIndex h
  obtain ⟨l1, z1⟩ := odometer_zip 1 shape idx hl
  obtain ⟨l2, z2⟩ := odometer_zip (-1) shape idx hl
  obtain ⟨d1, d2⟩ := bump_down _ ok
  obtain ⟨u1, u2⟩ := bump_up _ ok
  refine ⟨isIndex_of_okR l1 (by rw [z1]; exact d1), isIndex_of_okR l2 (by rw [z2]; exact u1), ?_, ?_⟩
  · rw [← rankR_zip _ _ l1, z1, d2, rankR_zip _ _ hl, totalR_zip _ _ hl]
  · rw [← rankR_zip _ _ l2, z2, u2, rankR_zip _ _ hl, totalR_zip _ _ hl]

theorem rowMajor_lt {shape idx : List ℕ} (h : IsIndex shape idx) : rowMajor shape idx < shape.prod := by
  have hl : idx.length = shape.length := List.Forall₂.length_eq h
  rw [← rankR_zip _ _ hl, ← totalR_zip _ _ hl]
  exact rankR_lt _ (okR_of_isIndex h)

/-- Different images have different positions. -/
theorem rowMajor_inj {shape idx idx' : List ℕ} (h : IsIndex shape idx) (h' : IsIndex shape idx')
    (e : rowMajor shape idx = rowMajor shape idx') : idx = idx' := by
  unfold IsIndex at h h'
  induction h generalizing idx' with
  | nil => cases h'; rfl
  | @cons i d is ds hi hs ih =>
    cases h' with
    | @cons i' _ is' _ hi' hs' =>
      simp only [rowMajor] at e
      have l1 := rowMajor_lt (shape := ds) (idx := is) hs
      have l2 := rowMajor_lt (shape := ds) (idx := is') hs'
      have hp : 0 < ds.prod := by omega
      have e1 : i = i' := by
        have := congrArg (· / ds.prod) e
        simp only [Nat.add_comm (i * ds.prod), Nat.add_comm (i' * ds.prod)] at this
        rwa [Nat.add_mul_div_right _ _ hp, Nat.add_mul_div_right _ _ hp, Nat.div_eq_of_lt l1, Nat.div_eq_of_lt l2,
          zero_add, zero_add] at this
      subst e1
      rw [ih hs' (by omega)]

/-- **C81.** Pressing the down key again and again visits every image of the stack: after `k` key presses the position is
`k` further on, and the image with any given index is reached within one round. -/
theorem down_visits_all (shape idx target : List ℕ) (h : IsIndex shape idx) (ht : IsIndex shape target) :
    (∀ k, IsIndex shape ((odometer 1 shape)^[k] idx) ∧
      rowMajor shape ((odometer 1 shape)^[k] idx) = (rowMajor shape idx + k) % shape.prod) ∧
    ∃ k < shape.prod, (odometer 1 shape)^[k] idx = target := by
  have all : ∀ k, IsIndex shape ((odometer 1 shape)^[k] idx) ∧
      rowMajor shape ((odometer 1 shape)^[k] idx) = (rowMajor shape idx + k) % shape.prod := by
    intro k
    induction k with
    | zero => exact ⟨h, by simp [Nat.mod_eq_of_lt (rowMajor_lt h)]⟩
    | succ k ih =>
      rw [Function.iterate_succ_apply']
      obtain ⟨a, -, b, -⟩ := odometer_cycles shape _ ih.1
      exact ⟨a, by rw [b, ih.2, Nat.mod_add_mod, add_assoc]⟩
  refine ⟨all, ?_⟩
  have a := rowMajor_lt h
  have b := rowMajor_lt ht
  by_cases c : rowMajor shape idx ≤ rowMajor shape target
  · refine ⟨rowMajor shape target - rowMajor shape idx, by omega, rowMajor_inj (all _).1 ht ?_⟩
    rw [(all _).2, Nat.add_sub_cancel' c, Nat.mod_eq_of_lt b]
  · refine ⟨rowMajor shape target + shape.prod - rowMajor shape idx, by omega, rowMajor_inj (all _).1 ht ?_⟩
    rw [(all _).2, show rowMajor shape idx + (rowMajor shape target + shape.prod - rowMajor shape idx) =
      rowMajor shape target + shape.prod by omega, Nat.add_mod_right, Nat.mod_eq_of_lt b]

example : odometer 1 [2, 1, 3] [0, 0, 2] = [1, 0, 0] ∧ odometer (-1) [2, 1, 3] [0, 0, 0] = [1, 0, 2] := by decide
example : IsIndex [2, 1, 3] [0, 0, 2] := by unfold IsIndex; simp

/-! ### Histories -/

theorem inBounds_iff (shape idx : List ℕ) : inBounds shape idx = true ↔ IsIndex shape idx := by
  unfold inBounds IsIndex
  rw [List.forall₂_iff_zip]
  simp [List.all_eq_true]

theorem sliderAxes_lt {shape : List ℕ} {a : ℕ} (h : a ∈ sliderAxes shape) : a < shape.length := by
  unfold sliderAxes at h
  simp only [List.mem_filter, List.mem_range] at h
  exact h.1

/-- The sliders of a figure that shows image `i` of a stack. -/
def slidersFor (shape i : List ℕ) : List Slider :=
  (sliderAxes shape).map fun a => ⟨a, shape.getD a 0 - 1, i.getD a 0⟩

theorem setSliders_eq (idx : List ℕ) (t : ℕ → ℕ) : ∀ (axes : List ℕ) (ss : List Slider),
    ss.map (fun s => (s.axis, s.top)) = axes.map (fun a => (a, t a)) →
    setSliders idx axes ss = (axes.map fun a => ⟨a, t a, idx.getD a 0⟩, true)
  | [], [], _ => rfl
  | [], _ :: _, h => by simp at h
  | _ :: _, [], h => by simp at h
  | a :: as, s :: ss, h => by
    simp only [List.map_cons, List.cons.injEq, Prod.mk.injEq] at h
    obtain ⟨⟨h1, h2⟩, h3⟩ := h
    simp only [setSliders, setSliders_eq idx t as ss h3, List.map_cons, h1, h2]

variable {α : Type}

/-- A figure on which image `i` of the stack `s` is on display and everything is in step. -/
structure Showing (s : Stack α) (i : List ℕ) (f : Fig α) : Prop where
  valid : IsIndex s.shape i
  idx : f.idx = some i
  shown : f.shown = some (s.im, i)
  sliders : f.sliders = slidersFor s.shape i
  updating : f.updating = false
  current : f.current = some s
  keys : sliderAxes s.shape ≠ [] → f.keys = some s

theorem makePlot_showing {s : Stack α} {i : List ℕ} {f : Fig α} (hi : IsIndex s.shape i) (im : α × List ℕ)
    (hs : f.shown = some im)
    (hsl : f.sliders.map (fun s => (s.axis, s.top)) = (sliderAxes s.shape).map fun a => (a, s.shape.getD a 0 - 1))
    (hk : sliderAxes s.shape ≠ [] → f.keys = some s) :
    (makePlot s i f).2 = true ∧ Showing s i (makePlot s i f).1 := by
  unfold makePlot
  simp only [(inBounds_iff _ _).mpr hi, if_true, hs]
  have := setSliders_eq i (fun a => s.shape.getD a 0 - 1) _ _ hsl
  rw [this]
  exact ⟨rfl, ⟨hi, rfl, rfl, rfl, rfl, rfl, hk⟩⟩

theorem isIndex_zeros {shape : List ℕ} (h : ∀ d ∈ shape, 0 < d) : IsIndex shape (List.replicate shape.length 0) := by
  unfold IsIndex
  induction shape with
  | nil => exact List.Forall₂.nil
  | cons d ds ih =>
    rw [List.length_cons, List.replicate_succ]
    exact List.Forall₂.cons (h d (by simp)) (ih fun e he => h e (by simp [he]))

theorem slidersFor_map (shape i : List ℕ) :
    (slidersFor shape i).map (fun s => (s.axis, s.top)) = (sliderAxes shape).map fun a => (a, shape.getD a 0 - 1) := by
  simp [slidersFor, Function.comp_def]

theorem draw_new {s : Stack α} (h : ∀ d ∈ s.shape, 0 < d) :
    (plotImage s (Fig.new : Fig α)).2 = true ∧
      Showing s (List.replicate s.shape.length 0) (plotImage s (Fig.new : Fig α)).1 := by
  have hz := isIndex_zeros h
  unfold plotImage makePlot Fig.new
  simp only [(inBounds_iff _ _).mpr hz, if_true]
  refine ⟨trivial, ⟨hz, rfl, rfl, rfl, rfl, rfl, fun hk => by simp [hk]⟩⟩

theorem draw_showing {s s' : Stack α} {i : List ℕ} {f : Fig α} (h : Showing s i f) (hsh : s'.shape = s.shape) :
    (plotImage s' f).2 = true ∧ Showing s' i (plotImage s' f).1 := by
  have hv : IsIndex s'.shape i := by rw [hsh]; exact h.valid
  have hl : i.length = s'.shape.length := List.Forall₂.length_eq hv
  have hp : ∀ g : Fig α, g = { f with keys := if sliderAxes s'.shape = [] then f.keys else some s' } →
      (makePlot s' i g).2 = true ∧ Showing s' i (makePlot s' i g).1 := by
    intro g hg
    refine makePlot_showing hv _ (by rw [hg]; exact h.shown) ?_ fun hk => by simp [hg, hk]
    rw [hg]
    show f.sliders.map _ = _
    rw [h.sliders, slidersFor_map, hsh]
  have base := hp _ rfl
  unfold plotImage
  simp only [h.idx, hl, if_true]
  have e2 : (makePlot s' i f).2 = (makePlot s' i { f with keys := if sliderAxes s'.shape = [] then f.keys else some s' }).2 := by
    unfold makePlot; simp only [h.shown]; split_ifs <;> rfl
  have hk : (makePlot s' i f).1.keys = f.keys := by
    unfold makePlot; simp only [h.shown]; split_ifs <;> rfl
  have e1 : ({ (makePlot s' i f).1 with keys := if sliderAxes s'.shape = [] then (makePlot s' i f).1.keys else some s' } : Fig α)
      = (makePlot s' i { f with keys := if sliderAxes s'.shape = [] then f.keys else some s' }).1 := by
    rw [hk]
    unfold makePlot; simp only [h.shown]; split_ifs <;> rfl
  rw [e2, base.1]
  simp only [if_true]
  rw [e1]
  exact ⟨trivial, base.2⟩

theorem odometer_trivial {shape i : List ℕ} (h : IsIndex shape i) (ht : sliderAxes shape = []) (dir : ℤ)
    (hd : dir = 1 ∨ dir = -1) : odometer dir shape i = i := by
  have hp : shape.prod = 1 := by
    apply List.prod_eq_one
    intro d hd
    obtain ⟨n, hn, rfl⟩ := List.getElem_of_mem hd
    have h1 : ¬ 1 < shape[n] := by
      intro hc
      have : n ∈ sliderAxes shape := by
        unfold sliderAxes
        simp [List.mem_filter, hn, hc]
      rw [ht] at this
      simp at this
    have h2 : 0 < shape[n] := by
      have := (List.forall₂_iff_get.mp h).2 n (by rw [List.Forall₂.length_eq h]; exact hn) hn
      exact lt_of_le_of_lt (Nat.zero_le _) this
    omega
  obtain ⟨a, b, c, d⟩ := odometer_cycles shape i h
  have lt := rowMajor_lt h
  rcases hd with rfl | rfl
  · exact rowMajor_inj a h (by have := rowMajor_lt a; omega)
  · exact rowMajor_inj b h (by have := rowMajor_lt b; omega)

theorem press_showing {s : Stack α} {i : List ℕ} {f : Fig α} (h : Showing s i f) (dir : ℤ) (hd : dir = 1 ∨ dir = -1) :
    (press dir f).2 = true ∧ Showing s (odometer dir s.shape i) (press dir f).1 := by
  by_cases hk : sliderAxes s.shape = []
  · rw [odometer_trivial h.valid hk dir hd]
    have hs : f.sliders = [] := by rw [h.sliders, slidersFor, hk]; rfl
    have : press dir f = (f, true) := by
      unfold press
      split
      · simp [hs]
      · rfl
    rw [this]
    exact ⟨rfl, h⟩
  · have hs : f.sliders ≠ [] := by rw [h.sliders, slidersFor]; simpa using hk
    unfold press
    simp only [h.keys hk, h.idx, hs, if_false]
    have hv : IsIndex s.shape (odometer dir s.shape i) := by
      obtain ⟨a, b, -, -⟩ := odometer_cycles s.shape i h.valid
      rcases hd with rfl | rfl
      · exact a
      · exact b
    exact makePlot_showing hv _ h.shown (by rw [h.sliders, slidersFor_map]) h.keys

/-- The index after slider `j` has been moved to `v`. -/
def moved (shape : List ℕ) (j v : ℕ) (i : List ℕ) : List ℕ :=
  match (sliderAxes shape)[j]? with
  | some a => i.set a (min v (shape.getD a 0 - 1))
  | none => i

theorem moved_isIndex {shape i : List ℕ} (h : IsIndex shape i) (j v : ℕ) : IsIndex shape (moved shape j v i) := by
  unfold moved
  cases hj : (sliderAxes shape)[j]? with
  | none => exact h
  | some a =>
    have ha : a < shape.length := sliderAxes_lt (List.mem_of_getElem? hj)
    simp only
    unfold IsIndex at h ⊢
    rw [List.forall₂_iff_get] at h ⊢
    refine ⟨by simpa using h.1, fun n h1 h2 => ?_⟩
    simp only [List.get_eq_getElem, List.getElem_set]
    split_ifs with e
    · subst e
      have := h.2 a (by rw [h.1]; exact ha) ha
      have pos : 0 < shape[a] := lt_of_le_of_lt (Nat.zero_le _) this
      have gd : shape.getD a 0 = shape[a] := by simp [List.getD, ha]
      rw [gd]
      omega
    · exact h.2 n (by simpa using h1) h2

theorem slide_showing {s : Stack α} {i : List ℕ} {f : Fig α} (h : Showing s i f) (j v : ℕ) :
    (slide j v f).2 = true ∧ Showing s (moved s.shape j v i) (slide j v f).1 := by
  have hm := moved_isIndex h.valid j v
  unfold moved at hm ⊢
  unfold slide
  have hsl : f.sliders[j]? = (sliderAxes s.shape)[j]?.map fun a => ⟨a, s.shape.getD a 0 - 1, i.getD a 0⟩ := by
    rw [h.sliders, slidersFor, List.getElem?_map]
  cases hj : (sliderAxes s.shape)[j]? with
  | none =>
    rw [hj] at hsl
    simp only [Option.map_none] at hsl
    simp only [hsl]
    exact ⟨trivial, h⟩
  | some a =>
    rw [hj] at hsl hm
    simp only [Option.map_some] at hsl
    simp only [hsl, h.current, h.idx, h.updating] at hm ⊢
    refine makePlot_showing hm _ h.shown ?_ h.keys
    show (f.sliders.set j _).map _ = _
    rw [List.map_set, h.sliders, slidersFor_map]
    have hlt : j < (sliderAxes s.shape).length := (List.getElem?_eq_some_iff.mp hj).1
    have ea : (sliderAxes s.shape)[j] = a := (List.getElem?_eq_some_iff.mp hj).2
    apply List.ext_getElem
    · simp
    · intro n h1 h2
      rw [List.getElem_set]
      split_ifs with e
      · subst e; simp [ea]
      · rfl

/-- The stack that was drawn last. -/
def lastDrawn : List (Event α) → Option (Stack α)
  | [] => none
  | e :: es => match lastDrawn es with
    | some s => some s
    | none => match e with
      | .draw s => some s
      | _ => none

/-- What an event does to the index of the image on display. -/
def follow (shape : List ℕ) (i : List ℕ) : Event α → List ℕ
  | .draw _ => i
  | .up => odometer (-1) shape i
  | .down => odometer 1 shape i
  | .slide j v => moved shape j v i

theorem step_showing {s : Stack α} {i : List ℕ} {f : Fig α} (h : Showing s i f) (e : Event α)
    (he : ∀ s', e = .draw s' → s'.shape = s.shape) :
    (step f e).2 = true ∧ Showing ((lastDrawn [e]).getD s) (follow s.shape i e) (step f e).1 := by
  cases e with
  | draw s' => exact draw_showing h (he s' rfl)
  | up => exact press_showing h (-1) (Or.inr rfl)
  | down => exact press_showing h 1 (Or.inl rfl)
  | slide j v => exact slide_showing h j v

theorem lastDrawn_cons (e : Event α) (es : List (Event α)) (s : Stack α) :
    (lastDrawn (e :: es)).getD s = (lastDrawn es).getD ((lastDrawn [e]).getD s) := by
  cases e <;> simp only [lastDrawn] <;> cases lastDrawn es <;> rfl

theorem run_showing (s : Stack α) (i : List ℕ) (f : Fig α) (h : Showing s i f) (es : List (Event α))
    (hes : ∀ s', Event.draw s' ∈ es → s'.shape = s.shape) :
    (run f es).2 = true ∧ Showing ((lastDrawn es).getD s) (es.foldl (follow s.shape) i) (run f es).1 := by
  induction es generalizing s i f with
  | nil => exact ⟨rfl, h⟩
  | cons e es ih =>
    obtain ⟨a, b⟩ := step_showing h e fun s' hs' => hes s' (by simp [hs'])
    have hsh : ((lastDrawn [e]).getD s).shape = s.shape := by
      cases e with
      | draw s' => exact hes s' (by simp)
      | up => rfl
      | down => rfl
      | slide j v => rfl
    obtain ⟨c, d⟩ := ih _ _ _ b fun s' hs' => by rw [hsh]; exact hes s' (by simp [hs'])
    rw [lastDrawn_cons]
    rw [hsh] at d
    refine ⟨?_, ?_⟩
    · show ((step f e).2 && (run (step f e).1 es).2) = true
      rw [a, c]; rfl
    · exact d

/-- **C81.** For every history of redrawing with stacks of one shape, key presses and slider moves: nothing raises, the
figure shows the stack that was drawn last, at an index of that stack which results from the key presses and slider moves
alone (redrawing does not change it), and the sliders show that index. -/
theorem browse_history (s : Stack α) (hpos : ∀ d ∈ s.shape, 0 < d) (es : List (Event α))
    (hes : ∀ s', Event.draw s' ∈ es → s'.shape = s.shape) :
    let r := run (Fig.new : Fig α) (.draw s :: es)
    let i := es.foldl (follow s.shape) (List.replicate s.shape.length 0)
    r.2 = true ∧ IsIndex s.shape i ∧ r.1.shown = some (((lastDrawn es).getD s).im, i) ∧
      r.1.sliders.map (fun sl => (sl.axis, sl.val)) = (sliderAxes s.shape).map fun a => (a, i.getD a 0) := by
  obtain ⟨a, b⟩ := draw_new (α := α) hpos
  obtain ⟨c, d⟩ := run_showing s _ _ b es hes
  have hsh : ((lastDrawn es).getD s).shape = s.shape := by
    have : ∀ es : List (Event α), (∀ s', Event.draw s' ∈ es → s'.shape = s.shape) →
        ((lastDrawn es).getD s).shape = s.shape := by
      intro es
      induction es with
      | nil => intro _; rfl
      | cons e es ih =>
        intro h
        have := ih fun s' hs' => h s' (by simp [hs'])
        cases hl : lastDrawn es with
        | some s2 => simp only [lastDrawn, hl] at this ⊢; exact this
        | none =>
          cases e with
          | draw s' => simp only [lastDrawn, hl]; exact h s' (by simp)
          | up => simp [lastDrawn, hl]
          | down => simp [lastDrawn, hl]
          | slide j v => simp [lastDrawn, hl]
    exact this es hes
  refine ⟨?_, by simpa [hsh] using d.valid, d.shown, ?_⟩
  · show ((plotImage s Fig.new).2 && (run (plotImage s Fig.new).1 es).2) = true
    rw [a, c]; rfl
  · show (run (plotImage s Fig.new).1 es).1.sliders.map _ = _
    rw [d.sliders, hsh]
    simp [slidersFor, Function.comp_def]

example : (run (Fig.new : Fig ℕ) [.draw ⟨0, [2, 3]⟩, .down, .slide 0 1, .draw ⟨1, [2, 3]⟩, .down, .down]).1.shown =
    some (1, [0, 0]) := by decide

theorem setSliders_ok (idx axes : List ℕ) (ss : List Slider) :
    (setSliders idx axes ss).2 = true ↔ axes.length ≤ ss.length := by
  induction axes generalizing ss with
  | nil => simp [setSliders]
  | cons a as ih => cases ss with
    | nil => simp [setSliders]
    | cons t ss => simp [setSliders, ih]

/-- **C81, violated part.** A stack of another shape with as many axes (for instance the probe modes after `tidy_probes`):
the redraw raises exactly if the index on display is not an index of the new stack, or if more axes need a slider than
before. In the first case the old image stays on display. -/
theorem browse_reshape_violated (s s' : Stack α) (i : List ℕ) (f : Fig α) (h : Showing s i f)
    (hl : s'.shape.length = s.shape.length) :
    ((plotImage s' f).2 = false ↔
      ¬ IsIndex s'.shape i ∨ (sliderAxes s.shape).length < (sliderAxes s'.shape).length) ∧
    (¬ IsIndex s'.shape i → (plotImage s' f).1.shown = some (s.im, i)) := by
  have hl' : i.length = s'.shape.length := by rw [hl]; exact List.Forall₂.length_eq h.valid
  have hlen : f.sliders.length = (sliderAxes s.shape).length := by rw [h.sliders, slidersFor, List.length_map]
  unfold plotImage
  simp only [h.idx, hl', if_true]
  have h2 : (makePlot s' i f).2 = true ↔ IsIndex s'.shape i ∧ (sliderAxes s'.shape).length ≤ (sliderAxes s.shape).length := by
    unfold makePlot
    simp only [h.shown]
    by_cases hb : inBounds s'.shape i = true
    · rw [if_pos hb, setSliders_ok, hlen]
      exact ⟨fun x => ⟨(inBounds_iff _ _).mp hb, x⟩, fun x => x.2⟩
    · rw [if_neg hb]
      have : ¬ IsIndex s'.shape i := fun hc => hb ((inBounds_iff _ _).mpr hc)
      simp [this]
  refine ⟨?_, fun hn => ?_⟩
  · by_cases hm : (makePlot s' i f).2 = true
    · rw [if_pos hm]
      have := h2.mp hm
      simp only [Bool.true_eq_false, false_iff, not_or, not_not, not_lt]
      exact this
    · rw [if_neg hm]
      have : (makePlot s' i f).2 = false := by simpa using hm
      rw [this]
      simp only [true_iff]
      by_contra hc
      push Not at hc
      exact hm (h2.mpr hc)
  · have hm : ¬ (makePlot s' i f).2 = true := fun hc => hn (h2.mp hc).1
    rw [if_neg hm]
    unfold makePlot
    have hb : ¬ inBounds s'.shape i = true := fun hc => hn ((inBounds_iff _ _).mp hc)
    simp only [hb, if_neg, Bool.false_eq_true]
    exact h.shown

/-- **C81, violated part.** A redraw that fails because more axes need a slider than before shows the new image, but leaves
the figure locked: from then on moving a slider raises nothing and changes nothing on display. -/
theorem browse_locked_violated (s s' : Stack α) (i : List ℕ) (f : Fig α) (h : Showing s i f)
    (hl : s'.shape.length = s.shape.length) (hi : IsIndex s'.shape i)
    (hn : (sliderAxes s.shape).length < (sliderAxes s'.shape).length) (moves : List (ℕ × ℕ)) :
    let g := (plotImage s' f).1
    g.shown = some (s'.im, i) ∧
    (run g (moves.map fun m => Event.slide m.1 m.2)).2 = true ∧
    (run g (moves.map fun m => Event.slide m.1 m.2)).1.shown = some (s'.im, i) ∧
    (run g (moves.map fun m => Event.slide m.1 m.2)).1.idx = some i := by
  have hl' : i.length = s'.shape.length := by rw [hl]; exact List.Forall₂.length_eq h.valid
  have hlen : f.sliders.length = (sliderAxes s.shape).length := by rw [h.sliders, slidersFor, List.length_map]
  have hb : inBounds s'.shape i = true := (inBounds_iff _ _).mpr hi
  have hs : (setSliders i (sliderAxes s'.shape) f.sliders).2 = false := by
    by_contra hc
    have := (setSliders_ok i (sliderAxes s'.shape) f.sliders).mp (by simpa using hc)
    omega
  have hg : (plotImage s' f).1.shown = some (s'.im, i) ∧ (plotImage s' f).1.idx = some i ∧
      (plotImage s' f).1.updating = true := by
    unfold plotImage
    simp only [h.idx, hl', if_true]
    unfold makePlot
    simp only [h.shown, hb, if_true, hs]
    simp
  have key : ∀ (ms : List (ℕ × ℕ)) (g : Fig α), g.shown = some (s'.im, i) → g.idx = some i → g.updating = true →
      (run g (ms.map fun m => Event.slide m.1 m.2)).2 = true ∧
      (run g (ms.map fun m => Event.slide m.1 m.2)).1.shown = some (s'.im, i) ∧
      (run g (ms.map fun m => Event.slide m.1 m.2)).1.idx = some i := by
    intro ms
    induction ms with
    | nil => exact fun g a b _ => ⟨rfl, a, b⟩
    | cons m ms ih =>
      intro g a b c
      have hstep : (slide m.1 m.2 g).2 = true ∧ (slide m.1 m.2 g).1.shown = some (s'.im, i) ∧
          (slide m.1 m.2 g).1.idx = some i ∧ (slide m.1 m.2 g).1.updating = true := by
        unfold slide
        split
        · simp only [c, if_true]
          exact ⟨trivial, a, b, trivial⟩
        · exact ⟨rfl, a, b, c⟩
      have := ih (slide m.1 m.2 g).1 hstep.2.1 hstep.2.2.1 hstep.2.2.2
      refine ⟨?_, this.2⟩
      show ((slide m.1 m.2 g).2 && _) = true
      rw [hstep.1]
      exact this.1
  exact ⟨hg.1, key moves _ hg.1 hg.2.1 hg.2.2⟩

/-- A stack of `1 × 2` images replaced by one of `2 × 2`: the slider no longer works. -/
example : (run (Fig.new : Fig ℕ) [.draw ⟨0, [1, 2]⟩, .draw ⟨1, [2, 2]⟩, .slide 0 1]).1.shown = some (1, [0, 0]) := by decide

/-- Three probe modes, the last one on display; then the stack has two. -/
example : (run (Fig.new : Fig ℕ) [.draw ⟨0, [3]⟩, .up, .draw ⟨1, [2]⟩]).2 = false := by decide
/-- One mode, then two: there is no slider to set. -/
example : (run (Fig.new : Fig ℕ) [.draw ⟨0, [1]⟩, .draw ⟨1, [2]⟩]).2 = false := by decide

/-! ### The nanomap browser and `compare` -/

theorem pred_mod (x N : ℕ) (hN : 0 < N) (hx : x < N) :
    (((x : ℤ) - 1) % N).toNat < N ∧ ((((x : ℤ) - 1) % N).toNat + 1) % N = x := by
  have h0 : (0 : ℤ) < N := by exact_mod_cast hN
  rcases Nat.eq_zero_or_pos x with rfl | hp
  · have : (((0 : ℕ) : ℤ) - 1) % N = N - 1 := by
      rw [show (((0 : ℕ) : ℤ) - 1) = (N - 1) - N by push_cast; ring, Int.sub_emod_right]
      exact Int.emod_eq_of_lt (by omega) (by omega)
    rw [this]
    have : ((N : ℤ) - 1).toNat = N - 1 := by omega
    rw [this]
    refine ⟨by omega, ?_⟩
    rw [Nat.sub_add_cancel hN, Nat.mod_self]
  · have : ((x : ℤ) - 1) % N = x - 1 := Int.emod_eq_of_lt (by omega) (by omega)
    rw [this]
    have : ((x : ℤ) - 1).toNat = x - 1 := by omega
    rw [this]
    refine ⟨by omega, ?_⟩
    rw [Nat.sub_add_cancel hp, Nat.mod_eq_of_lt hx]

theorem succ_mod_pred (x N : ℕ) (hN : 0 < N) (hx : x < N) : (((((x + 1) % N : ℕ) : ℤ) - 1) % N).toNat = x := by
  have h1 := pred_mod ((x + 1) % N) N hN (Nat.mod_lt _ hN)
  have h2 : ((((((x + 1) % N : ℕ) : ℤ) - 1) % N).toNat + 1) % N = (x + 1) % N := h1.2
  have h3 : ((((((x + 1) % N : ℕ) : ℤ) - 1) % N).toNat) % N = x % N := Nat.ModEq.add_right_cancel' 1 h2
  rwa [Nat.mod_eq_of_lt h1.1, Nat.mod_eq_of_lt hx] at h3

/-- **C81.** The browser of a dataset: whatever happens, the exposure on display is one of the `N` exposures and the image
one of the `K` images of its stack; and the left and right keys undo each other. -/
theorem nanomap_in_range (N : ℕ) (K : Option ℕ) (hN : 0 < N) (hK : ∀ k, K = some k → 0 < k) (es : List NanoEvent)
    (hp : ∀ i, NanoEvent.pick i ∈ es → i < N) :
    let s := es.foldl (nanoStep N K) ⟨0, 0⟩
    s.idx < N ∧ (∀ k, K = some k → s.im < k) ∧
      (∀ b, nanoStep N K (nanoStep N K s (.left b)) (.right b) = s) ∧
      (∀ b, nanoStep N K (nanoStep N K s (.right b)) (.left b) = s) := by
  have inv : ∀ (es : List NanoEvent) (s : Nano), (∀ i, NanoEvent.pick i ∈ es → i < N) →
      (s.idx < N ∧ ∀ k, K = some k → s.im < k) →
      ((es.foldl (nanoStep N K) s).idx < N ∧ ∀ k, K = some k → (es.foldl (nanoStep N K) s).im < k) := by
    intro es
    induction es with
    | nil => intro s _ h; exact h
    | cons e es ih =>
      intro s hp h
      apply ih _ fun i hi => hp i (by simp [hi])
      obtain ⟨h1, h2⟩ := h
      cases e with
      | left b => cases K with
        | none => exact ⟨(pred_mod _ _ hN h1).1, by simp⟩
        | some k => cases b with
          | true => exact ⟨h1, fun k' hk => by cases hk; exact (pred_mod _ _ (hK k rfl) (h2 k rfl)).1⟩
          | false => exact ⟨(pred_mod _ _ hN h1).1, h2⟩
      | right b => cases K with
        | none => exact ⟨Nat.mod_lt _ hN, by simp⟩
        | some k => cases b with
          | true => exact ⟨h1, fun k' hk => by cases hk; exact Nat.mod_lt _ (hK k rfl)⟩
          | false => exact ⟨Nat.mod_lt _ hN, h2⟩
      | scrollUp b => exact ⟨h1, h2⟩
      | scrollDown b => exact ⟨h1, h2⟩
      | pick i => exact ⟨hp i (by simp), h2⟩
      | slide v => exact ⟨by show min v (N - 1) < N; omega, h2⟩
  intro s
  obtain ⟨h1, h2⟩ := inv es ⟨0, 0⟩ hp ⟨hN, hK⟩
  refine ⟨h1, h2, fun b => ?_, fun b => ?_⟩
  all_goals
    cases K with
    | none => first
        | exact congrArg (fun x => Nano.mk x s.im) (pred_mod s.idx N hN h1).2
        | exact congrArg (fun x => Nano.mk x s.im) (succ_mod_pred s.idx N hN h1)
    | some k => cases b with
      | true => first
          | exact congrArg (fun x => Nano.mk s.idx x) (pred_mod s.im k (hK k rfl) (h2 k rfl)).2
          | exact congrArg (fun x => Nano.mk s.idx x) (succ_mod_pred s.im k (hK k rfl) (h2 k rfl))
      | false => first
          | exact congrArg (fun x => Nano.mk x s.im) (pred_mod s.idx N hN h1).2
          | exact congrArg (fun x => Nano.mk x s.im) (succ_mod_pred s.idx N hN h1)

/-- **C81.** Moving to the right goes through all exposures in order. -/
theorem nanomap_right_visits (N : ℕ) (hN : 0 < N) (s : Nano) (hs : s.idx < N) (k : ℕ) :
    ((fun s => nanoStep N none s (.right false))^[k] s).idx = (s.idx + k) % N := by
  induction k with
  | zero => simp [Nat.mod_eq_of_lt hs]
  | succ k ih =>
    rw [Function.iterate_succ_apply']
    show (((fun s => nanoStep N none s (.right false))^[k] s).idx + 1) % N = _
    rw [ih, Nat.mod_add_mod, add_assoc]

/-- **C81, violated part.** The scroll wheel, for which the code registers a callback, never does anything. -/
theorem nanomap_scroll_violated (N : ℕ) (K : Option ℕ) (s : Nano) (b : Bool) :
    nanoStep N K s (.scrollUp b) = s ∧ nanoStep N K s (.scrollDown b) = s := ⟨rfl, rfl⟩

/-- **C81.** `compare` shows one of the exposures after any history; up and down undo each other. -/
theorem compare_in_range (N : ℕ) (hN : 0 < N) (es : List CompareEvent) :
    let i := es.foldl (compareStep N) 0
    i < N ∧ compareStep N i .down = (i + 1) % N ∧ compareStep N (compareStep N i .up) .down = i ∧
      compareStep N (compareStep N i .down) .up = i ∧ (∀ v < N, compareStep N i (.slide v) = v) := by
  have upd : ∀ x : ℤ, compareUpdate N x < N := by
    intro x
    have h0 : (0 : ℤ) < N := by exact_mod_cast hN
    have := Int.emod_lt_of_pos x h0
    have := Int.emod_nonneg x h0.ne'
    unfold compareUpdate; omega
  have same : ∀ x : ℕ, x < N → compareUpdate N x = x := by
    intro x hx
    unfold compareUpdate
    rw [Int.emod_eq_of_lt (by omega) (by exact_mod_cast hx)]; simp
  have inv : ∀ (es : List CompareEvent) (i : ℕ), i < N → es.foldl (compareStep N) i < N := by
    intro es
    induction es with
    | nil => intro i h; exact h
    | cons e es ih => intro i h; apply ih; cases e <;> exact upd _
  intro i
  have hi : i < N := inv es 0 hN
  have up : ∀ x, compareStep N x .up = (((x : ℤ) - 1) % N).toNat := fun x => same _ (upd _)
  have down : ∀ x : ℕ, compareStep N x .down = (x + 1) % N := by
    intro x
    show compareUpdate N (compareUpdate N ((x : ℤ) + 1)) = _
    rw [same _ (upd _)]
    unfold compareUpdate
    have : ((x : ℤ) + 1) % N = ((x + 1) % N : ℕ) := by push_cast; rfl
    rw [this]; exact Int.toNat_natCast _
  refine ⟨hi, down i, ?_, ?_, fun v hv => ?_⟩
  · rw [up, down]; exact (pred_mod i N hN hi).2
  · rw [down, up]; exact succ_mod_pred i N hN hi
  · show compareUpdate N (min v (N - 1) : ℕ) = v
    rw [show min v (N - 1) = v by omega]
    exact same v hv

/-- **C81.** At pixels in use the third image is the first minus the second; elsewhere the second and the third are zero. -/
theorem compare_difference (sim meas : ℝ) :
    (comparePixel sim meas 1).2.2 = (comparePixel sim meas 1).1 - (comparePixel sim meas 1).2.1 ∧
      (comparePixel sim meas 0).2 = (0, 0) := by
  simp [comparePixel]

/-- **C81, violated part.** `compare` fails for RPI models: the simulated data of a batch of one exposure have four axes,
and three of them are left, which is no image. -/
theorem compare_rpi_violated (n m s : ℕ) (hn : n / s ≠ 0) (hm : m / s ≠ 0) :
    ∃ sh, rpiSimShape n m s (some 1) [n / s, m / s] = .ok sh ∧ (compareShape sh).length = 3 := by
  refine ⟨[1, 1, n / s, m / s], ?_, rfl⟩
  have : ¬ (s ≠ 1 ∧ (n / s = 0 ∨ m / s = 0)) := by tauto
  unfold rpiSimShape
  rw [if_neg this]
  simp [broadcastShapes, bcRev, bcDim]

example : compareShape [1, 4, 4] = [4, 4] := rfl

end Cdtools.Browse
