/- Property theorems C115: a batch of exposures is simulated as its members are. -/
import Verif.Model.Batch
import Verif.Props.Stability
import Verif.Props.ModelLoss
import Verif.Props.Geometry

set_option linter.unusedSectionVars false

namespace Cdtools
open Finset Matrix

variable {n m a b N k : ℕ} [NeZero n] [NeZero m] [NeZero a] [NeZero b]

/-! ### Broadcasting -/

@[simp] theorem bcDim_self (x : ℕ) : bcDim x x = some x := if_pos rfl
@[simp] theorem bcDim_one_right (x : ℕ) : bcDim x 1 = some x := by
  unfold bcDim; split_ifs <;> simp_all
@[simp] theorem bcDim_one_left (x : ℕ) : bcDim 1 x = some x := by
  unfold bcDim; split_ifs <;> simp_all

theorem bcIdx {d x : ℕ} (h : x < d) : (if d = 1 then 0 else x) = x := by split_ifs <;> omega

/-- `A` is a stack of `S × r` wave fields. -/
def Rep4 (A : Tensor ℂ) (S r : ℕ) (f : ℕ → ℕ → Wave n m) : Prop :=
  A.shape = [S, r, n, m] ∧ ∀ s < S, ∀ j < r, ∀ x < n, ∀ y < m, A.get [s, j, x, y] = f s j x y

/-- `A` is a stack of `r` wave fields. -/
def Rep3 (A : Tensor ℂ) (r : ℕ) (f : ℕ → Wave n m) : Prop :=
  A.shape = [r, n, m] ∧ ∀ j < r, ∀ x < n, ∀ y < m, A.get [j, x, y] = f j x y

theorem Rep4.planes {A : Tensor ℂ} {S r : ℕ} {f : ℕ → ℕ → Wave n m} (h : Rep4 A S r f) (F : Wave n m → Wave a b) :
    ∃ A', A.planes n m a b (onWave F) = .ok A' ∧ Rep4 A' S r fun s j => F (f s j) := by
  obtain ⟨hs, hv⟩ := h
  unfold Tensor.planes
  refine ⟨_, if_pos (by rw [hs]; rfl), by simp [hs], fun s hs' j hj x hx y hy => ?_⟩
  simp only [hs, List.length_cons, List.length_nil]
  show F (fun u v => A.get [s, j, u.val, v.val]) (x : ZMod a) (y : ZMod b) = _
  congr 1
  congr 1
  funext u v
  rw [hv s hs' j hj u.val (ZMod.val_lt u) v.val (ZMod.val_lt v), ZMod.natCast_zmod_val, ZMod.natCast_zmod_val]

theorem Rep3.planes {A : Tensor ℂ} {r : ℕ} {f : ℕ → Wave n m} (h : Rep3 A r f) (F : Wave n m → Wave a b) :
    ∃ A', A.planes n m a b (onWave F) = .ok A' ∧ Rep3 A' r fun j => F (f j) := by
  obtain ⟨hs, hv⟩ := h
  unfold Tensor.planes
  refine ⟨_, if_pos (by rw [hs]; rfl), by simp [hs], fun j hj x hx y hy => ?_⟩
  simp only [hs, List.length_cons, List.length_nil]
  show F (fun u v => A.get [j, u.val, v.val]) (x : ZMod a) (y : ZMod b) = _
  congr 1
  congr 1
  funext u v
  rw [hv j hj u.val (ZMod.val_lt u) v.val (ZMod.val_lt v), ZMod.natCast_zmod_val, ZMod.natCast_zmod_val]

/-- A stack of modes for every exposure times one image per exposure. -/
theorem Rep4.bop {A C : Tensor ℂ} {S r : ℕ} {f : ℕ → ℕ → Wave n m} (h : Rep4 A S r f) (g : ℕ → Wave n m) (hC : C.shape = [S, 1, n, m])
    (hg : ∀ s < S, ∀ x < n, ∀ y < m, C.get [s, 0, x, y] = g s x y) (F : ℂ → ℂ → ℂ) :
    ∃ A', A.bop F C = .ok A' ∧ Rep4 A' S r fun s j x y => F (f s j x y) (g s x y) := by
  obtain ⟨hs, hv⟩ := h
  have hb : broadcastShapes [S, r, n, m] [S, 1, n, m] = some [S, r, n, m] := by
    simp [broadcastShapes, bcRev]
  unfold Tensor.bop
  rw [hs, hC, hb]
  refine ⟨_, rfl, rfl, fun s hs' j hj x hx y hy => ?_⟩
  show F (A.bget [s, j, x, y]) (C.bget [s, j, x, y]) = _
  unfold Tensor.bget
  simp only [hs, hC, List.length_cons, List.length_nil, Nat.sub_self, List.drop_zero, List.zipWith_cons_cons, List.zipWith_nil_left,
    bcIdx hs', bcIdx hj, bcIdx hx, bcIdx hy, if_true]
  rw [hv s hs' j hj x hx y hy, hg s hs' x hx y hy]

/-- The same for images with axes of length one, which are repeated. -/
theorem Rep4.bop_thin {A C : Tensor ℂ} {S r e0 e1 : ℕ} {f : ℕ → ℕ → Wave n m} (h : Rep4 A S r f) (g : ℕ → Wave n m) (hC : C.shape = [S, 1, e0, e1])
    (h0 : e0 = n ∨ e0 = 1) (h1 : e1 = m ∨ e1 = 1)
    (hg : ∀ s < S, ∀ x < n, ∀ y < m, C.get [s, 0, if e0 = 1 then 0 else x, if e1 = 1 then 0 else y] = g s x y) (F : ℂ → ℂ → ℂ) :
    ∃ A', A.bop F C = .ok A' ∧ Rep4 A' S r fun s j x y => F (f s j x y) (g s x y) := by
  obtain ⟨hs, hv⟩ := h
  have hb : broadcastShapes [S, r, n, m] [S, 1, e0, e1] = some [S, r, n, m] := by
    have h0' : bcDim n e0 = some n := by rcases h0 with rfl | rfl <;> simp
    have h1' : bcDim m e1 = some m := by rcases h1 with rfl | rfl <;> simp
    simp [broadcastShapes, bcRev, h0', h1']
  unfold Tensor.bop
  rw [hs, hC, hb]
  refine ⟨_, rfl, rfl, fun s hs' j hj x hx y hy => ?_⟩
  show F (A.bget [s, j, x, y]) (C.bget [s, j, x, y]) = _
  unfold Tensor.bget
  simp only [hs, hC, List.length_cons, List.length_nil, Nat.sub_self, List.drop_zero, List.zipWith_cons_cons, List.zipWith_nil_left,
    bcIdx hs', bcIdx hj, bcIdx hx, bcIdx hy, if_true]
  rw [hv s hs' j hj x hx y hy, hg s hs' x hx y hy]

/-- A stack of modes times one image, with an axis for the single exposure. -/
theorem Rep3.bop {A C : Tensor ℂ} {r : ℕ} {f : ℕ → Wave n m} (h : Rep3 A r f) (g : Wave n m) (hC : C.shape = [1, 1, n, m])
    (hg : ∀ x < n, ∀ y < m, C.get [0, 0, x, y] = g x y) (F : ℂ → ℂ → ℂ) :
    ∃ A', A.bop F C = .ok A' ∧ Rep4 A' 1 r fun _ j x y => F (f j x y) (g x y) := by
  obtain ⟨hs, hv⟩ := h
  have hb : broadcastShapes [r, n, m] [1, 1, n, m] = some [1, r, n, m] := by
    simp [broadcastShapes, bcRev]
  unfold Tensor.bop
  rw [hs, hC, hb]
  refine ⟨_, rfl, rfl, fun s hs' j hj x hx y hy => ?_⟩
  show F (A.bget [s, j, x, y]) (C.bget [s, j, x, y]) = _
  unfold Tensor.bget
  simp only [hs, hC, List.length_cons, List.length_nil, Nat.sub_self, List.drop_zero, List.zipWith_cons_cons, List.zipWith_nil_left,
    bcIdx hj, bcIdx hx, bcIdx hy, if_true]
  show F (A.get (List.zipWith (fun d x => if d = 1 then 0 else x) [r, n, m] [j, x, y])) _ = _
  simp only [List.zipWith_cons_cons, List.zipWith_nil_left, bcIdx hj, bcIdx hx, bcIdx hy]
  rw [hv j hj x hx y hy, hg x hx y hy]

/-! ### Shifting, windows and the exit wave -/

/-- A wave field shifted by a phase mask (or its conjugate) in Fourier space. -/
noncomputable def shiftedWave (back : Bool) (mask w : Wave a b) : Wave a b :=
  ifft2 (ifftshift2 fun x y => fftshift2 (fft2 w) x y * (if back then (starRingEnd ℂ) (mask x y) else mask x y))

theorem shiftWaves_rep4 {A masks : Tensor ℂ} {S r : ℕ} {f : ℕ → ℕ → Wave a b} (h : Rep4 A S r f) (g : ℕ → Wave a b) (hm : masks.shape = [S, a, b])
    (hg : ∀ s < S, ∀ x < a, ∀ y < b, masks.get [s, x, y] = g s x y) (back : Bool) :
    ∃ A', shiftWaves true back masks A a b = .ok A' ∧ Rep4 A' S r fun s j => shiftedWave back (g s) (f s j) := by
  obtain ⟨A1, e1, r1⟩ := h.planes (fun w : Wave a b => fftshift2 (fft2 w))
  obtain ⟨A2, e2, r2⟩ := r1.bop (C := masks.newAxis 2) g (by simp [Tensor.newAxis, hm]) (fun s hs x hx y hy => hg s hs x hx y hy)
    (fun z w => z * (if back then (starRingEnd ℂ) w else w))
  obtain ⟨A3, e3, r3⟩ := r2.planes (fun w : Wave a b => ifft2 (ifftshift2 w))
  refine ⟨A3, ?_, r3⟩
  unfold shiftWaves
  rw [e1]
  simp only [Except.bind, if_true]
  rw [e2]
  exact e3

theorem shiftWaves_rep3 {A masks : Tensor ℂ} {r : ℕ} {f : ℕ → Wave a b} (h : Rep3 A r f) (g : Wave a b) (hm : masks.shape = [1, a, b])
    (hg : ∀ x < a, ∀ y < b, masks.get [0, x, y] = g x y) (back : Bool) :
    ∃ A', shiftWaves true back masks A a b = .ok A' ∧ Rep4 A' 1 r fun _ j => shiftedWave back g (f j) := by
  obtain ⟨A1, e1, r1⟩ := h.planes (fun w : Wave a b => fftshift2 (fft2 w))
  obtain ⟨A2, e2, r2⟩ := r1.bop (C := masks.newAxis 2) g (by simp [Tensor.newAxis, hm]) (fun x hx y hy => hg x hx y hy)
    (fun z w => z * (if back then (starRingEnd ℂ) w else w))
  obtain ⟨A3, e3, r3⟩ := r2.planes (fun w : Wave a b => ifft2 (ifftshift2 w))
  refine ⟨A3, ?_, r3⟩
  unfold shiftWaves
  rw [e1]
  simp only [Except.bind, if_true]
  rw [e2]
  exact e3

theorem stack_range {α : Type} (S : ℕ) (hS : 0 < S) (T : ℕ → Tensor α) (sh : List ℕ) (h : ∀ s < S, (T s).shape = sh) :
    ∃ A, Tensor.stack ((List.range S).map T) = .ok A ∧ A.shape = S :: sh ∧ ∀ s < S, ∀ i, A.get (s :: i) = (T s).get i := by
  cases hl : (List.range S).map T with
  | nil =>
    have := congrArg List.length hl
    simp at this
    omega
  | cons B rest =>
    have hmem : ∀ C ∈ B :: rest, C.shape = sh := by
      intro C hC
      rw [← hl] at hC
      obtain ⟨s, hs, rfl⟩ := List.mem_map.1 hC
      exact h s (List.mem_range.1 hs)
    have hlen : (B :: rest).length = S := by rw [← hl]; simp
    refine ⟨_, if_pos fun C hC => ?_, ?_, fun s hs i => ?_⟩
    · rw [hmem C (List.mem_cons_of_mem _ hC), hmem B List.mem_cons_self]
    · rw [hlen, hmem B List.mem_cons_self]
    · simp only [List.headD_cons, List.tail_cons]
      rw [← hl]
      simp [hs]

/-- The windows of a batch all have `e0 × e1` pixels. -/
structure SameWindows (O : Img ℂ) (a b S : ℕ) (p : ℕ → Fin 2 → ℝ) (e0 e1 : ℕ) : Prop where
  rows : ∀ s < S, (sliceExtent O.h ⌊p s 0⌋ (⌊p s 0⌋ + a)).2 = e0
  cols : ∀ s < S, (sliceExtent O.w ⌊p s 1⌋ (⌊p s 1⌋ + b)).2 = e1

/-- The object as exposure `s` sees it, when the windows have `e0 × e1` pixels: a single row or column is repeated. -/
noncomputable def seen (O : Img ℂ) (a b : ℕ) (q : Fin 2 → ℝ) (e0 e1 : ℕ) : Wave a b := fun x y =>
  O.px ((sliceExtent O.h ⌊q 0⌋ (⌊q 0⌋ + a)).1 + if e0 = 1 then 0 else x.val) ((sliceExtent O.w ⌊q 1⌋ (⌊q 1⌋ + b)).1 + if e1 = 1 then 0 else y.val)

theorem sincApply_eq (sb : Bool) (tr : ℝ × ℝ) (sel p : Wave a b) :
    sincApply sb tr sel p = if sb then shiftedWave true (phaseMask (tr.1 - ⌊tr.1⌋) (tr.2 - ⌊tr.2⌋)) (fun i j =>
      shiftedWave false (phaseMask (tr.1 - ⌊tr.1⌋) (tr.2 - ⌊tr.2⌋)) p i j * sel i j)
      else fun i j => shiftedWave false (phaseMask (tr.1 - ⌊tr.1⌋) (tr.2 - ⌊tr.2⌋)) p i j * sel i j := by
  unfold sincApply shiftedWave
  cases sb <;> simp

/-- `ptycho_2D_sinc` on a batch. -/
theorem sinc2D_many {P : Tensor ℂ} {S r : ℕ} (hS : 0 < S) {f : ℕ → ℕ → Wave a b} (hP : Rep4 P S r f) (O : Img ℂ) (T : Tensor ℝ)
    (p : ℕ → Fin 2 → ℝ) (hT : T.shape = [S, 2]) (hp0 : ∀ s < S, T.get [s, 0] = p s 0) (hp1 : ∀ s < S, T.get [s, 1] = p s 1)
    {e0 e1 : ℕ} (h0 : e0 = a ∨ e0 = 1) (h1 : e1 = b ∨ e1 = 1) (hw : SameWindows O a b S p e0 e1) (sb : Bool) :
    ∃ A, sinc2D a b true sb P O.tensor T = .ok A ∧ Rep4 A S r fun s j => sincApply sb (p s 0, p s 1) (seen O a b (p s) e0 e1) (f s j) := by
  have hns : decide (T.shape.length = 1) = false := by rw [hT]; rfl
  unfold sinc2D
  simp only [hns]
  simp only [Bool.false_eq_true, if_false]
  have hh : T.shape.headD 0 = S := by rw [hT]; rfl
  rw [hh]
  obtain ⟨sel, es, ss, vs⟩ := stack_range S hS (fun s => O.tensor.window a b ⌊T.get [s, 0]⌋ ⌊T.get [s, 1]⌋) [e0, e1] (fun s hs => by
    rw [hp0 s hs, hp1 s hs]
    have i0 := hw.rows s hs
    have i1 := hw.cols s hs
    simp only [Tensor.window, Img.tensor, List.length_cons, List.length_nil]
    show [(sliceExtent O.h ⌊p s 0⌋ (⌊p s 0⌋ + a)).2, (sliceExtent O.w ⌊p s 1⌋ (⌊p s 1⌋ + b)).2] = _
    rw [i0, i1])
  rw [es]
  simp only [Except.bind]
  obtain ⟨A1, q1, r1⟩ := shiftWaves_rep4 (masks := ⟨[S, a, b], fun i => phaseMask (n := a) (m := b)
      (T.get [i.getD 0 0, 0] - ⌊T.get [i.getD 0 0, 0]⌋) (T.get [i.getD 0 0, 1] - ⌊T.get [i.getD 0 0, 1]⌋)
      (i.getD 1 0 : ZMod a) (i.getD 2 0 : ZMod b)⟩) hP (fun s => phaseMask (p s 0 - ⌊p s 0⌋) (p s 1 - ⌊p s 1⌋)) rfl
    (fun s hs x hx y hy => by
      show phaseMask (T.get [s, 0] - ⌊T.get [s, 0]⌋) (T.get [s, 1] - ⌊T.get [s, 1]⌋) (x : ZMod a) (y : ZMod b) = _
      rw [hp0 s hs, hp1 s hs]) false
  rw [q1]
  simp only [ss, List.length_cons, List.length_nil, and_self, if_true]
  obtain ⟨A2, q2, r2⟩ := r1.bop_thin (C := sel.newAxis 2) (fun s => seen O a b (p s) e0 e1) (by simp [Tensor.newAxis, ss]) h0 h1 (fun s hs x hx y hy => by
    show sel.get (s :: [if e0 = 1 then 0 else x, if e1 = 1 then 0 else y]) = _
    rw [vs s hs]
    simp only [Tensor.window, Img.tensor, List.length_cons, List.length_nil]
    show O.px _ _ = _
    unfold seen
    rw [hp0 s hs, hp1 s hs, ZMod.val_natCast_of_lt hx, ZMod.val_natCast_of_lt hy]
    rfl) (· * ·)
  rw [q2]
  simp only
  cases sb with
  | false =>
    refine ⟨A2, rfl, ?_⟩
    simp only [sincApply_eq, Bool.false_eq_true, if_false]
    exact r2
  | true =>
    obtain ⟨A3, q3, r3⟩ := shiftWaves_rep4 (masks := ⟨[S, a, b], fun i => phaseMask (n := a) (m := b)
      (T.get [i.getD 0 0, 0] - ⌊T.get [i.getD 0 0, 0]⌋) (T.get [i.getD 0 0, 1] - ⌊T.get [i.getD 0 0, 1]⌋)
      (i.getD 1 0 : ZMod a) (i.getD 2 0 : ZMod b)⟩) r2 (fun s => phaseMask (p s 0 - ⌊p s 0⌋) (p s 1 - ⌊p s 1⌋)) rfl
      (fun s hs x hx y hy => by
        show phaseMask (T.get [s, 0] - ⌊T.get [s, 0]⌋) (T.get [s, 1] - ⌊T.get [s, 1]⌋) (x : ZMod a) (y : ZMod b) = _
        rw [hp0 s hs, hp1 s hs]) true
    simp only [if_true]
    rw [q3]
    refine ⟨A3, rfl, ?_⟩
    simp only [sincApply_eq, if_true]
    exact r3


theorem Rep4.first {A : Tensor ℂ} {r : ℕ} {f : ℕ → ℕ → Wave n m} (h : Rep4 A 1 r f) : Rep3 A.first r (f 0) :=
  ⟨by unfold Tensor.first; rw [h.1]; rfl, fun j hj x hx y hy => h.2 0 one_pos j hj x hx y hy⟩

/-- `ptycho_2D_sinc` with one translation. -/
theorem sinc2D_one {P : Tensor ℂ} {r : ℕ} {f : ℕ → Wave a b} (hP : Rep3 P r f) (O : Img ℂ) (T : Tensor ℝ)
    (q : Fin 2 → ℝ) (hT : T.shape = [2]) (hp0 : T.get [0] = q 0) (hp1 : T.get [1] = q 1)
    {e0 e1 : ℕ} (h0 : e0 = a ∨ e0 = 1) (h1 : e1 = b ∨ e1 = 1) (hw : SameWindows O a b 1 (fun _ => q) e0 e1) (sb : Bool) :
    ∃ A, sinc2D a b true sb P O.tensor T = .ok A ∧ Rep3 A r fun j => sincApply sb (q 0, q 1) (seen O a b q e0 e1) (f j) := by
  have hns : decide (T.shape.length = 1) = true := by rw [hT]; rfl
  unfold sinc2D
  simp only [hns]
  simp only [if_true]
  set T' := T.newAxis 1 with hT'
  have hsh : T'.shape = [1, 2] := by simp [hT', Tensor.newAxis, hT]
  have g0 : T'.get [0, 0] = q 0 := hp0
  have g1 : T'.get [0, 1] = q 1 := hp1
  clear_value T'
  have hh : T'.shape.headD 0 = 1 := by rw [hsh]; rfl
  rw [hh]
  obtain ⟨sel, es, ss, vs⟩ := stack_range 1 one_pos (fun s => O.tensor.window a b ⌊T'.get [s, 0]⌋ ⌊T'.get [s, 1]⌋) [e0, e1] (fun s hs => by
    obtain rfl : s = 0 := by omega
    rw [g0, g1]
    have i0 := hw.rows 0 one_pos
    have i1 := hw.cols 0 one_pos
    simp only [Tensor.window, Img.tensor, List.length_cons, List.length_nil]
    show [(sliceExtent O.h ⌊q 0⌋ (⌊q 0⌋ + a)).2, (sliceExtent O.w ⌊q 1⌋ (⌊q 1⌋ + b)).2] = _
    rw [i0, i1])
  rw [es]
  simp only [Except.bind]
  obtain ⟨A1, q1, r1⟩ := shiftWaves_rep3 (masks := ⟨[1, a, b], fun i => phaseMask (n := a) (m := b)
      (T'.get [i.getD 0 0, 0] - ⌊T'.get [i.getD 0 0, 0]⌋) (T'.get [i.getD 0 0, 1] - ⌊T'.get [i.getD 0 0, 1]⌋)
      (i.getD 1 0 : ZMod a) (i.getD 2 0 : ZMod b)⟩) hP (phaseMask (q 0 - ⌊q 0⌋) (q 1 - ⌊q 1⌋)) rfl
    (fun x hx y hy => by
      show phaseMask (T'.get [0, 0] - ⌊T'.get [0, 0]⌋) (T'.get [0, 1] - ⌊T'.get [0, 1]⌋) (x : ZMod a) (y : ZMod b) = _
      rw [g0, g1]) false
  rw [q1]
  simp only [ss, List.length_cons, List.length_nil, and_self, if_true]
  obtain ⟨A2, q2, r2⟩ := r1.bop_thin (C := sel.newAxis 2) (fun _ => seen O a b q e0 e1) (by simp [Tensor.newAxis, ss]) h0 h1 (fun s hs x hx y hy => by
    obtain rfl : s = 0 := by omega
    show sel.get (0 :: [if e0 = 1 then 0 else x, if e1 = 1 then 0 else y]) = _
    rw [vs 0 one_pos]
    simp only [Tensor.window, Img.tensor, List.length_cons, List.length_nil]
    show O.px _ _ = _
    unfold seen
    rw [g0, g1, ZMod.val_natCast_of_lt hx, ZMod.val_natCast_of_lt hy]
    rfl) (· * ·)
  rw [q2]
  simp only
  cases sb with
  | false =>
    refine ⟨A2.first, rfl, ?_⟩
    simp only [sincApply_eq, Bool.false_eq_true, if_false]
    exact r2.first
  | true =>
    obtain ⟨A3, q3, r3⟩ := shiftWaves_rep4 (masks := ⟨[1, a, b], fun i => phaseMask (n := a) (m := b)
      (T'.get [i.getD 0 0, 0] - ⌊T'.get [i.getD 0 0, 0]⌋) (T'.get [i.getD 0 0, 1] - ⌊T'.get [i.getD 0 0, 1]⌋)
      (i.getD 1 0 : ZMod a) (i.getD 2 0 : ZMod b)⟩) r2 (fun _ => phaseMask (q 0 - ⌊q 0⌋) (q 1 - ⌊q 1⌋)) rfl
      (fun s hs x hx y hy => by
        obtain rfl : s = 0 := by omega
        show phaseMask (T'.get [0, 0] - ⌊T'.get [0, 0]⌋) (T'.get [0, 1] - ⌊T'.get [0, 1]⌋) (x : ZMod a) (y : ZMod b) = _
        rw [g0, g1]) true
    simp only [if_true]
    rw [q3]
    refine ⟨A3.first, rfl, ?_⟩
    simp only [sincApply_eq, if_true]
    exact r3.first

/-! ### The probes of the exposures -/

/-- Mode `j` of the probe of exposure `e`. -/
noncomputable def modeOf (M : Fancy n m a b N k) (W : Weights N k) (e : BatchItem N) (j : ℕ) : Wave n m :=
  if h : j < W.rank then shotProbes W e.1 M.basisProbes ⟨j, h⟩ else 0

/-- The weights in force: ones if none are stored. -/
def inForce (W : Option (Weights N k)) : Weights N k := W.getD (.perShot fun _ => 1)

theorem batchProbes_many (M : Fancy n m a b N k) (W : Option (Weights N k)) (l : List (BatchItem N)) (ex : ℕ → BatchItem N)
    (hex : ∀ s < l.length, l[s]? = some (ex s)) :
    ∃ P, M.batchProbes W (.many l) = .ok P ∧ Rep4 P l.length (inForce W).rank fun s j => modeOf M (inForce W) (ex s) j := by
  have numbers : ∀ (w : BatchItem N → ℂ) (R : Tensor ℂ), R.shape = [l.length] → (∀ s < l.length, R.get [s] = w (ex s)) →
      ∃ P, Tensor.bop (· * ·) (((R.newAxis 0).newAxis 0).newAxis 0) (⟨[k, n, m], fun i => if h : i.getD 0 0 < k then
        M.basisProbes ⟨i.getD 0 0, h⟩ (i.getD 1 0 : ZMod n) (i.getD 2 0 : ZMod m) else 0⟩ : Tensor ℂ) = .ok P ∧
        Rep4 P l.length k fun s j => if h : j < k then fun x y => w (ex s) * M.basisProbes ⟨j, h⟩ x y else 0 := by
    intro w R hR hv
    have hsh : (((R.newAxis 0).newAxis 0).newAxis 0).shape = [l.length, 1, 1, 1] := by simp [Tensor.newAxis, hR]
    have hb : broadcastShapes [l.length, 1, 1, 1] [k, n, m] = some [l.length, k, n, m] := by
      simp [broadcastShapes, bcRev]
    unfold Tensor.bop
    rw [hsh]
    simp only [hb]
    refine ⟨_, rfl, rfl, fun s hs j hj x hx y hy => ?_⟩
    show Tensor.bget _ [s, j, x, y] * Tensor.bget _ [s, j, x, y] = _
    unfold Tensor.bget
    rw [hsh]
    simp only [List.length_cons, List.length_nil, Nat.sub_self, List.drop_zero, List.zipWith_cons_cons, List.zipWith_nil_left, bcIdx hs, if_true]
    have e1 : (((R.newAxis 0).newAxis 0).newAxis 0).get [s, 0, 0, 0] = R.get [s] := rfl
    rw [e1, hv s hs]
    show _ * (if h : _ then _ else _) = _
    simp only [Nat.reduceAdd, Nat.reduceSub, List.drop_succ_cons, List.drop_zero, List.zipWith_cons_cons, List.zipWith_nil_left,
      bcIdx hj, bcIdx hx, bcIdx hy, List.getD_cons_zero, List.getD_cons_succ, dif_pos hj]
  cases W with
  | none =>
    obtain ⟨P, e, r⟩ := numbers (fun _ => 1) ⟨[l.length], fun _ => 1⟩ rfl (fun _ _ => rfl)
    refine ⟨P, e, ?_⟩
    have : (fun s j => modeOf M (inForce none) (ex s) j : ℕ → ℕ → Wave n m) =
        fun s j => if h : j < k then fun x y => 1 * M.basisProbes ⟨j, h⟩ x y else 0 := by
      funext s j
      unfold modeOf inForce shotProbes
      simp
    rw [this]
    exact r
  | some W =>
    cases W with
    | perShot w =>
      obtain ⟨P, e, r⟩ := numbers (fun e => (w e.1 : ℂ)) ((Batch.many l).rows [] fun e _ => (w e.1 : ℂ)) rfl (fun s hs => by
        show ((l[s]?).map fun e : BatchItem N => (w e.1 : ℂ)).getD 0 = _
        rw [hex s hs]; rfl)
      refine ⟨P, e, ?_⟩
      have : (fun s j => modeOf M (inForce (some (.perShot w))) (ex s) j : ℕ → ℕ → Wave n m) =
          fun s j => if h : j < k then fun x y => (w (ex s).1 : ℂ) * M.basisProbes ⟨j, h⟩ x y else 0 := by
        funext s j
        unfold modeOf inForce shotProbes
        simp
      rw [this]
      exact r
    | matrices r V =>
      unfold Fancy.batchProbes batchProbesOf
      simp only
      set R : Tensor ℂ := (Batch.many l).rows [r, k] fun e i => if h : i.getD 0 0 < r ∧ i.getD 1 0 < k then V e.1 ⟨_, h.1⟩ ⟨_, h.2⟩ else 0 with hR
      have hsh : ((R.newAxis 0).newAxis 0).shape = [l.length, r, k, 1, 1] := by simp [Tensor.newAxis, hR, Batch.rows]
      have hb : broadcastShapes [l.length, r, k, 1, 1] [k, n, m] = some [l.length, r, k, n, m] := by
        simp [broadcastShapes, bcRev]
      have hv : ∀ s < l.length, ∀ i j, ∀ (hi : i < r) (hj : j < k), R.get [s, i, j] = V (ex s).1 ⟨i, hi⟩ ⟨j, hj⟩ := by
        intro s hs i j hi hj
        rw [hR]
        show ((l[s]?).map fun e : BatchItem N => if h : i < r ∧ j < k then V e.1 ⟨_, h.1⟩ ⟨_, h.2⟩ else 0).getD 0 = _
        rw [hex s hs]
        simp [hi, hj]
      clear_value R
      unfold Tensor.bop
      rw [hsh]
      simp only [hb]
      refine ⟨_, rfl, rfl, fun s hs i hi x hx y hy => ?_⟩
      show (∑ j ∈ range k, (Tensor.bget _ [s, i, j, x, y] * Tensor.bget _ [s, i, j, x, y])) = _
      have hi' : i < r := hi
      unfold modeOf
      beta_reduce
      rw [dif_pos hi]
      show _ = ∑ j, V (ex s).1 ⟨i, hi⟩ j * M.basisProbes j (x : ZMod n) (y : ZMod m)
      rw [Finset.sum_range]
      refine sum_congr rfl fun j _ => ?_
      unfold Tensor.bget
      rw [hsh]
      simp only [List.length_cons, List.length_nil, Nat.sub_self, List.drop_zero, List.zipWith_cons_cons, List.zipWith_nil_left, bcIdx hs, bcIdx hi', bcIdx j.2, if_true]
      have e1 : ((R.newAxis 0).newAxis 0).get [s, i, j.val, 0, 0] = R.get [s, i, j.val] := rfl
      rw [e1, hv s hs i j hi j.2]
      show _ * (if h : _ then _ else _) = _
      simp only [Nat.reduceAdd, Nat.reduceSub, List.drop_succ_cons, List.drop_zero, List.zipWith_cons_cons, List.zipWith_nil_left,
        bcIdx j.2, bcIdx hx, bcIdx hy, List.getD_cons_zero, List.getD_cons_succ, dif_pos j.2]

theorem batchProbes_one (M : Fancy n m a b N k) (W : Weights N k) (e : BatchItem N) :
    ∃ P, M.batchProbes (some W) (.one e) = .ok P ∧ Rep3 P W.rank fun j => modeOf M W e j := by
  cases W with
  | perShot w =>
    unfold Fancy.batchProbes batchProbesOf
    simp only
    set R : Tensor ℂ := (Batch.one e).rows [] fun e _ => (w e.1 : ℂ) with hR
    have hsh : (((R.newAxis 0).newAxis 0).newAxis 0).shape = [1, 1, 1] := by simp [Tensor.newAxis, hR, Batch.rows]
    have hv : R.get [] = (w e.1 : ℂ) := rfl
    have hb : broadcastShapes [1, 1, 1] [k, n, m] = some [k, n, m] := by simp [broadcastShapes, bcRev]
    clear_value R
    unfold Tensor.bop
    rw [hsh]
    simp only [hb]
    refine ⟨_, rfl, rfl, fun j hj x hx y hy => ?_⟩
    have hj' : j < k := hj
    show Tensor.bget _ [j, x, y] * Tensor.bget _ [j, x, y] = _
    unfold Tensor.bget
    rw [hsh]
    simp only [List.length_cons, List.length_nil, Nat.sub_self, List.drop_zero, List.zipWith_cons_cons, List.zipWith_nil_left, if_true]
    have e1 : (((R.newAxis 0).newAxis 0).newAxis 0).get [0, 0, 0] = R.get [] := rfl
    rw [e1, hv]
    simp only [bcIdx hj', bcIdx hx, bcIdx hy, List.getD_cons_zero, List.getD_cons_succ, dif_pos hj']
    unfold modeOf
    rw [dif_pos hj]
    rfl
  | matrices r V =>
    unfold Fancy.batchProbes batchProbesOf
    simp only
    set R : Tensor ℂ := (Batch.one e).rows [r, k] fun e i => if h : i.getD 0 0 < r ∧ i.getD 1 0 < k then V e.1 ⟨_, h.1⟩ ⟨_, h.2⟩ else 0 with hR
    have hsh : ((R.newAxis 0).newAxis 0).shape = [r, k, 1, 1] := by simp [Tensor.newAxis, hR, Batch.rows]
    have hb : broadcastShapes [r, k, 1, 1] [k, n, m] = some [r, k, n, m] := by simp [broadcastShapes, bcRev]
    have hv : ∀ i j, ∀ (hi : i < r) (hj : j < k), R.get [i, j] = V e.1 ⟨i, hi⟩ ⟨j, hj⟩ := by
      intro i j hi hj
      rw [hR]
      show (if h : i < r ∧ j < k then V e.1 ⟨_, h.1⟩ ⟨_, h.2⟩ else 0) = _
      rw [dif_pos ⟨hi, hj⟩]
    clear_value R
    unfold Tensor.bop
    rw [hsh]
    simp only [hb]
    refine ⟨_, rfl, rfl, fun i hi x hx y hy => ?_⟩
    show (∑ j ∈ range k, (Tensor.bget _ [i, j, x, y] * Tensor.bget _ [i, j, x, y])) = _
    have hi' : i < r := hi
    unfold modeOf
    beta_reduce
    rw [dif_pos hi]
    show _ = ∑ j, V e.1 ⟨i, hi⟩ j * M.basisProbes j (x : ZMod n) (y : ZMod m)
    rw [Finset.sum_range]
    refine sum_congr rfl fun j _ => ?_
    unfold Tensor.bget
    rw [hsh]
    simp only [List.length_cons, List.length_nil, Nat.sub_self, List.drop_zero, List.zipWith_cons_cons, List.zipWith_nil_left, bcIdx hi', bcIdx j.2, if_true]
    have e1 : ((R.newAxis 0).newAxis 0).get [i, j.val, 0, 0] = R.get [i, j.val] := rfl
    rw [e1, hv i j hi j.2]
    show _ * (if h : _ then _ else _) = _
    simp only [Nat.reduceAdd, Nat.reduceSub, List.drop_succ_cons, List.drop_zero, List.zipWith_cons_cons, List.zipWith_nil_left,
      bcIdx j.2, bcIdx hx, bcIdx hy, List.getD_cons_zero, List.getD_cons_succ, dif_pos j.2]

/-! ### The phase ramps -/

theorem batchRamped_many (M : Fancy n m a b N k) (hsim : ¬ (M.simulateTranslation = true ∧ M.fourierShifts = none)) (l : List (BatchItem N))
    (ex : ℕ → BatchItem N) (hex : ∀ s < l.length, l[s]? = some (ex s)) {P : Tensor ℂ} {r : ℕ} {f : ℕ → ℕ → Wave n m} (hP : Rep4 P l.length r f) :
    ∃ P', M.batchRamped (.many l) P = .ok P' ∧ Rep4 P' l.length r fun s j x y => f s j x y * M.ramp (ex s).1 (ex s).2 x y := by
  unfold Fancy.batchRamped rampWaves
  cases hF : M.fourierShifts with
  | none =>
    have hs : M.simulateTranslation = false := by
      cases h : M.simulateTranslation with
      | false => rfl
      | true => exact absurd ⟨h, hF⟩ hsim
    rw [hs]
    refine ⟨P, by simp, hP.1, fun s hs' j hj x hx y hy => ?_⟩
    rw [hP.2 s hs' j hj x hx y hy]
    unfold Fancy.ramp
    rw [hF]
    simp
  | some F =>
    rw [if_pos (Or.inr (show (some F).isSome = true from rfl))]
    have hrow : ∀ g : BatchItem N → Fin 2 → ℝ, ∀ s < l.length, ((Batch.many l).rows [2] fun e i => comp2 (g e) i).get [s, 0] = g (ex s) 0 ∧
        ((Batch.many l).rows [2] fun e i => comp2 (g e) i).get [s, 1] = g (ex s) 1 := by
      intro g s hs
      constructor
      · show ((l[s]?).map fun e : BatchItem N => comp2 (g e) [0]).getD 0 = _
        rw [hex s hs]; rfl
      · show ((l[s]?).map fun e : BatchItem N => comp2 (g e) [1]).getD 0 = _
        rw [hex s hs]; rfl
    have hd : ∃ d : Tensor ℝ, (if M.simulateTranslation = true then
          Tensor.bop (· + ·) ((Batch.many l).rows [2] fun e i => comp2 (F e.1) i)
            ((Batch.many l).rows [2] fun e i => comp2 (translationsToPixel M.detBasis M.normal e.2) i)
        else .ok ((Batch.many l).rows [2] fun e i => comp2 (F e.1) i)) = .ok d ∧ d.shape = [l.length, 2] ∧
        ∀ s < l.length, d.get [s, 0] = (if M.simulateTranslation = true then F (ex s).1 + translationsToPixel M.detBasis M.normal (ex s).2 else F (ex s).1) 0 ∧
          d.get [s, 1] = (if M.simulateTranslation = true then F (ex s).1 + translationsToPixel M.detBasis M.normal (ex s).2 else F (ex s).1) 1 := by
      cases M.simulateTranslation with
      | false =>
        refine ⟨_, rfl, rfl, fun s hs => hrow (fun e => F e.1) s hs⟩
      | true =>
        simp only [if_true]
        have hA := hrow (fun e => F e.1)
        have hC := hrow (fun e => translationsToPixel M.detBasis M.normal e.2)
        beta_reduce at hA hC
        generalize hA' : ((Batch.many l).rows [2] fun e i => comp2 (F e.1) i) = A at hA ⊢
        generalize hC' : ((Batch.many l).rows [2] fun e i => comp2 (translationsToPixel M.detBasis M.normal e.2) i) = C at hC ⊢
        have sA : A.shape = [l.length, 2] := by rw [← hA']; rfl
        have sC : C.shape = [l.length, 2] := by rw [← hC']; rfl
        have hb : broadcastShapes [l.length, 2] [l.length, 2] = some [l.length, 2] := by simp [broadcastShapes, bcRev]
        unfold Tensor.bop
        rw [sA, sC, hb]
        refine ⟨_, rfl, rfl, fun s hs => ?_⟩
        simp only [Tensor.bget, sA, sC, List.length_cons, List.length_nil, Nat.sub_self, List.drop_zero, List.zipWith_cons_cons, List.zipWith_nil_left, bcIdx hs,
          OfNat.ofNat_ne_one, if_false, Pi.add_apply]
        exact ⟨by rw [(hA s hs).1, (hC s hs).1], by rw [(hA s hs).2, (hC s hs).2]⟩
    obtain ⟨d, e1, e2, e3⟩ := hd
    simp only
    rw [e1]
    simp only [Except.bind]
    rw [if_neg (by rw [e2]; simp)]
    obtain ⟨P', q, r'⟩ := hP.bop (C := Tensor.newAxis 2 ⟨[d.shape.headD 0, n, m], fun i =>
        Complex.exp (Complex.I * (d.get [i.getD 0 0, 0] * (2 * Real.pi * ((((i.getD 1 0 : ℕ) : ZMod n).val : ℂ) / ((n : ℂ) - 1)) * M.oversampling) +
          d.get [i.getD 0 0, 1] * (2 * Real.pi * ((((i.getD 2 0 : ℕ) : ZMod m).val : ℂ) / ((m : ℂ) - 1)) * M.oversampling)))⟩)
      (fun s => M.ramp (ex s).1 (ex s).2) (by rw [e2]; rfl) (fun s hs x hx y hy => by
        show Complex.exp (Complex.I * (d.get [s, 0] * (2 * Real.pi * ((((x : ℕ) : ZMod n).val : ℂ) / ((n : ℂ) - 1)) * M.oversampling) +
          d.get [s, 1] * (2 * Real.pi * ((((y : ℕ) : ZMod m).val : ℂ) / ((m : ℂ) - 1)) * M.oversampling))) = _
        unfold Fancy.ramp
        rw [hF]
        simp only [(e3 s hs).1, (e3 s hs).2]) (· * ·)
    exact ⟨P', q, r'⟩

/-! ### The measurement -/

/-- `A` is a stack of `S` images. -/
def RepI (A : Tensor ℝ) (S h w : ℕ) (f : ℕ → ℕ → ℕ → ℝ) : Prop :=
  A.shape = [S, h, w] ∧ ∀ s < S, ∀ i < h, ∀ j < w, A.get [s, i, j] = f s i j

/-- `A` is an image. -/
def RepJ (A : Tensor ℝ) (h w : ℕ) (f : ℕ → ℕ → ℝ) : Prop :=
  A.shape = [h, w] ∧ ∀ i < h, ∀ j < w, A.get [i, j] = f i j

theorem avgPool_congr (os : ℕ) (f g : ℕ → ℕ → ℝ) (h : ∀ i < a, ∀ j < b, f i j = g i j) (i j : ℕ) (hi : i < a / os) (hj : j < b / os) :
    ((⟨a, b, f⟩ : Img ℝ).avgPool os).px i j = ((⟨a, b, g⟩ : Img ℝ).avgPool os).px i j := by
  have lt : ∀ {c x u : ℕ}, x < c / os → u < os → os * x + u < c := by
    intro c x u h1 h2
    have h3 : os * (x + 1) ≤ os * (c / os) := Nat.mul_le_mul_left _ h1
    have h4 := Nat.mul_div_le c os
    have h5 : os * (x + 1) = os * x + os := by ring
    omega
  unfold Img.avgPool Img.sumPool
  simp only
  congr 1
  refine sum_congr rfl fun u hu => sum_congr rfl fun v hv => ?_
  exact h _ (lt hi (mem_range.1 hu)) _ (lt hj (mem_range.1 hv))

/-- The shape of the detector: the exit wave binned. -/
def binned (os x : ℕ) : ℕ := if os ≠ 1 then x / os else x

/-- The background and the efficiency have the shape of the detector, which is not empty. -/
structure DetectorFits (M : Fancy n m a b N k) : Prop where
  rows : 0 < binned M.oversampling a
  cols : 0 < binned M.oversampling b
  background : M.background.h = binned M.oversampling a ∧ M.background.w = binned M.oversampling b
  qe : ∀ q, M.qe = some q → q.h = binned M.oversampling a ∧ q.w = binned M.oversampling b

/-- What the detector records from an intensity. -/
noncomputable def Fancy.recorded (M : Fancy n m a b N k) (I : ℕ → ℕ → ℝ) : Img ℝ :=
  measQuadratic { saturation := M.saturation, oversampling := M.oversampling } M.background M.qe ⟨a, b, I⟩

theorem recorded_shape (M : Fancy n m a b N k) (I : ℕ → ℕ → ℝ) :
    (M.recorded I).h = binned M.oversampling a ∧ (M.recorded I).w = binned M.oversampling b := by
  unfold Fancy.recorded measQuadratic binned
  cases M.qe <;> cases M.saturation <;> by_cases h : M.oversampling = 1 <;>
    simp [saturate, Img.zip, Img.map, readOut, cutSlice, binPixels, Img.avgPool, h]

theorem batchMeasurement_many (M : Fancy n m a b N k) (hfit : DetectorFits M) {S r : ℕ} {w : Tensor ℂ} {f : ℕ → ℕ → Wave a b} (hw : Rep4 w S r f) :
    ∃ T, M.batchMeasurement w = .ok T ∧ RepI T S (binned M.oversampling a) (binned M.oversampling b) fun s i j =>
      (M.recorded fun x y => ∑ u ∈ range r, ‖f s u x y‖ ^ 2).px i j := by
  unfold Fancy.batchMeasurement batchMeasure
  simp only
  set h' := binned M.oversampling a with hh'
  set w' := binned M.oversampling b with hw'
  set I : ℕ → ℕ → ℕ → ℝ := fun s x y => ∑ u ∈ range r, ‖f s u x y‖ ^ 2 with hI
  have hsum : RepI (Tensor.sumAxis 2 (w.map fun z => ‖z‖ ^ 2)) S a b I := by
    refine ⟨by simp [Tensor.sumAxis, Tensor.map, hw.1], fun s hs x hx y hy => ?_⟩
    simp only [Tensor.sumAxis, Tensor.map, hw.1, List.length_cons, List.length_nil]
    show ∑ u ∈ range r, ‖w.get [s, u, x, y]‖ ^ 2 = _
    refine sum_congr rfl fun u hu => ?_
    rw [hw.2 s hs u (mem_range.1 hu) x hx y hy]
  generalize Tensor.sumAxis 2 (w.map fun z => ‖z‖ ^ 2) = A at hsum ⊢
  have hbin : ∃ A', (if M.oversampling ≠ 1 then
        if a / M.oversampling = 0 ∨ b / M.oversampling = 0 then .error .runtimeError
        else A.planes a b (a / M.oversampling) (b / M.oversampling) fun f => ((⟨a, b, f⟩ : Img ℝ).avgPool M.oversampling).px
      else .ok A : Except PyExc (Tensor ℝ)) = .ok A' ∧ RepI A' S h' w' fun s i j => (binPixels M.oversampling ⟨a, b, I s⟩).px i j := by
    by_cases ho : M.oversampling = 1
    · rw [if_neg (not_not.2 ho)]
      have e1 : h' = a := by rw [hh', binned, if_neg (not_not.2 ho)]
      have e2 : w' = b := by rw [hw', binned, if_neg (not_not.2 ho)]
      refine ⟨A, rfl, ?_⟩
      rw [e1, e2]
      refine ⟨hsum.1, fun s hs i hi j hj => ?_⟩
      rw [hsum.2 s hs i hi j hj]
      simp [binPixels, ho]
    · have e1 : h' = a / M.oversampling := by rw [hh', binned, if_pos ho]
      have e2 : w' = b / M.oversampling := by rw [hw', binned, if_pos ho]
      have p1 := hfit.rows
      have p2 := hfit.cols
      rw [← hh', e1] at p1
      rw [← hw', e2] at p2
      rw [if_pos ho, if_neg (by omega), e1, e2]
      unfold Tensor.planes
      refine ⟨_, if_pos (by rw [hsum.1]; rfl), by simp [hsum.1], fun s hs i hi j hj => ?_⟩
      simp only [hsum.1, List.length_cons, List.length_nil]
      show ((⟨a, b, fun u v => A.get [s, u, v]⟩ : Img ℝ).avgPool M.oversampling).px i j = _
      have eb : binPixels M.oversampling ⟨a, b, I s⟩ = (⟨a, b, I s⟩ : Img ℝ).avgPool M.oversampling := if_pos ho
      rw [eb]
      exact avgPool_congr M.oversampling _ _ (fun x hx y hy => hsum.2 s hs x hx y hy) i j hi hj
  obtain ⟨A1, q1, r1⟩ := hbin
  rw [q1]
  simp only [Except.bind]
  have hqe : ∃ A2, efficiency M.qe (A1.map fun x => x + 1e-7) = .ok A2 ∧ RepI A2 S h' w' fun s i j =>
        qeAt M.qe i j * ((binPixels M.oversampling ⟨a, b, I s⟩).px i j + 1e-7) := by
    cases hq : M.qe with
    | none =>
      refine ⟨_, rfl, r1.1, fun s hs i hi j hj => ?_⟩
      show A1.get [s, i, j] + 1e-7 = _
      rw [r1.2 s hs i hi j hj]
      simp [qeAt]
    | some q =>
      obtain ⟨f1, f2⟩ := hfit.qe q hq
      have sq : q.tensor.shape = [h', w'] := by unfold Img.tensor; rw [f1, f2]
      have sA : (A1.map fun x => x + 1e-7).shape = [S, h', w'] := r1.1
      have hb : broadcastShapes [h', w'] [S, h', w'] = some [S, h', w'] := by simp [broadcastShapes, bcRev]
      unfold efficiency Tensor.bop
      simp only
      rw [sq, sA, hb]
      refine ⟨_, rfl, rfl, fun s hs i hi j hj => ?_⟩
      simp only [Tensor.bget, sq, sA, List.length_cons, List.length_nil, Nat.sub_self, List.drop_zero, List.zipWith_cons_cons, List.zipWith_nil_left,
        Nat.reduceAdd, Nat.reduceSub, List.drop_succ_cons, bcIdx hs, bcIdx hi, bcIdx hj]
      show q.px i j * (A1.get [s, i, j] + 1e-7) = _
      rw [r1.2 s hs i hi j hj]
      simp [qeAt]
  obtain ⟨A2, q2, r2⟩ := hqe
  rw [q2]
  simp only
  have sb : M.background.tensor.shape = [h', w'] := by unfold Img.tensor; rw [hfit.background.1, hfit.background.2]
  have hb : broadcastShapes [S, h', w'] [h', w'] = some [S, h', w'] := by simp [broadcastShapes, bcRev]
  unfold Tensor.bop
  rw [r2.1, sb, hb]
  simp only [Except.map]
  have hval : ∀ s < S, ∀ i < h', ∀ j < w', A2.bget [s, i, j] + M.background.tensor.bget [s, i, j] ^ 2 =
      qeAt M.qe i j * ((binPixels M.oversampling ⟨a, b, I s⟩).px i j + 1e-7) + M.background.px i j ^ 2 := by
    intro s hs i hi j hj
    simp only [Tensor.bget, r2.1, sb, List.length_cons, List.length_nil, Nat.sub_self, List.drop_zero, List.zipWith_cons_cons, List.zipWith_nil_left,
      Nat.reduceAdd, Nat.reduceSub, List.drop_succ_cons, bcIdx hs, bcIdx hi, bcIdx hj]
    rw [r2.2 s hs i hi j hj]
    rfl
  have hpx : ∀ s i j, (M.recorded (I s)).px i j = (match M.saturation with
      | none => qeAt M.qe i j * ((binPixels M.oversampling ⟨a, b, I s⟩).px i j + 1e-7) + M.background.px i j ^ 2
      | some t => clamp0 t (qeAt M.qe i j * ((binPixels M.oversampling ⟨a, b, I s⟩).px i j + 1e-7) + M.background.px i j ^ 2)) := by
    intro s i j
    unfold Fancy.recorded measQuadratic
    cases M.qe <;> cases M.saturation <;> simp [saturate, Img.zip, Img.map, readOut, cutSlice, qeAt]
  cases hsat : M.saturation with
  | none =>
    refine ⟨_, rfl, rfl, fun s hs i hi j hj => ?_⟩
    have := hpx s i j
    rw [hsat] at this
    exact (hval s hs i hi j hj).trans this.symm
  | some t =>
    refine ⟨_, rfl, rfl, fun s hs i hi j hj => ?_⟩
    have := hpx s i j
    rw [hsat] at this
    exact (congrArg (clamp0 t) (hval s hs i hi j hj)).trans this.symm

theorem batchMeasurement_one (M : Fancy n m a b N k) (hfit : DetectorFits M) {r : ℕ} {w : Tensor ℂ} {f : ℕ → Wave a b} (hw : Rep3 w r f) :
    ∃ T, M.batchMeasurement w = .ok T ∧ RepJ T (binned M.oversampling a) (binned M.oversampling b) fun i j =>
      (M.recorded fun x y => ∑ u ∈ range r, ‖f u x y‖ ^ 2).px i j := by
  unfold Fancy.batchMeasurement batchMeasure
  simp only
  set h' := binned M.oversampling a with hh'
  set w' := binned M.oversampling b with hw'
  set I : ℕ → ℕ → ℝ := fun x y => ∑ u ∈ range r, ‖f u x y‖ ^ 2 with hI
  have hsum : RepJ (Tensor.sumAxis 2 (w.map fun z => ‖z‖ ^ 2)) a b I := by
    refine ⟨by simp [Tensor.sumAxis, Tensor.map, hw.1], fun x hx y hy => ?_⟩
    simp only [Tensor.sumAxis, Tensor.map, hw.1, List.length_cons, List.length_nil]
    show ∑ u ∈ range r, ‖w.get [u, x, y]‖ ^ 2 = _
    refine sum_congr rfl fun u hu => ?_
    rw [hw.2 u (mem_range.1 hu) x hx y hy]
  generalize Tensor.sumAxis 2 (w.map fun z => ‖z‖ ^ 2) = A at hsum ⊢
  have hbin : ∃ A', (if M.oversampling ≠ 1 then
        if a / M.oversampling = 0 ∨ b / M.oversampling = 0 then .error .runtimeError
        else A.planes a b (a / M.oversampling) (b / M.oversampling) fun f => ((⟨a, b, f⟩ : Img ℝ).avgPool M.oversampling).px
      else .ok A : Except PyExc (Tensor ℝ)) = .ok A' ∧ RepJ A' h' w' fun i j => (binPixels M.oversampling ⟨a, b, I⟩).px i j := by
    by_cases ho : M.oversampling = 1
    · rw [if_neg (not_not.2 ho)]
      have e1 : h' = a := by rw [hh', binned, if_neg (not_not.2 ho)]
      have e2 : w' = b := by rw [hw', binned, if_neg (not_not.2 ho)]
      refine ⟨A, rfl, ?_⟩
      rw [e1, e2]
      refine ⟨hsum.1, fun i hi j hj => ?_⟩
      rw [hsum.2 i hi j hj]
      simp [binPixels, ho]
    · have e1 : h' = a / M.oversampling := by rw [hh', binned, if_pos ho]
      have e2 : w' = b / M.oversampling := by rw [hw', binned, if_pos ho]
      have p1 := hfit.rows
      have p2 := hfit.cols
      rw [← hh', e1] at p1
      rw [← hw', e2] at p2
      rw [if_pos ho, if_neg (by omega), e1, e2]
      unfold Tensor.planes
      refine ⟨_, if_pos (by rw [hsum.1]; rfl), by simp [hsum.1], fun i hi j hj => ?_⟩
      simp only [hsum.1, List.length_cons, List.length_nil]
      show ((⟨a, b, fun u v => A.get [u, v]⟩ : Img ℝ).avgPool M.oversampling).px i j = _
      have eb : binPixels M.oversampling ⟨a, b, I⟩ = (⟨a, b, I⟩ : Img ℝ).avgPool M.oversampling := if_pos ho
      rw [eb]
      exact avgPool_congr M.oversampling _ _ (fun x hx y hy => hsum.2 x hx y hy) i j hi hj
  obtain ⟨A1, q1, r1⟩ := hbin
  rw [q1]
  simp only [Except.bind]
  have hqe : ∃ A2, efficiency M.qe (A1.map fun x => x + 1e-7) = .ok A2 ∧ RepJ A2 h' w' fun i j =>
        qeAt M.qe i j * ((binPixels M.oversampling ⟨a, b, I⟩).px i j + 1e-7) := by
    cases hq : M.qe with
    | none =>
      refine ⟨_, rfl, r1.1, fun i hi j hj => ?_⟩
      show A1.get [i, j] + 1e-7 = _
      rw [r1.2 i hi j hj]
      simp [qeAt]
    | some q =>
      obtain ⟨f1, f2⟩ := hfit.qe q hq
      have sq : q.tensor.shape = [h', w'] := by unfold Img.tensor; rw [f1, f2]
      have sA : (A1.map fun x => x + 1e-7).shape = [h', w'] := r1.1
      have hb : broadcastShapes [h', w'] [h', w'] = some [h', w'] := by simp [broadcastShapes, bcRev]
      unfold efficiency Tensor.bop
      simp only
      rw [sq, sA, hb]
      refine ⟨_, rfl, rfl, fun i hi j hj => ?_⟩
      simp only [Tensor.bget, sq, sA, List.length_cons, List.length_nil, Nat.sub_self, List.drop_zero, List.zipWith_cons_cons, List.zipWith_nil_left,
        Nat.reduceAdd, Nat.reduceSub, List.drop_succ_cons, bcIdx hi, bcIdx hj]
      show q.px i j * (A1.get [i, j] + 1e-7) = _
      rw [r1.2 i hi j hj]
      simp [qeAt]
  obtain ⟨A2, q2, r2⟩ := hqe
  rw [q2]
  simp only
  have sb : M.background.tensor.shape = [h', w'] := by unfold Img.tensor; rw [hfit.background.1, hfit.background.2]
  have hb : broadcastShapes [h', w'] [h', w'] = some [h', w'] := by simp [broadcastShapes, bcRev]
  unfold Tensor.bop
  rw [r2.1, sb, hb]
  simp only [Except.map]
  have hval : ∀ i < h', ∀ j < w', A2.bget [i, j] + M.background.tensor.bget [i, j] ^ 2 =
      qeAt M.qe i j * ((binPixels M.oversampling ⟨a, b, I⟩).px i j + 1e-7) + M.background.px i j ^ 2 := by
    intro i hi j hj
    simp only [Tensor.bget, r2.1, sb, List.length_cons, List.length_nil, Nat.sub_self, List.drop_zero, List.zipWith_cons_cons, List.zipWith_nil_left,
      Nat.reduceAdd, Nat.reduceSub, List.drop_succ_cons, bcIdx hi, bcIdx hj]
    rw [r2.2 i hi j hj]
    rfl
  have hpx : ∀ i j, (M.recorded I).px i j = (match M.saturation with
      | none => qeAt M.qe i j * ((binPixels M.oversampling ⟨a, b, I⟩).px i j + 1e-7) + M.background.px i j ^ 2
      | some t => clamp0 t (qeAt M.qe i j * ((binPixels M.oversampling ⟨a, b, I⟩).px i j + 1e-7) + M.background.px i j ^ 2)) := by
    intro i j
    unfold Fancy.recorded measQuadratic
    cases M.qe <;> cases M.saturation <;> simp [saturate, Img.zip, Img.map, readOut, cutSlice, qeAt]
  cases hsat : M.saturation with
  | none =>
    refine ⟨_, rfl, rfl, fun i hi j hj => ?_⟩
    have := hpx i j
    rw [hsat] at this
    exact (hval i hi j hj).trans this.symm
  | some t =>
    refine ⟨_, rfl, rfl, fun i hi j hj => ?_⟩
    have := hpx i j
    rw [hsat] at this
    exact (congrArg (clamp0 t) (hval i hi j hj)).trans this.symm


/-! ### C115 -/

theorem Rep4.map {A : Tensor ℂ} {S r : ℕ} {f : ℕ → ℕ → Wave n m} (h : Rep4 A S r f) (F : ℂ → ℂ) : Rep4 (A.map F) S r fun s j x y => F (f s j x y) :=
  ⟨h.1, fun s hs j hj x hx y hy => congrArg F (h.2 s hs j hj x hx y hy)⟩

theorem Rep3.map {A : Tensor ℂ} {r : ℕ} {f : ℕ → Wave n m} (h : Rep3 A r f) (F : ℂ → ℂ) : Rep3 (A.map F) r fun j x y => F (f j x y) :=
  ⟨h.1, fun j hj x hx y hy => congrArg F (h.2 j hj x hx y hy)⟩

/-- The pattern of exposure `e` when the object it sees is `sel`. -/
noncomputable def Fancy.patternOf (M : Fancy n m a b N k) (e : BatchItem N) (sel : Wave a b) : Img ℝ :=
  M.recorded fun x y => ∑ u, ‖M.toDetector e.1 e.2 sel (shotProbes M.weights e.1 M.basisProbes u) (x : ZMod a) (y : ZMod b)‖ ^ 2

theorem patternOf_range (M : Fancy n m a b N k) (e : BatchItem N) (sel : Wave a b) :
    (M.recorded fun x y => ∑ u ∈ range M.weights.rank, ‖M.toDetector e.1 e.2 sel (modeOf M M.weights e u) (x : ZMod a) (y : ZMod b)‖ ^ 2) =
      M.patternOf e sel := by
  unfold Fancy.patternOf
  congr 1
  funext x y
  rw [Finset.sum_range]
  refine sum_congr rfl fun u _ => ?_
  unfold modeOf
  rw [dif_pos u.2]

theorem batchForward_many (M : Fancy n m a b N k) (W : Option (Weights N k)) (hW : M.weights = inForce W) (hfit : DetectorFits M)
    (hsim : ¬ (M.simulateTranslation = true ∧ M.fourierShifts = none)) (l : List (BatchItem N)) (hl : 0 < l.length)
    (ex : ℕ → BatchItem N) (hex : ∀ s < l.length, l[s]? = some (ex s)) {e0 e1 : ℕ} (h0 : e0 = a ∨ e0 = 1) (h1 : e1 = b ∨ e1 = 1)
    (hw : SameWindows M.transmission a b l.length (fun s => M.pixTrans (ex s).1 (ex s).2) e0 e1) :
    ∃ T, M.batchForward W (.many l) = .ok T ∧ RepI T l.length (binned M.oversampling a) (binned M.oversampling b) fun s i j =>
      (M.patternOf (ex s) (seen M.transmission a b (M.pixTrans (ex s).1 (ex s).2) e0 e1)).px i j := by
  obtain ⟨P1, q1, r1⟩ := batchProbes_many M W l ex hex
  rw [← hW] at r1
  obtain ⟨P2, q2, r2⟩ := batchRamped_many M hsim l ex hex r1
  obtain ⟨P3, q3, r3⟩ := r2.planes (padProbe (n := n) (m := m) a b)
  obtain ⟨P4, q4, r4⟩ := sinc2D_many hl r3 M.transmission ((Batch.many l).rows [2] fun e i => comp2 (M.pixTrans e.1 e.2) i)
    (fun s => M.pixTrans (ex s).1 (ex s).2) rfl
    (fun s hs => by
      show ((l[s]?).map fun e : BatchItem N => comp2 (M.pixTrans e.1 e.2) [0]).getD 0 = _
      rw [hex s hs]; rfl)
    (fun s hs => by
      show ((l[s]?).map fun e : BatchItem N => comp2 (M.pixTrans e.1 e.2) [1]).getD 0 = _
      rw [hex s hs]; rfl) h0 h1 hw M.nearField
  obtain ⟨P5, q5, r5⟩ := (r4.map fun z => (M.probeNorm : ℂ) * z).planes M.propagate
  obtain ⟨T, q6, r6⟩ := batchMeasurement_many M hfit r5
  refine ⟨T, ?_, ?_⟩
  · unfold Fancy.batchForward Fancy.batchInteraction
    rw [q1]
    simp only [Except.bind]
    rw [q2]
    simp only
    rw [q3]
    simp only
    rw [q4]
    simp only [Except.map]
    rw [q5]
    exact q6
  · refine ⟨r6.1, fun s hs i hi j hj => ?_⟩
    rw [r6.2 s hs i hi j hj]
    beta_reduce
    rw [← patternOf_range]
    rfl

theorem batchForward_one (M : Fancy n m a b N k) (hfit : DetectorFits M) (hsim : M.simulateTranslation = false) (hF : M.fourierShifts = none)
    (e : BatchItem N) {e0 e1 : ℕ} (h0 : e0 = a ∨ e0 = 1) (h1 : e1 = b ∨ e1 = 1)
    (hw : SameWindows M.transmission a b 1 (fun _ => M.pixTrans e.1 e.2) e0 e1) :
    ∃ T, M.batchForward (some M.weights) (.one e) = .ok T ∧ RepJ T (binned M.oversampling a) (binned M.oversampling b) fun i j =>
      (M.patternOf e (seen M.transmission a b (M.pixTrans e.1 e.2) e0 e1)).px i j := by
  obtain ⟨P1, q1, r1⟩ := batchProbes_one M M.weights e
  have q2 : M.batchRamped (.one e) P1 = .ok P1 := by unfold Fancy.batchRamped; rw [hsim, hF]; simp
  obtain ⟨P3, q3, r3⟩ := r1.planes (padProbe (n := n) (m := m) a b)
  obtain ⟨P4, q4, r4⟩ := sinc2D_one r3 M.transmission ((Batch.one e).rows [2] fun e i => comp2 (M.pixTrans e.1 e.2) i)
    (M.pixTrans e.1 e.2) rfl rfl rfl h0 h1 hw M.nearField
  obtain ⟨P5, q5, r5⟩ := (r4.map fun z => (M.probeNorm : ℂ) * z).planes M.propagate
  obtain ⟨T, q6, r6⟩ := batchMeasurement_one M hfit r5
  have hramp : ∀ p : Wave n m, (fun x y => p x y * M.ramp e.1 e.2 x y : Wave n m) = p := by
    intro p
    unfold Fancy.ramp
    rw [hF]
    simp
  refine ⟨T, ?_, ?_⟩
  · unfold Fancy.batchForward Fancy.batchInteraction
    rw [q1]
    simp only [Except.bind]
    rw [q2]
    simp only
    rw [q3]
    simp only
    rw [q4]
    simp only [Except.map]
    rw [q5]
    exact q6
  · refine ⟨r6.1, fun i hi j hj => ?_⟩
    rw [r6.2 i hi j hj, ← patternOf_range]
    unfold Fancy.toDetector
    simp only [hramp]

theorem forward_patternOf (M : Fancy n m a b N k) (e : BatchItem N) (Q : Img ℝ) (hQ : M.forward e.1 e.2 = .ok Q) :
    SameWindows M.transmission a b 1 (fun _ => M.pixTrans e.1 e.2) a b ∧
      Q = M.patternOf e (seen M.transmission a b (M.pixTrans e.1 e.2) a b) ∧ ¬ (M.simulateTranslation = true ∧ M.fourierShifts = none) := by
  unfold Fancy.forward at hQ
  split_ifs at hQ with hsim
  simp only at hQ
  unfold objWindow at hQ
  simp only at hQ
  split_ifs at hQ with hfit
  · refine ⟨⟨fun _ _ => hfit.1, fun _ _ => hfit.2⟩, ?_, hsim⟩
    rw [← Except.ok.inj hQ]
    unfold Fancy.patternOf Fancy.recorded sumModes
    simp only [List.map_ofFn, List.sum_ofFn, Function.comp]
    have hs : (fun i j => M.transmission.px ((sliceExtent M.transmission.h ⌊M.pixTrans e.1 e.2 0⌋ (⌊M.pixTrans e.1 e.2 0⌋ + a)).1 + i.val)
        ((sliceExtent M.transmission.w ⌊M.pixTrans e.1 e.2 1⌋ (⌊M.pixTrans e.1 e.2 1⌋ + b)).1 + j.val) : Wave a b) =
        seen M.transmission a b (M.pixTrans e.1 e.2) a b := by
      funext x y
      unfold seen
      rw [bcIdx (ZMod.val_lt x), bcIdx (ZMod.val_lt y)]
    rw [hs]
  · exact (nomatch hQ)

/-- **C115** (batches). Simulating a list of exposures at once gives an array with one pattern for every exposure, and it is the pattern that the
exposure has on its own, whatever else is in the batch: for every kind of weights (also none), with and without phase ramps, binning, efficiency and
saturation, in the near and in the far field. -/
theorem fancy_batch_forward (M : Fancy n m a b N k) (W : Option (Weights N k)) (hW : M.weights = W.getD (.perShot fun _ => 1)) (hfit : DetectorFits M)
    (l : List (Fin N × (Fin 3 → ℝ))) (hl : l ≠ []) (Q : ℕ → Img ℝ) (hQ : ∀ s (hs : s < l.length), M.forward l[s].1 l[s].2 = .ok (Q s)) :
    ∃ T, M.batchForward W (.many l) = .ok T ∧ T.shape = [l.length, M.background.h, M.background.w] ∧
      ∀ s < l.length, (Q s).h = M.background.h ∧ (Q s).w = M.background.w ∧
        ∀ i < M.background.h, ∀ j < M.background.w, T.get [s, i, j] = (Q s).px i j := by
  have hpos : 0 < l.length := List.length_pos_iff.2 hl
  have hf : ∀ s (hs : s < l.length), _ := fun s hs => forward_patternOf M l[s] (Q s) (hQ s hs)
  set ex : ℕ → BatchItem N := fun s => (l[s]?).getD l[0] with hexd
  have hexv : ∀ s (hs : s < l.length), ex s = l[s] := fun s hs => by simp [hexd, hs]
  have hex : ∀ s < l.length, l[s]? = some (ex s) := fun s hs => by rw [hexv s hs]; simp [hs]
  obtain ⟨T, h1, h2, h3⟩ := batchForward_many M W hW hfit (hf 0 hpos).2.2 l hpos ex hex (Or.inl rfl) (Or.inl rfl)
    ⟨fun s hs => by rw [hexv s hs]; exact (hf s hs).1.rows 0 one_pos, fun s hs => by rw [hexv s hs]; exact (hf s hs).1.cols 0 one_pos⟩
  refine ⟨T, h1, by rw [h2, hfit.background.1, hfit.background.2], fun s hs => ?_⟩
  have e := (hf s hs).2.1
  have hsh := recorded_shape M fun x y => ∑ u, ‖M.toDetector (l[s]).1 (l[s]).2 (seen M.transmission a b (M.pixTrans l[s].1 l[s].2) a b)
    (shotProbes M.weights (l[s]).1 M.basisProbes u) (x : ZMod a) (y : ZMod b)‖ ^ 2
  rw [hfit.background.1, hfit.background.2, e]
  refine ⟨hsh.1, hsh.2, fun i hi j hj => ?_⟩
  rw [h3 s hs i hi j hj]
  beta_reduce
  rw [hexv s hs]

/-- **C115** (one exposure): with weights and without phase ramps, the index and translation of one exposure give its pattern without further axes. -/
theorem fancy_single_forward (M : Fancy n m a b N k) (hfit : DetectorFits M) (hF : M.fourierShifts = none) (e : Fin N × (Fin 3 → ℝ)) (Q : Img ℝ)
    (hQ : M.forward e.1 e.2 = .ok Q) :
    ∃ T, M.batchForward (some M.weights) (.one e) = .ok T ∧ T.shape = [M.background.h, M.background.w] ∧ Q.h = M.background.h ∧ Q.w = M.background.w ∧
      ∀ i < M.background.h, ∀ j < M.background.w, T.get [i, j] = Q.px i j := by
  obtain ⟨hw, he, hs⟩ := forward_patternOf M e Q hQ
  have hsim : M.simulateTranslation = false := by
    cases h : M.simulateTranslation with
    | false => rfl
    | true => exact absurd ⟨h, hF⟩ hs
  obtain ⟨T, h1, h2, h3⟩ := batchForward_one M hfit hsim hF e (Or.inl rfl) (Or.inl rfl) hw
  have hsh := recorded_shape M fun x y => ∑ u, ‖M.toDetector e.1 e.2 (seen M.transmission a b (M.pixTrans e.1 e.2) a b)
    (shotProbes M.weights e.1 M.basisProbes u) (x : ZMod a) (y : ZMod b)‖ ^ 2
  refine ⟨T, h1, by rw [h2, hfit.background.1, hfit.background.2], ?_⟩
  rw [hfit.background.1, hfit.background.2, he]
  exact ⟨hsh.1, hsh.2, fun i hi j hj => h3 i hi j hj⟩

/-! ### Where a batch is not what its exposures are -/

/-- **C115 fails** for one exposure of a model without weights: the code takes the number 1 for the weights and then indexes it. -/
theorem single_without_weights_violated (M : Fancy n m a b N k) (e : Fin N × (Fin 3 → ℝ)) : M.batchForward none (.one e) = .error .typeError := rfl

/-- **C115 fails** for one exposure of a model with Fourier shifts (`det_pix_trans[:,0,None,None]` of a vector), also when the list with just this
exposure is simulated without complaint. -/
theorem single_with_ramps_violated (M : Fancy n m a b N k) (f : Fin N → Fin 2 → ℝ) (hF : M.fourierShifts = some f) (e : Fin N × (Fin 3 → ℝ)) :
    M.batchForward (some M.weights) (.one e) = .error .indexError := by
  obtain ⟨P, q, -⟩ := batchProbes_one M M.weights e
  have h : M.batchRamped (.one e) P = .error .indexError := by
    unfold Fancy.batchRamped rampWaves
    rw [if_pos (Or.inr (by rw [hF]; rfl)), hF]
    cases M.simulateTranslation <;> simp [Batch.rows, Tensor.bop, broadcastShapes, bcRev, Except.bind]
  unfold Fancy.batchForward Fancy.batchInteraction
  rw [q]
  simp only [Except.bind]
  rw [h]

/-- When the windows cannot be stacked, there is no simulation. -/
theorem batchForward_stack_error (M : Fancy n m a b N k) (W : Option (Weights N k)) (hsim : ¬ (M.simulateTranslation = true ∧ M.fourierShifts = none))
    (l : List (BatchItem N)) (ex : ℕ → BatchItem N) (hex : ∀ s < l.length, l[s]? = some (ex s))
    (h : Tensor.stack ((List.range l.length).map fun s => M.transmission.tensor.window a b
      ⌊((Batch.many l).rows [2] fun e i => comp2 (M.pixTrans e.1 e.2) i).get [s, 0]⌋
      ⌊((Batch.many l).rows [2] fun e i => comp2 (M.pixTrans e.1 e.2) i).get [s, 1]⌋) = .error .runtimeError) :
    M.batchForward W (.many l) = .error .runtimeError := by
  obtain ⟨P1, q1, r1⟩ := batchProbes_many M W l ex hex
  obtain ⟨P2, q2, r2⟩ := batchRamped_many M hsim l ex hex r1
  obtain ⟨P3, q3, -⟩ := r2.planes (padProbe (n := n) (m := m) a b)
  have q4 : sinc2D a b true M.nearField P3 M.transmission.tensor ((Batch.many l).rows [2] fun e i => comp2 (M.pixTrans e.1 e.2) i) =
      .error .runtimeError := by
    unfold sinc2D
    simp only [Batch.rows, List.length_cons, List.length_nil, List.headD_cons] at h ⊢
    simp only [Nat.reduceAdd, OfNat.ofNat_ne_one, decide_false, Bool.false_eq_true, if_false, List.headD_cons]
    rw [h]
    rfl
  unfold Fancy.batchForward Fancy.batchInteraction
  rw [q1]
  simp only [Except.bind]
  rw [q2]
  simp only
  rw [q3]
  simp only
  rw [q4]
  rfl

/-- **C115 fails** for a list without exposures: there is no empty array of patterns but an error. -/
theorem empty_batch_violated [NeZero N] (M : Fancy n m a b N k) (W : Option (Weights N k))
    (hsim : ¬ (M.simulateTranslation = true ∧ M.fourierShifts = none)) : M.batchForward W (.many []) = .error .runtimeError :=
  batchForward_stack_error M W hsim [] (fun _ => (0, 0)) (fun s hs => absurd hs (by simp)) rfl

/-- **C115 fails** when the probe leaves the object at some exposure: an exposure with another number of rows or columns in its window than the first one
of the list has makes the whole list fail, the exposures in the middle of the object included. -/
theorem unequal_windows_violated (M : Fancy n m a b N k) (W : Option (Weights N k)) (hsim : ¬ (M.simulateTranslation = true ∧ M.fourierShifts = none))
    (l : List (Fin N × (Fin 3 → ℝ))) (e e' : Fin N × (Fin 3 → ℝ)) (he' : e' ∈ l)
    (h : (sliceExtent M.transmission.h ⌊M.pixTrans e.1 e.2 0⌋ (⌊M.pixTrans e.1 e.2 0⌋ + a)).2 ≠
        (sliceExtent M.transmission.h ⌊M.pixTrans e'.1 e'.2 0⌋ (⌊M.pixTrans e'.1 e'.2 0⌋ + a)).2 ∨
      (sliceExtent M.transmission.w ⌊M.pixTrans e.1 e.2 1⌋ (⌊M.pixTrans e.1 e.2 1⌋ + b)).2 ≠
        (sliceExtent M.transmission.w ⌊M.pixTrans e'.1 e'.2 1⌋ (⌊M.pixTrans e'.1 e'.2 1⌋ + b)).2) :
    M.batchForward W (.many (e :: l)) = .error .runtimeError := by
  refine batchForward_stack_error M W hsim (e :: l) (fun s => ((e :: l)[s]?).getD e) (fun s hs => by rw [List.getElem?_eq_getElem hs]; rfl) ?_
  obtain ⟨t, ht, rfl⟩ := List.getElem_of_mem he'
  rw [List.length_cons, List.range_succ_eq_map, List.map_cons, List.map_map]
  refine if_neg fun hall => ?_
  have h1 := hall _ (List.mem_map.2 ⟨t, List.mem_range.2 ht, rfl⟩)
  simp only [Function.comp, Batch.rows, Tensor.window, Img.tensor, List.length_cons, List.length_nil, comp2, List.headD_cons, List.tail_cons,
    Nat.succ_eq_add_one, List.getElem?_cons_succ, List.getElem?_cons_zero, List.getElem?_eq_getElem ht, Option.map_some, Option.getD_some] at h1
  simp at h1
  rcases h with h | h
  · exact h h1.1.symm
  · exact h h1.2.symm

/-- **C115 fails** at the edge of the object: an exposure at which just the last row of the object is left under a probe of several rows, which is an
error for any other number of rows, is simulated as if this row were repeated under the whole probe. -/
theorem one_row_window_violated (M : Fancy n m a b N k) (hfit : DetectorFits M) (hsim : M.simulateTranslation = false) (hF : M.fourierShifts = none)
    (ha : 1 < a) (e : Fin N × (Fin 3 → ℝ)) (c : ℕ) (h0 : ⌊M.pixTrans e.1 e.2 0⌋ + 1 = (M.transmission.h : ℤ)) (hh : 0 < M.transmission.h)
    (h1 : ⌊M.pixTrans e.1 e.2 1⌋ = (c : ℤ)) (h2 : c + b ≤ M.transmission.w) :
    M.forward e.1 e.2 = .error "RuntimeError" ∧
    ∃ T, M.batchForward (some M.weights) (.one e) = .ok T ∧ T.shape = [M.background.h, M.background.w] ∧
      ∀ i < M.background.h, ∀ j < M.background.w,
        T.get [i, j] = (M.patternOf e fun _ y => M.transmission.px (M.transmission.h - 1) (c + y.val)).px i j := by
  have hb : 0 < b := Nat.pos_of_ne_zero (NeZero.ne b)
  obtain ⟨r, hr⟩ : ∃ r, M.transmission.h = r + 1 := ⟨M.transmission.h - 1, by omega⟩
  have h0' : ⌊M.pixTrans e.1 e.2 0⌋ = (r : ℤ) := by rw [hr] at h0; push_cast at h0; omega
  have w0 : sliceExtent M.transmission.h ⌊M.pixTrans e.1 e.2 0⌋ (⌊M.pixTrans e.1 e.2 0⌋ + a) = (r, 1) := by
    rw [h0', hr]
    unfold sliceExtent sliceBound
    ext <;> simp <;> omega
  have w1 : sliceExtent M.transmission.w ⌊M.pixTrans e.1 e.2 1⌋ (⌊M.pixTrans e.1 e.2 1⌋ + b) = (c, b) := by
    rw [h1]
    unfold sliceExtent sliceBound
    ext <;> simp <;> omega
  constructor
  · unfold Fancy.forward
    rw [if_neg (by rw [hsim]; simp)]
    simp only
    unfold objWindow
    simp only
    rw [w0, if_neg (fun h => by have := h.1; simp at this; omega)]
    rfl
  · obtain ⟨T, q, r1, r2⟩ := batchForward_one M hfit hsim hF e (Or.inr rfl) (Or.inl rfl) (e0 := 1) (e1 := b)
      ⟨fun _ _ => by rw [w0], fun _ _ => by rw [w1]⟩
    refine ⟨T, q, by rw [r1, hfit.background.1, hfit.background.2], fun i hi j hj => ?_⟩
    rw [r2 i (by rw [← hfit.background.1]; exact hi) j (by rw [← hfit.background.2]; exact hj)]
    beta_reduce
    have hs : seen M.transmission a b (M.pixTrans e.1 e.2) 1 b = fun _ y => M.transmission.px (M.transmission.h - 1) (c + y.val) := by
      funext x y
      have hy : (if b = 1 then 0 else y.val) = y.val := by
        have := ZMod.val_lt y
        split_ifs <;> omega
      unfold seen
      rw [w0, w1]
      simp only [if_true, hy, add_zero, hr, Nat.add_sub_cancel]
    rw [hs]

/-! ### Non-vacuity -/

theorem toyFancy_detector : DetectorFits toyFancy := by
  constructor <;> simp [toyFancy, binned]

/-- A batch of three exposures (the first one twice) of `toyFancy`, and one exposure: all hypotheses of the two theorems hold. -/
example : (∃ T, toyFancy.batchForward (some (.matrices 1 fun _ => 1)) (.many [(0, 0), (1, 0), (0, 0)]) = .ok T ∧ T.shape = [3, 2, 2]) ∧
    ∃ T, toyFancy.batchForward (some (.matrices 1 fun _ => 1)) (.one (1, 0)) = .ok T ∧ T.shape = [2, 2] := by
  obtain ⟨Q0, h0⟩ := toyFancy_forward 0
  obtain ⟨Q1, h1⟩ := toyFancy_forward 1
  constructor
  · obtain ⟨T, q, r, -⟩ := fancy_batch_forward toyFancy (some (.matrices 1 fun _ => 1)) rfl toyFancy_detector [(0, 0), (1, 0), (0, 0)] (by simp)
      (fun s => if s = 1 then Q1 else Q0) (by
        intro s hs
        have : s = 0 ∨ s = 1 ∨ s = 2 := by simp at hs; omega
        rcases this with rfl | rfl | rfl
        · exact h0
        · exact h1
        · exact h0)
    exact ⟨T, q, r⟩
  · obtain ⟨T, q, r, -⟩ := fancy_single_forward toyFancy toyFancy_detector rfl (1, 0) Q1 h1
    exact ⟨T, q, r⟩

/-- `toyFancy` at a position where the probe covers just the last row of the object. -/
theorem toyFancy_edge : toyFancy.pixTrans 0 ![0, -3, 0] = ![9 / 2, 5 / 4] := by
  have hT : Transverse !![0, -1; -1, 0; 0, 0] ![0, 0, 1] := by
    simp [Transverse, Vec3.dot, Vec3.cross, col]
  have h := translations_to_pixel_coordinates !![0, -1; -1, 0; 0, 0] (by simp) (by simp) hT ![0, -3, 0] (by simp)
  have e0 := congrFun h 0
  have e1 := congrFun h 1
  simp [Matrix.mulVec, dotProduct, Fin.sum_univ_succ] at e0 e1
  unfold Fancy.pixTrans
  simp only [toyFancy]
  have hq : translationsToPixel !![0, -1; -1, 0; 0, 0] ![0, 0, 1] ![0, -3, 0] = ![3, 0] := by
    funext j
    fin_cases j
    · exact e1
    · exact e0
  rw [hq]
  funext j
  fin_cases j <;> simp <;> norm_num

example : toyFancy.forward 0 ![0, -3, 0] = .error "RuntimeError" ∧ ∃ T, toyFancy.batchForward (some toyFancy.weights) (.one (0, ![0, -3, 0])) = .ok T := by
  have f0 : ⌊(![9 / 2, 5 / 4] : Fin 2 → ℝ) 0⌋ = 4 := by norm_num [Int.floor_eq_iff]
  have f1 : ⌊(![9 / 2, 5 / 4] : Fin 2 → ℝ) 1⌋ = 1 := by norm_num [Int.floor_eq_iff]
  obtain ⟨h, T, hT, -⟩ := one_row_window_violated toyFancy toyFancy_detector rfl rfl (by norm_num) (0, ![0, -3, 0]) 1
    (by rw [toyFancy_edge, f0]; simp [toyFancy, Fancy.transmission]) (by simp [toyFancy, Fancy.transmission])
    (by rw [toyFancy_edge, f1]; rfl) (by simp [toyFancy, Fancy.transmission])
  exact ⟨h, T, hT⟩

/-- That exposure together with one in the middle of the object. -/
example : toyFancy.batchForward none (.many [(0, 0), (0, ![0, -3, 0])]) = .error .runtimeError := by
  have hp : toyFancy.pixTrans 0 0 = ![3 / 2, 5 / 4] := by
    unfold Fancy.pixTrans
    simp only [toyFancy, translationsToPixel, Matrix.mulVec_zero]
    funext j; fin_cases j <;> simp <;> norm_num
  have f0 : ⌊(![9 / 2, 5 / 4] : Fin 2 → ℝ) 0⌋ = 4 := by norm_num [Int.floor_eq_iff]
  have f1 : ⌊(![3 / 2, 5 / 4] : Fin 2 → ℝ) 0⌋ = 1 := by norm_num [Int.floor_eq_iff]
  refine unequal_windows_violated toyFancy none (by simp [toyFancy]) [(0, ![0, -3, 0])] (0, 0) (0, ![0, -3, 0]) (by simp) (Or.inl ?_)
  simp only
  rw [hp, toyFancy_edge, f0, f1]
  simp [toyFancy, Fancy.transmission, sliceExtent, sliceBound]

end Cdtools
