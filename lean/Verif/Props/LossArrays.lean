/-
**C118**: the losses, their normalizers and the value of a minibatch on whole arrays.
-/
import Verif.Model.LossArrays
import Verif.Props.Training
import Verif.Props.BatchOthers
import Verif.Lemmas.Chunks

set_option linter.unusedSectionVars false

namespace Cdtools
open Finset

variable {h w n m a b N k : ℕ}

/-! ### Specification -/

/-- An array holds a list of patterns, one after another along its first axis. -/
structure HoldsPatterns (A : Tensor ℝ) (P : List (Fin h × Fin w → ℝ)) : Prop where
  shape : A.shape = [P.length, h, w]
  get : ∀ s (hs : s < P.length) (i : Fin h) (j : Fin w), A.get [s, i, j] = P[s] (i, j)

/-- An array of booleans of the shape of the detector. -/
structure HoldsMask (A : Tensor Bool) (M : Fin h × Fin w → Bool) : Prop where
  shape : A.shape = [h, w]
  get : ∀ (i : Fin h) (j : Fin w), A.get [i, j] = M (i, j)

/-- A mask given as an array or not at all. -/
def MaskFits (A : Option (Tensor Bool)) (M : Option (Fin h × Fin w → Bool)) : Prop :=
  match A, M with
  | none, none => True
  | some A, some M => HoldsMask A M
  | _, _ => False

/-! ### Indices -/

theorem mem_shapeIndices3 {S : ℕ} {i : List ℕ} (hi : i ∈ shapeIndices [S, h, w]) :
    ∃ s x y, s < S ∧ x < h ∧ y < w ∧ i = [s, x, y] := by
  simp only [shapeIndices, List.mem_flatMap, List.mem_map, List.mem_range, List.mem_singleton] at hi
  obtain ⟨s, hs, i1, ⟨x, hx, i2, ⟨y, hy, i3, rfl, rfl⟩, rfl⟩, rfl⟩ := hi
  exact ⟨s, x, y, hs, hx, hy, rfl⟩

theorem sum_flatMap' {α β : Type} [AddCommMonoid α] (l : List β) (F : β → List α) : (l.flatMap F).sum = (l.map fun x => (F x).sum).sum := by
  induction l with
  | nil => rfl
  | cons x l ih => rw [List.flatMap_cons, List.sum_append, ih, List.map_cons, List.sum_cons]

theorem sum_shapeIndices_cons {α : Type} [AddCommMonoid α] (d : ℕ) (s : List ℕ) (F : List ℕ → α) :
    ((shapeIndices (d :: s)).map F).sum = ((List.range d).map fun x => ((shapeIndices s).map fun i => F (x :: i)).sum).sum := by
  rw [shapeIndices, List.map_flatMap, sum_flatMap']
  simp only [List.map_map, Function.comp_def]

theorem sum_range_list {α : Type} [AddCommMonoid α] (d : ℕ) (F : ℕ → α) : ((List.range d).map F).sum = ∑ x : Fin d, F x := by
  rw [Fin.sum_univ_eq_sum_range F d]
  rfl

theorem sum_shapeIndices3 {α : Type} [AddCommMonoid α] (S : ℕ) (F : List ℕ → α) :
    ((shapeIndices [S, h, w]).map F).sum = ((List.range S).map fun s => ∑ p : Fin h × Fin w, F [s, p.1, p.2]).sum := by
  rw [sum_shapeIndices_cons]
  congr 1
  refine List.map_congr_left fun s _ => ?_
  rw [sum_shapeIndices_cons, Fintype.sum_prod_type, sum_range_list]
  refine Finset.sum_congr rfl fun x _ => ?_
  rw [sum_shapeIndices_cons, sum_range_list]
  refine Finset.sum_congr rfl fun y _ => ?_
  simp [shapeIndices]

theorem bget_mem {α : Type} (A : Tensor α) {i : List ℕ} (hi : i ∈ shapeIndices A.shape) : A.bget i = A.get i := by
  have key : ∀ (sh i : List ℕ), i ∈ shapeIndices sh → i.length = sh.length ∧ List.zipWith (fun d x => if d = 1 then 0 else x) sh i = i := by
    intro sh
    induction sh with
    | nil => intro i hi; simp [shapeIndices] at hi; subst hi; exact ⟨rfl, rfl⟩
    | cons d sh ih =>
      intro i hi
      simp only [shapeIndices, List.mem_flatMap, List.mem_map, List.mem_range] at hi
      obtain ⟨x, hx, i, hi, rfl⟩ := hi
      obtain ⟨h1, h2⟩ := ih i hi
      refine ⟨by simp [h1], ?_⟩
      rw [List.zipWith_cons_cons, h2]
      congr 1
      split_ifs with hd <;> omega
  obtain ⟨h1, h2⟩ := key A.shape i hi
  unfold Tensor.bget
  rw [h1, Nat.sub_self, List.drop_zero, h2]

theorem broadcastShapes_self (s : List ℕ) : broadcastShapes s s = some s := by
  have key : ∀ l : List ℕ, bcRev l l = some l := by
    intro l
    induction l with
    | nil => rfl
    | cons x l ih => simp [bcRev, bcDim, ih]
  unfold broadcastShapes
  rw [key]
  simp

theorem bop_same {α β γ : Type} (f : α → β → γ) (A : Tensor α) (B : Tensor β) (hs : A.shape = B.shape) :
    ∃ D, A.bop f B = .ok D ∧ D.shape = A.shape ∧ ∀ i ∈ shapeIndices A.shape, D.get i = f (A.get i) (B.get i) := by
  have h1 : A.bop f B = .ok ⟨A.shape, fun i => f (A.bget i) (B.bget i)⟩ := by
    unfold Tensor.bop
    rw [← hs, broadcastShapes_self]
  refine ⟨_, h1, rfl, fun i hi => ?_⟩
  show f (A.bget i) (B.bget i) = _
  rw [bget_mem A hi, bget_mem B (hs ▸ hi)]

theorem total_eq {A : Tensor ℝ} {sh : List ℕ} (hs : A.shape = sh) {F : List ℕ → ℝ} (hg : ∀ i ∈ shapeIndices sh, A.get i = F i) :
    A.total = ((shapeIndices sh).map F).sum := by
  unfold Tensor.total
  rw [hs]
  congr 1
  exact List.map_congr_left hg

/-! ### Selection -/

/-- What a loss sees: two arrays of the same shape with the selected pixels of all exposures. -/
structure Selected (mask : Option (Fin h × Fin w → Bool)) (batch : List ((Fin h × Fin w → ℝ) × (Fin h × Fin w → ℝ)))
    (x : Tensor ℝ × Tensor ℝ) : Prop where
  shape : x.1.shape = x.2.shape
  sum : ∀ F : ℝ → ℝ → ℝ, ((shapeIndices x.1.shape).map fun i => F (x.1.get i) (x.2.get i)).sum = batchSum mask F batch
  count : x.1.numel = batchCount mask batch

theorem range_zip {D P : List (Fin h × Fin w → ℝ)} (hl : D.length = P.length) (G : ℕ → ℝ)
    (H : (Fin h × Fin w → ℝ) × (Fin h × Fin w → ℝ) → ℝ)
    (hG : ∀ s (h1 : s < D.length) (h2 : s < P.length), G s = H (D[s], P[s])) :
    (List.range D.length).map G = (D.zip P).map H := by
  refine List.ext_getElem (by simp [hl]) fun s h1 h2 => ?_
  simp only [List.length_map, List.length_range] at h1
  simp only [List.getElem_map, List.getElem_range, List.getElem_zip]
  exact hG s h1 (hl ▸ h1)

theorem sum_filter_list {α ι : Type} [AddCommMonoid α] (l : List ι) (p : ι → Bool) (F : ι → α) :
    ((l.filter p).map F).sum = (l.map fun i => if p i = true then F i else 0).sum := by
  induction l with
  | nil => rfl
  | cons x l ih =>
    by_cases hx : p x = true
    · simp [List.filter_cons, hx, ih]
    · simp [List.filter_cons, hx, ih]

theorem select_stack {I S : Tensor ℝ} {D P : List (Fin h × Fin w → ℝ)} (hI : HoldsPatterns I D) (hS : HoldsPatterns S P)
    (hl : D.length = P.length) {A : Option (Tensor Bool)} {M : Option (Fin h × Fin w → Bool)} (hM : MaskFits A M) :
    ∃ x, selectBoth A I S = .ok x ∧ Selected M (D.zip P) x := by
  have hshS : S.shape = [D.length, h, w] := by rw [hS.shape, hl]
  match A, M, hM with
  | none, none, _ =>
    refine ⟨(I, S), rfl, hI.shape.trans hshS.symm, fun F => ?_, ?_⟩
    · show ((shapeIndices I.shape).map _).sum = _
      rw [hI.shape, sum_shapeIndices3]
      unfold batchSum
      congr 1
      refine range_zip hl _ _ fun s h1 h2 => Finset.sum_congr rfl fun p _ => ?_
      show F (I.get _) (S.get _) = _
      rw [hI.get s h1, hS.get s h2]
    · show I.shape.prod = _
      rw [hI.shape]
      simp [batchCount, selectedPixels, hl, List.prod_cons]
  | some A, some M, hM =>
    have hb : broadcastShapes [D.length, h, w] A.shape = some [D.length, h, w] := by
      rw [hM.shape]
      simp [broadcastShapes, bcRev, bcDim]
    set idx := (shapeIndices [D.length, h, w]).filter A.bget with hidx
    have hI1 : I.maskedSelect A = .ok ⟨[(idx.map I.bget).length], fun i => ((idx.map I.bget)[i.headD 0]?).getD 0⟩ := by
      unfold Tensor.maskedSelect
      rw [hI.shape, hb]
    have hS1 : S.maskedSelect A = .ok ⟨[(idx.map S.bget).length], fun i => ((idx.map S.bget)[i.headD 0]?).getD 0⟩ := by
      unfold Tensor.maskedSelect
      rw [hshS, hb]
    have hmask : ∀ s (i : Fin h) (j : Fin w), A.bget [s, i.val, j.val] = M (i, j) := by
      intro s i j
      have : A.bget [i.val, j.val] = A.get [i.val, j.val] := bget_mem A (by
        rw [hM.shape]
        simp [shapeIndices])
      rw [← hM.get i j, ← this]
      unfold Tensor.bget
      rw [hM.shape]
      rfl
    refine ⟨_, by
      show (I.maskedSelect A).bind _ = _
      rw [hI1]
      show (S.maskedSelect A).map _ = _
      rw [hS1]
      rfl, by simp, fun F => ?_, ?_⟩
    · have h1 : ((shapeIndices [(idx.map I.bget).length]).map fun i =>
          F (((idx.map I.bget)[i.headD 0]?).getD 0) (((idx.map S.bget)[i.headD 0]?).getD 0)) = idx.map fun i => F (I.bget i) (S.bget i) := by
        have h0 : ∀ L, shapeIndices [L] = (List.range L).map fun x => [x] := by
          intro L
          simp only [shapeIndices, List.map_cons, List.map_nil]
          rw [List.map_eq_flatMap]
        rw [h0]
        refine List.ext_getElem (by simp) fun s q1 q2 => ?_
        simp only [List.length_map] at q2
        simp [q2]
      show ((shapeIndices [(idx.map I.bget).length]).map _).sum = _
      rw [h1, hidx, sum_filter_list, sum_shapeIndices3]
      unfold batchSum
      congr 1
      refine range_zip hl _ _ fun s h1 h2 => ?_
      simp only [selectedPixels, Finset.sum_filter]
      refine Finset.sum_congr rfl fun p _ => ?_
      have hm : [s, p.1.val, p.2.val] ∈ shapeIndices [D.length, h, w] := by simp [shapeIndices, h1]
      rw [hmask s p.1 p.2, bget_mem I (hI.shape ▸ hm), bget_mem S (hshS ▸ hm), hI.get s h1, hS.get s h2]
    · show [(idx.map I.bget).length].prod = _
      rw [List.prod_singleton, List.length_map]
      have h1 : idx.length = (idx.map fun _ => 1).sum := by simp
      rw [h1, hidx, sum_filter_list, sum_shapeIndices3]
      have h2 : ∀ s ∈ List.range D.length, ∑ p : Fin h × Fin w, (if A.bget [s, p.1.val, p.2.val] = true then 1 else 0) =
          (selectedPixels (some M)).card := by
        intro s _
        simp only [hmask, selectedPixels, Finset.card_filter]
      rw [List.map_congr_left h2]
      simp [batchCount, hl]

/-! ### The losses -/

section
variable {I S : Tensor ℝ} {D P : List (Fin h × Fin w → ℝ)} {A : Option (Tensor Bool)} {M : Option (Fin h × Fin w → Bool)}

/-- **C118** (losses): on arrays that hold measured and simulated patterns, with a mask of the shape of the detector or none, every
loss is the sum over the exposures and the selected pixels, and the means divide by the number of selected pixels of all exposures. -/
theorem loss_arrays (hI : HoldsPatterns I D) (hS : HoldsPatterns S P) (hl : D.length = P.length) (hM : MaskFits A M) :
    (∀ useSum, amplitudeMseArray A useSum I S = .ok (
      let total := ((D.zip P).map fun x => ∑ p ∈ selectedPixels M, (√(x.2 p) - √(x.1 p)) ^ 2).sum
      if useSum then total else total / (D.length * (selectedPixels M).card : ℕ))) ∧
    (∀ useSum, intensityMseArray A useSum I S = .ok (
      let total := ((D.zip P).map fun x => ∑ p ∈ selectedPixels M, (x.2 p - x.1 p) ^ 2).sum
      if useSum then total else total / (D.length * (selectedPixels M).card : ℕ))) ∧
    (∀ eps, poissonNllArray A eps false I S = .ok
      ((D.zip P).map fun x => ∑ p ∈ selectedPixels M, (x.2 p + eps - xlogy (x.1 p) (x.2 p + eps))).sum) ∧
    (∀ eps, poissonNllArray A eps true I S = .ok
      (((D.zip P).map fun x => ∑ p ∈ selectedPixels M, (x.2 p + eps - xlogy (x.1 p) (x.2 p + eps))).sum -
        ((D.zip P).map fun x => ∑ p ∈ selectedPixels M, (x.1 p - xlogy (x.1 p) (x.1 p))).sum)) := by
  obtain ⟨x, hx, sx⟩ := select_stack hI hS hl hM
  have hcount : x.1.numel = D.length * (selectedPixels M).card := by
    rw [sx.count, batchCount, List.length_zip, ← hl, min_self]
  have hsum2 : ∀ (F : ℝ → ℝ → ℝ) (E : Tensor ℝ), E.shape = x.2.shape → (∀ i ∈ shapeIndices x.2.shape, E.get i = F (x.1.get i) (x.2.get i)) →
      E.total = batchSum M F (D.zip P) := by
    intro F E h1 h2
    rw [total_eq h1 h2, ← sx.shape, sx.sum F]
  have two : ∀ f : ℝ → ℝ → ℝ, ∀ g : ℝ → ℝ, ∃ E, (x.2.map g).bop f (x.1.map g) = .ok E ∧ E.numel = x.1.numel ∧
      E.total = batchSum M (fun i s => f (g s) (g i)) (D.zip P) := by
    intro f g
    obtain ⟨E, e1, e2, e3⟩ := bop_same f (x.2.map g) (x.1.map g) sx.shape.symm
    refine ⟨E, e1, ?_, hsum2 _ E e2 e3⟩
    unfold Tensor.numel
    rw [e2, sx.shape]
    rfl
  have hp : ∀ eps sm, poissonNllArray A eps sm I S = .ok (
      if sm then batchSum M (fun i s => s + eps - xlogy i (s + eps)) (D.zip P) - batchSum M (fun i _ => i - xlogy i i) (D.zip P)
      else batchSum M (fun i s => s + eps - xlogy i (s + eps)) (D.zip P)) := by
    intro eps sm
    obtain ⟨L, l1, l2, l3⟩ := bop_same xlogy x.1 (x.2.map (· + eps)) sx.shape
    obtain ⟨E, e1, e2, e3⟩ := bop_same (fun p q : ℝ => p - q) (x.2.map (· + eps)) L (by rw [l2, sx.shape]; rfl)
    have hE : E.total = batchSum M (fun i s => s + eps - xlogy i (s + eps)) (D.zip P) := by
      refine hsum2 _ E e2 fun i hi => ?_
      rw [e3 i hi, l3 i (by rw [sx.shape]; exact hi)]
      rfl
    have hmin : (x.1.map fun i => i - xlogy i i).total = batchSum M (fun i _ => i - xlogy i i) (D.zip P) :=
      hsum2 _ _ sx.shape fun i _ => rfl
    unfold poissonNllArray
    rw [hx]
    show ((x.1.bop xlogy (x.2.map (· + eps))).bind _) = _
    rw [l1]
    show (((x.2.map (· + eps)).bop (fun p q : ℝ => p - q) L).map _) = _
    rw [e1]
    show Except.ok _ = _
    beta_reduce
    rw [hE, hmin]
  refine ⟨fun us => ?_, fun us => ?_, fun eps => hp eps false, fun eps => hp eps true⟩
  · obtain ⟨E, e1, e2, e3⟩ := two (fun s i => (s - i) ^ 2) Real.sqrt
    unfold amplitudeMseArray
    rw [hx]
    show (((x.2.map Real.sqrt).bop (fun s i => (s - i) ^ 2) (x.1.map Real.sqrt)).map _) = _
    rw [e1]
    show Except.ok _ = _
    beta_reduce
    rw [Tensor.mean, e2, e3, hcount]
    rfl
  · obtain ⟨E, e1, e2, e3⟩ := two (fun s i => (s - i) ^ 2) id
    unfold intensityMseArray
    rw [hx]
    show ((x.2.bop (fun s i => (s - i) ^ 2) x.1).map _) = _
    have e1' : x.2.bop (fun s i => (s - i) ^ 2) x.1 = .ok E := e1
    rw [e1']
    show Except.ok _ = _
    beta_reduce
    rw [Tensor.mean, e2, e3, hcount]
    rfl

theorem array_chunk (kind : LossKind) (hI : HoldsPatterns I D) (hS : HoldsPatterns S P) (hl : D.length = P.length) (hM : MaskFits A M) :
    kind.array A I S = .ok (kind.chunk M (D.zip P)) := by
  obtain ⟨h1, h2, h3, -⟩ := loss_arrays hI hS hl hM
  cases kind with
  | amplitudeMse => exact h1 true
  | intensityMse => exact h2 true
  | poissonNll => exact h3 _

/-- **C118** (normalizers): accumulating a batch of patterns counts the selected pixels of all of them; for the Poisson likelihood,
it adds their likelihood against themselves and the number of selected pixels with a count of at least one. -/
theorem normalizer_arrays (hI : HoldsPatterns I D) (hM : MaskFits A M) (c : CountNorm) (q : PoissonNorm) :
    c.accumulateArray A I = .ok (c.accumulate M D) ∧ q.accumulateArray A I = .ok (q.accumulate M D) := by
  classical
  obtain ⟨x, hx, sx⟩ := select_stack hI hI rfl hM
  have hzip : D.zip D = D.map fun p => (p, p) := by
    refine List.ext_getElem (by simp) fun s _ _ => by simp
  have hcount : x.1.numel = batchCount M D := by rw [sx.count, batchCount, List.length_zip, min_self]; rfl
  constructor
  · unfold CountNorm.accumulateArray CountNorm.accumulate
    split_ifs with hf
    · rfl
    · match A, M, hM with
      | none, none, hM =>
        obtain rfl : x = (I, I) := (Except.ok.inj hx).symm
        show Except.ok _ = _
        rw [← hcount]
      | some A, some M, hM =>
        have h1 : ∃ y, I.maskedSelect A = .ok y ∧ x = (y, y) := by
          have hx' : (I.maskedSelect A).bind (fun i => (I.maskedSelect A).map fun s => (i, s)) = .ok x := hx
          cases hy : I.maskedSelect A with
          | error e => rw [hy] at hx'; cases hx'
          | ok y =>
            rw [hy] at hx'
            exact ⟨y, rfl, (Except.ok.inj hx').symm⟩
        obtain ⟨y, hy, rfl⟩ := h1
        show (I.maskedSelect A).map _ = _
        rw [hy]
        show Except.ok _ = _
        rw [← hcount]
  · unfold PoissonNorm.accumulateArray PoissonNorm.accumulate
    split_ifs with hf
    · rfl
    · have h1 := (loss_arrays hI hI rfl hM).2.2.1 (1e-6)
      rw [h1]
      show (selectBoth A I I).map _ = _
      rw [hx]
      show Except.ok _ = _
      have h2 : (x.1.map fun v => if 1 ≤ v then (1 : ℕ) else 0).total =
          (D.map fun p => ((selectedPixels M).filter fun k => 1 ≤ p k).card).sum := by
        have h3 := sx.sum fun i _ => if 1 ≤ i then (1 : ℝ) else 0
        have h4 : ((x.1.map fun v => if 1 ≤ v then (1 : ℕ) else 0).total : ℝ) =
            ((shapeIndices x.1.shape).map fun i => if 1 ≤ x.1.get i then (1 : ℝ) else 0).sum := by
          unfold Tensor.total
          rw [Nat.cast_list_sum, List.map_map]
          congr 1
          refine List.map_congr_left fun i _ => ?_
          show (((if 1 ≤ x.1.get i then 1 else 0 : ℕ)) : ℝ) = _
          split_ifs <;> simp
        have h5 : batchSum M (fun i _ => if 1 ≤ i then (1 : ℝ) else 0) (D.zip D) =
            ((D.map fun p => ((selectedPixels M).filter fun k => 1 ≤ p k).card).sum : ℕ) := by
          unfold batchSum
          rw [hzip, Nat.cast_list_sum, List.map_map, List.map_map]
          congr 1
          refine List.map_congr_left fun p _ => ?_
          simp [Finset.sum_boole]
        have h6 := h4.trans (h3.trans h5)
        exact_mod_cast h6
      beta_reduce
      rw [h2, hzip]
      rfl
end

/-! ### The value of a minibatch -/

theorem HoldsPatterns.rows {A : Tensor ℝ} {P : List (Fin h × Fin w → ℝ)} (hA : HoldsPatterns A P) (i c : ℕ) :
    HoldsPatterns (A.rowsFrom i c) (pySlice P i (i + c)) := by
  constructor
  · unfold Tensor.rowsFrom pySlice
    rw [hA.shape]
    simp
  · intro s hs x y
    have hs' : i + s < P.length := by
      unfold pySlice at hs
      simp at hs
      omega
    show A.get [s + i, x.val, y.val] = _
    rw [Nat.add_comm s i, hA.get (i + s) hs' x y]
    have : (pySlice P i (i + c))[s]? = P[i + s]? := by
      have hs2 : i + s < i + c := by
        unfold pySlice at hs
        simp at hs
        omega
      unfold pySlice
      rw [List.getElem?_drop, List.getElem?_take, if_pos hs2]
    rw [List.getElem?_eq_getElem hs, List.getElem?_eq_getElem hs'] at this
    rw [Option.some.inj this]

/-- A model simulates batches as `sim` simulates exposures. -/
def SimulatesBatches {J ε : Type} (h w : ℕ) (forward : List J → Except PyExc (Tensor ℝ)) (sim : J → Except ε (Img ℝ)) : Prop :=
  ∀ l : List J, l ≠ [] → (∀ e ∈ l, ∃ Q, sim e = .ok Q ∧ Q.h = h ∧ Q.w = w) →
    ∃ T, forward l = .ok T ∧ HoldsPatterns T (l.map fun e => (simPixels h w (sim e)).getD 0)

theorem chunk_append (kind : LossKind) (M : Option (Fin h × Fin w → Bool)) (l l' : List ((Fin h × Fin w → ℝ) × (Fin h × Fin w → ℝ))) :
    kind.chunk M (l ++ l') = kind.chunk M l + kind.chunk M l' := by
  cases kind <;> simp only [LossKind.chunk, amplitudeMse, intensityMse, poissonNll, if_true, Bool.false_eq_true, if_false, batchSum_append]

theorem chunk_flatten (kind : LossKind) (M : Option (Fin h × Fin w → Bool)) (ls : List (List ((Fin h × Fin w → ℝ) × (Fin h × Fin w → ℝ)))) :
    kind.chunk M ls.flatten = (ls.map (kind.chunk M)).sum := by
  induction ls with
  | nil => cases kind <;> rfl
  | cons l ls ih => rw [List.flatten_cons, chunk_append, ih, List.map_cons, List.sum_cons]

theorem foldlM_losses {ι : Type} (F : ι → Except PyExc ℝ) (G : ι → ℝ) : ∀ (l : List ι) (_ : ∀ i ∈ l, F i = .ok (G i)) (acc : Option ℝ),
    l.foldlM (fun (acc : Option ℝ) i => (F i).map fun x => some (acc.getD 0 + x)) acc =
      .ok (if l = [] then acc else some (acc.getD 0 + (l.map G).sum))
  | [], _, acc => rfl
  | i :: l, hF, acc => by
    rw [List.foldlM_cons, hF i List.mem_cons_self]
    show l.foldlM _ (some (acc.getD 0 + G i)) = _
    rw [foldlM_losses F G l (fun j hj => hF j (List.mem_cons_of_mem _ hj))]
    by_cases hl : l = []
    · subst hl; simp
    · rw [if_neg hl, if_neg (by simp)]
      simp [add_assoc]

/-- **C118** (minibatches): the value of a minibatch computed in chunks of any width, each chunk simulated and compared with the data as
one array, is the loss of all its exposures simulated one by one. -/
theorem array_closure {J ε : Type} {forward : List J → Except PyExc (Tensor ℝ)} {sim : J → Except ε (Img ℝ)}
    (hf : SimulatesBatches h w forward sim) (kind : LossKind) {A : Option (Tensor Bool)} {M : Option (Fin h × Fin w → Bool)}
    (hM : MaskFits A M) (width : ℕ) (hwd : 1 ≤ width) (inputs : List J) (hin : inputs ≠ []) {patterns : Tensor ℝ}
    {P : List (Fin h × Fin w → ℝ)} (hP : HoldsPatterns patterns P) (hl : inputs.length = P.length)
    (hs : ∀ e ∈ inputs, ∃ Q, sim e = .ok Q ∧ Q.h = h ∧ Q.w = w) :
    arrayClosure forward kind A width inputs patterns =
      .ok (some (kind.chunk M (P.zip (inputs.map fun e => (simPixels h w (sim e)).getD 0)))) := by
  set px : J → Fin h × Fin w → ℝ := fun e => (simPixels h w (sim e)).getD 0 with hpx
  have key : ∀ i ∈ pyRange0 inputs.length width, ((forward (pySlice inputs i (i + width))).bind fun T =>
      kind.array A (patterns.rowsFrom i width) T) =
      .ok (kind.chunk M (pySlice (P.zip (inputs.map px)) i (i + width))) := by
    intro i hi
    have hlt : i < inputs.length := by
      unfold pyRange0 at hi
      obtain ⟨c, hc, rfl⟩ := List.mem_map.1 hi
      have hc' := List.mem_range.1 hc
      have h1 : (c + 1) * width ≤ inputs.length + width - 1 := by
        have := Nat.div_mul_le_self (inputs.length + width - 1) width
        exact le_trans (Nat.mul_le_mul_right _ hc') this
      have h2 : (c + 1) * width = c * width + width := by ring
      omega
    have hne : pySlice inputs i (i + width) ≠ [] := by
      intro h0
      have := congrArg List.length h0
      unfold pySlice at this
      simp at this
      omega
    obtain ⟨T, t1, t2⟩ := hf _ hne (fun e he => hs e (by
      unfold pySlice at he
      exact List.mem_of_mem_take (List.mem_of_mem_drop he)))
    rw [t1]
    show kind.array A _ T = _
    have hlen : (pySlice P i (i + width)).length = ((pySlice inputs i (i + width)).map px).length := by
      unfold pySlice
      simp [hl]
    rw [array_chunk kind (hP.rows i width) t2 hlen hM]
    congr 2
    unfold pySlice
    rw [List.map_drop, List.map_take, List.zip_eq_zipWith, List.zip_eq_zipWith, List.take_zipWith, List.drop_zipWith]
  unfold arrayClosure
  rw [if_neg (by omega)]
  have hrew : (fun (acc : Option ℝ) i => (forward (pySlice inputs i (i + width))).bind fun T =>
      (kind.array A (patterns.rowsFrom i width) T).map fun l => some (acc.getD 0 + l)) =
      fun (acc : Option ℝ) i => ((forward (pySlice inputs i (i + width))).bind fun T =>
        kind.array A (patterns.rowsFrom i width) T).map fun l => some (acc.getD 0 + l) := by
    funext acc i
    cases forward (pySlice inputs i (i + width)) <;> rfl
  rw [hrew, foldlM_losses _ _ _ key]
  have hpos : 0 < inputs.length := List.length_pos_iff.2 hin
  have hne : pyRange0 inputs.length width ≠ [] := by
    unfold pyRange0
    intro h0
    have h1 := List.map_eq_nil_iff.1 h0
    have h2 := List.range_eq_nil.1 h1
    have h3 : 0 < (inputs.length + width - 1) / width := Nat.div_pos (by omega) (by omega)
    omega
  rw [if_neg hne]
  congr 2
  have hfl := pyChunks_flatten inputs.length width hwd (P.zip (inputs.map px)) (by simp [hl])
  conv_rhs => rw [← hfl, chunk_flatten]
  unfold pyChunks
  rw [List.map_map]
  show (0 : ℝ) + _ = _
  rw [zero_add]
  rfl

theorem simulates_of {J ε : Type} {forward : List J → Except PyExc (Tensor ℝ)} {sim : J → Except ε (Img ℝ)}
    (hb : ∀ l : List J, l ≠ [] → ∀ Q : ℕ → Img ℝ, (∀ s (hs : s < l.length), sim l[s] = .ok (Q s)) →
      ∃ T, forward l = .ok T ∧ T.shape = [l.length, h, w] ∧
        ∀ s < l.length, (Q s).h = h ∧ (Q s).w = w ∧ ∀ i < h, ∀ j < w, T.get [s, i, j] = (Q s).px i j) :
    SimulatesBatches h w forward sim := by
  intro l hl hs
  have hQ : ∀ s, ∃ Q : Img ℝ, ∀ hs : s < l.length, sim l[s] = .ok Q := by
    intro s
    by_cases h0 : s < l.length
    · obtain ⟨Q, h1, -⟩ := hs l[s] (List.getElem_mem h0)
      exact ⟨Q, fun _ => h1⟩
    · exact ⟨⟨0, 0, fun _ _ => 0⟩, fun h1 => absurd h1 h0⟩
  choose Q hQ using hQ
  obtain ⟨T, t1, t2, t3⟩ := hb l hl Q hQ
  refine ⟨T, t1, by rw [t2, List.length_map], fun s hs' i j => ?_⟩
  rw [List.length_map] at hs'
  obtain ⟨q1, q2, q3⟩ := t3 s hs'
  rw [q3 i i.2 j j.2, List.getElem_map, hQ s hs']
  show _ = (if (Q s).h = h ∧ (Q s).w = w then some ((Q s).pixels h w) else none).getD 0 (i, j)
  rw [if_pos ⟨q1, q2⟩]
  rfl

section
variable [NeZero n] [NeZero m] [NeZero a] [NeZero b]

/-- **C118** (models): all the models simulate batches as they simulate exposures, so that `array_closure` holds for their training:
the losses and minibatch values of C100 and C104 are those of the arrays. -/
theorem models_simulate_batches (F : Fancy n m a b N k) (W : Option (Weights N k)) (hW : F.weights = W.getD (.perShot fun _ => 1))
    (hF : DetectorFits F) (M : Multislice n m a b N k) (hM : PixelsFit M.oversampling a b M.background)
    (B : Bragg n m a b N k) (hB : PixelsFit B.oversampling a b B.background) (S : Simple n m) :
    SimulatesBatches F.background.h F.background.w (fun l => F.batchForward W (.many l)) (fun e => F.forward e.1 e.2) ∧
    SimulatesBatches M.background.h M.background.w (fun l => M.batchForward (.many l)) (fun e => M.forward e.1 e.2) ∧
    SimulatesBatches B.background.h B.background.w (fun l => B.batchForward (.many l)) (fun e => B.forward e.1 e.2) ∧
    SimulatesBatches n m (fun l : List (Fin N × (Fin 3 → ℝ)) => S.batchForward (.many l)) (fun e => S.forward e.2) :=
  ⟨simulates_of fun l hl Q hQ => fancy_batch_forward F W hW hF l hl Q hQ,
    simulates_of fun l hl Q hQ => multislice_batch_forward M hM l hl Q hQ,
    simulates_of fun l hl Q hQ => bragg_batch_forward B hB l hl Q hQ,
    simulates_of fun l hl Q hQ => (simple_batch_forward S l hl Q hQ).1⟩

end

/-- **C118** (training of FancyPtycho): one evaluation of a minibatch, with its exposures simulated in batches and compared as arrays,
returns the value of C100. -/
theorem fancy_array_step [NeZero n] [NeZero m] [NeZero a] [NeZero b] {H W' r : ℕ} (M : Fancy n m a b N k) (kind : LossKind)
    {A : Option (Tensor Bool)} {mask : Option (Fin h × Fin w → Bool)} (hA : MaskFits A mask)
    (θ : FancyTheta n m H W' h w N r k) (W : Option (Weights N k)) (hW : (M.withTheta θ).weights = W.getD (.perShot fun _ => 1))
    (hfit : DetectorFits (M.withTheta θ)) (cw : ℤ) (hcw : 1 ≤ cw)
    (B : Minibatch (Fin N × (Fin 3 → ℝ)) (Fin h × Fin w → ℝ)) (hB : B.WF) (hne : B.inputs ≠ []) {patterns : Tensor ℝ}
    (hP : HoldsPatterns patterns B.patterns)
    (hs : ∀ e ∈ B.inputs, Trainable (M.withTheta θ) h w e)
    (hpos : kind ≠ .intensityMse → (∀ q, M.qe = some q → ∀ i < h, ∀ j < w, 0 < q.px i j) ∧ ∀ s, M.saturation = some s → 0 < s) :
    arrayClosure (fun l => (M.withTheta θ).batchForward W (.many l)) kind A cw.toNat B.inputs patterns =
      ((fancyPhysics M kind mask).closure cw none B θ).map Prod.fst := by
  rw [(fancy_step_independent_of_width M kind mask θ cw hcw B hB hs hpos).1]
  have hsim : SimulatesBatches h w (fun l => (M.withTheta θ).batchForward W (.many l)) (fun e => (M.withTheta θ).forward e.1 e.2) :=
    simulates_of fun l hl Q hQ => fancy_batch_forward (M.withTheta θ) W hW hfit l hl Q hQ
  have := array_closure hsim kind hA cw.toNat (by omega) B.inputs hne hP hB.2 (fun e he => by
    obtain ⟨Q, h1, h2, h3, -⟩ := hs e he
    exact ⟨Q, h1, h2, h3⟩)
  rw [this]
  have hpx : ∀ e, (simPixels h w ((M.withTheta θ).forward e.1 e.2)) = (M.withTheta θ).shotPixels h w e := by
    intro e
    unfold Fancy.shotPixels simPixels
    cases (M.withTheta θ).forward e.1 e.2 <;> rfl
  simp only [hpx, Except.map]

/-! ### Wrong shapes -/

/-- **C118** (wrong shapes): patterns of another shape than the data (and of more than one row and column) are an error, with and
without a mask; nothing is compared with the wrong pixels. -/
theorem loss_shape_error (kind : LossKind) {A : Option (Tensor Bool)} {M : Option (Fin h × Fin w → Bool)} (hM : MaskFits A M)
    {I T : Tensor ℝ} (S S' h' w' : ℕ) (hI : I.shape = [S, h, w]) (hT : T.shape = [S', h', w']) (h1 : h ≠ 1) (h1' : h' ≠ 1)
    (w1 : w ≠ 1) (w1' : w' ≠ 1) (hne : ¬ (h' = h ∧ w' = w)) : kind.array A I T = .error .runtimeError := by
  have hb2 : ∀ l l', broadcastShapes (l ++ [h', w']) (l' ++ [h, w]) = none := by
    intro l l'
    unfold broadcastShapes
    simp only [List.reverse_append, List.reverse_cons, List.reverse_nil, List.nil_append, List.cons_append, bcRev, bcDim]
    by_cases hw' : w' = w
    · have hh' : h' ≠ h := fun hh => hne ⟨hh, hw'⟩
      simp [hw', hh', h1, h1']
    · simp [hw', w1, w1']
  have hb3 : ∀ l l', broadcastShapes (l' ++ [h, w]) (l ++ [h', w']) = none := by
    intro l l'
    unfold broadcastShapes
    simp only [List.reverse_append, List.reverse_cons, List.reverse_nil, List.nil_append, List.cons_append, bcRev, bcDim]
    by_cases hw' : w = w'
    · have hh' : h ≠ h' := fun hh => hne ⟨hh.symm, hw'.symm⟩
      simp [hw', hh', h1, h1']
    · simp [hw', w1, w1']
  match A, M, hM with
  | none, none, _ =>
    have e1 : ∀ (f : ℝ → ℝ → ℝ) (g g' : ℝ → ℝ), (T.map g).bop f (I.map g') = .error .runtimeError := by
      intro f g g'
      unfold Tensor.bop
      have := hb2 [S'] [S]
      simp only [List.cons_append, List.nil_append] at this
      simp only [Tensor.map, hT, hI, this]
    have e2 : ∀ (f : ℝ → ℝ → ℝ) (g g' : ℝ → ℝ), (I.map g).bop f (T.map g') = .error .runtimeError := by
      intro f g g'
      unfold Tensor.bop
      have := hb3 [S'] [S]
      simp only [List.cons_append, List.nil_append] at this
      simp only [Tensor.map, hT, hI, this]
    cases kind with
    | amplitudeMse =>
      show ((T.map Real.sqrt).bop _ (I.map Real.sqrt)).map _ = _
      rw [e1]; rfl
    | intensityMse =>
      show ((T.map id).bop _ (I.map id)).map _ = _
      rw [e1]; rfl
    | poissonNll =>
      show ((I.map id).bop xlogy (T.map (· + 1e-6))).bind _ = _
      rw [e2]; rfl
  | some A, some M, hM =>
    have e1 : selectBoth (some A) I T = .error .runtimeError := by
      have h2 := hb2 [S'] []
      simp only [List.cons_append, List.nil_append] at h2
      have h3 : T.maskedSelect A = .error .runtimeError := by
        unfold Tensor.maskedSelect
        rw [hT, hM.shape, h2]
      have h4 : ∃ x, I.maskedSelect A = .ok x := by
        have : broadcastShapes [S, h, w] [h, w] = some [S, h, w] := by simp [broadcastShapes, bcRev, bcDim]
        unfold Tensor.maskedSelect
        rw [hI, hM.shape, this]
        exact ⟨_, rfl⟩
      obtain ⟨x, hx⟩ := h4
      show (I.maskedSelect A).bind _ = _
      rw [hx]
      show (T.maskedSelect A).map _ = _
      rw [h3]; rfl
    cases kind with
    | amplitudeMse =>
      show (selectBoth (some A) I T).bind _ = _
      rw [e1]; rfl
    | intensityMse =>
      show (selectBoth (some A) I T).bind _ = _
      rw [e1]; rfl
    | poissonNll =>
      show (selectBoth (some A) I T).bind _ = _
      rw [e1]; rfl

/-- **C118 fails** for simulated patterns of a single row: the row is compared with every row of the data, without an error. -/
theorem loss_one_row_violated {I T : Tensor ℝ} {D : List (Fin h × Fin w → ℝ)} {P : List (Fin 1 × Fin w → ℝ)} (hI : HoldsPatterns I D)
    (hT : HoldsPatterns T P) (hl : D.length = P.length) :
    LossKind.amplitudeMse.array none I T =
      .ok (LossKind.amplitudeMse.chunk none (D.zip (P.map fun p (x : Fin h × Fin w) => p (0, x.2)))) := by
  have hb : broadcastShapes [P.length, 1, w] [D.length, h, w] = some [D.length, h, w] := by
    by_cases h1 : 1 = h
    · subst h1; simp [broadcastShapes, bcRev, bcDim, hl]
    · simp [broadcastShapes, bcRev, bcDim, hl, h1]
  have hE : (T.map Real.sqrt).bop (fun s i => (s - i) ^ 2) (I.map Real.sqrt) =
      .ok ⟨[D.length, h, w], fun i => ((T.map Real.sqrt).bget i - (I.map Real.sqrt).bget i) ^ 2⟩ := by
    unfold Tensor.bop
    simp only [Tensor.map, hT.shape, hI.shape, hb]
  show ((T.map Real.sqrt).bop (fun s i => (s - i) ^ 2) (I.map Real.sqrt)).map (fun d => d.total) = _
  rw [hE]
  show Except.ok (Tensor.total _) = _
  unfold Tensor.total
  rw [sum_shapeIndices3]
  congr 1
  simp only [LossKind.chunk, amplitudeMse, if_true]
  unfold batchSum
  congr 1
  refine range_zip (by simp [hl]) _ _ fun s h1 h2 => Finset.sum_congr rfl fun p _ => ?_
  have hs : s < P.length := hl ▸ h1
  have hm : [s, p.1.val, p.2.val] ∈ shapeIndices [D.length, h, w] := by simp [shapeIndices, h1]
  have e1 : (I.map Real.sqrt).bget [s, p.1.val, p.2.val] = √(D[s] p) := by
    rw [bget_mem (I.map Real.sqrt) (show _ ∈ shapeIndices I.shape by rw [hI.shape]; exact hm)]
    show √(I.get _) = _
    rw [hI.get s h1]
  have e2 : (T.map Real.sqrt).bget [s, p.1.val, p.2.val] = √(P[s] (0, p.2)) := by
    have h3 : (T.map Real.sqrt).bget [s, p.1.val, p.2.val] = √(T.get [s, ((0 : Fin 1) : ℕ), p.2.val]) := by
      unfold Tensor.bget
      have hsh : (T.map Real.sqrt).shape = [P.length, 1, w] := hT.shape
      rw [hsh]
      show √(T.get [if P.length = 1 then 0 else s, if 1 = 1 then 0 else p.1.val, if w = 1 then 0 else p.2.val]) = _
      have q1 : (if P.length = 1 then 0 else s) = s := by split_ifs <;> omega
      have q2 : (if w = 1 then 0 else p.2.val) = p.2.val := by
        have := p.2.isLt
        split_ifs <;> omega
      rw [q1, q2, if_pos rfl]
      rfl
    rw [h3, hT.get s hs 0 p.2]
  rw [e1, e2]
  simp

/-! ### Non-vacuity -/

/-- Two exposures of 1 × 2 pixels, the second pixel masked. -/
example : ∃ (I S : Tensor ℝ) (A : Tensor Bool), HoldsPatterns I [fun _ : Fin 1 × Fin 2 => 4, fun _ => 9] ∧
    HoldsPatterns S [fun _ : Fin 1 × Fin 2 => 1, fun p => if p.2 = 0 then 4 else 100] ∧ HoldsMask A (fun p : Fin 1 × Fin 2 => decide (p.2 = 0)) ∧
    amplitudeMseArray (some A) false I S = .ok 1 := by
  have hI : HoldsPatterns (⟨[2, 1, 2], fun i => if i.headD 0 = 0 then 4 else 9⟩ : Tensor ℝ) [fun _ : Fin 1 × Fin 2 => 4, fun _ => 9] :=
    ⟨rfl, fun s hs i j => match s, hs with | 0, _ => rfl | 1, _ => rfl⟩
  have hS : HoldsPatterns (⟨[2, 1, 2], fun i => if i.headD 0 = 0 then 1 else if i.getD 2 0 = 0 then 4 else 100⟩ : Tensor ℝ)
      [fun _ : Fin 1 × Fin 2 => 1, fun p => if p.2 = 0 then 4 else 100] :=
    ⟨rfl, fun s hs i j => match s, hs with | 0, _ => rfl | 1, _ => by fin_cases j <;> rfl⟩
  have hA : HoldsMask (⟨[1, 2], fun i => decide (i.getD 1 0 = 0)⟩ : Tensor Bool) (fun p : Fin 1 × Fin 2 => decide (p.2 = 0)) :=
    ⟨rfl, fun i j => by fin_cases j <;> rfl⟩
  refine ⟨_, _, _, hI, hS, hA, ?_⟩
  rw [(loss_arrays hI hS rfl (A := some _) (M := some _) hA).1 false]
  have hsel : selectedPixels (some fun p : Fin 1 × Fin 2 => decide (p.2 = 0)) = {(0, 0)} := by decide
  rw [hsel]
  have h2 : √(4 : ℝ) = 2 := by rw [show (4 : ℝ) = 2 ^ 2 by norm_num]; exact Real.sqrt_sq (by norm_num)
  have h3 : √(9 : ℝ) = 3 := by rw [show (9 : ℝ) = 3 ^ 2 by norm_num]; exact Real.sqrt_sq (by norm_num)
  simp [h2, h3]
  norm_num

end Cdtools
