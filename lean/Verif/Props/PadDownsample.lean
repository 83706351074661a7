/- Property theorems C23 (pad) and C24 (downsample). -/
import Verif.Spec.PadDownsample
import Mathlib.Algebra.BigOperators.Intervals
import Mathlib.Algebra.BigOperators.Field
import Mathlib.Tactic.Ring
import Mathlib.Tactic.Linarith
import Mathlib.Tactic.FieldSimp

namespace Cdtools
open Finset
set_option linter.unusedSectionVars false
variable {M : Type}

/-! ### C23 -/

theorem pad_padsTo {α : Type} (l r t b : ℕ) (v : α) (a : Img α) :
    PadsTo l r t b v a (a.pad l r t b v) := by
  refine ⟨by simp [Img.pad]; omega, by simp [Img.pad]; omega, fun i hi j hj => ?_,
    fun i hi j hj hn => ?_⟩
  · simp only [Img.pad]
    rw [if_pos (by omega)]
    congr 1 <;> omega
  · simp only [Img.pad]
    rw [if_neg]
    rintro ⟨h1, h2, h3, h4⟩
    exact hn ⟨i - t, by omega, j - l, by omega, by omega, by omega⟩

/-- The pads on the four sides that an argument stands for: an int pads all sides, a pair pads
left/right and top/bottom, a 4-tuple is (left, right, top, bottom). -/
def PadArg.Means : PadArg → ℕ → ℕ → ℕ → ℕ → Prop
  | .one n, l, r, t, b => l = n ∧ r = n ∧ t = n ∧ b = n
  | .two x y, l, r, t, b => l = x ∧ r = x ∧ t = y ∧ b = y
  | .four l' r' t' b', l, r, t, b => l = l' ∧ r = r' ∧ t = t' ∧ b = b'

/-- **C23** (all but the quantum efficiency mask): patterns are padded with `value`, the mask with
False (True if the new pixels are not to be masked), the background with 0, each by the amounts the
argument means; the other attributes stay. Missing: the quantum efficiency mask, see
`pad_qe_mask_violated`. -/
theorem pad_keeps_data_partial (d : PDataset M) (arg : PadArg) (value : ℝ) (maskNew : Bool)
    (l r t b : ℕ) (ha : arg.Means l r t b) :
    ListRel (PadsTo l r t b value) d.patterns (d.pad arg value maskNew).patterns ∧
    OptRel (PadsTo l r t b (!maskNew)) d.mask (d.pad arg value maskNew).mask ∧
    OptRel (PadsTo l r t b 0) d.background (d.pad arg value maskNew).background ∧
    (d.pad arg value maskNew).translations = d.translations ∧
    (d.pad arg value maskNew).intensities = d.intensities ∧
    (d.pad arg value maskNew).basis = d.basis ∧ (d.pad arg value maskNew).info = d.info := by
  have he : arg.expand = (l, r, t, b) := by
    cases arg <;> simp only [PadArg.Means] at ha <;> obtain ⟨rfl, rfl, rfl, rfl⟩ := ha <;> rfl
  have opt : ∀ {α : Type} (v : α) (o : Option (Img α)),
      OptRel (PadsTo l r t b v) o (o.map (Img.pad l r t b v)) := by
    intro α v o
    cases o with
    | none => exact Or.inl ⟨rfl, rfl⟩
    | some x => exact Or.inr ⟨x, _, rfl, rfl, pad_padsTo l r t b v x⟩
  refine ⟨?_, ?_, ?_, rfl, rfl, rfl, rfl⟩
  · simp only [PDataset.pad, he, ListRel]
    rw [List.forall₂_map_right_iff]
    exact List.forall₂_same.2 fun x _ => pad_padsTo l r t b value x
  · simp only [PDataset.pad, he]
    cases maskNew <;> exact opt _ _
  · simp only [PDataset.pad, he]
    exact opt _ _

/-- **C23** (argument forms): arguments with the same meaning give the same dataset. -/
theorem pad_argument_forms (d : PDataset M) (arg arg' : PadArg) (value : ℝ) (maskNew : Bool)
    (l r t b : ℕ) (h : arg.Means l r t b) (h' : arg'.Means l r t b) :
    d.pad arg value maskNew = d.pad arg' value maskNew := by
  have he : ∀ a : PadArg, a.Means l r t b → a.expand = (l, r, t, b) := by
    intro a ha
    cases a <;> simp only [PadArg.Means] at ha <;> obtain ⟨rfl, rfl, rfl, rfl⟩ := ha <;> rfl
  simp [PDataset.pad, he _ h, he _ h']

/-- **C23** (shapes): a dataset without quantum efficiency mask keeps one common shape. -/
theorem pad_shapes_partial (d : PDataset M) (h w : ℕ) (hd : d.Shaped h w) (hq : d.qeMask = none)
    (arg : PadArg) (value : ℝ) (maskNew : Bool) (l r t b : ℕ) (ha : arg.Means l r t b) :
    (d.pad arg value maskNew).Shaped (t + h + b) (l + w + r) := by
  have he : arg.expand = (l, r, t, b) := by
    cases arg <;> simp only [PadArg.Means] at ha <;> obtain ⟨rfl, rfl, rfl, rfl⟩ := ha <;> rfl
  obtain ⟨h1, h2, h3, h4⟩ := hd
  refine ⟨fun p hp => ?_, fun m hm => ?_, fun q hq' => ?_, fun x hx => ?_⟩
  · simp only [PDataset.pad, he, List.mem_map] at hp
    obtain ⟨p0, hp0, rfl⟩ := hp
    obtain ⟨e1, e2⟩ := h1 p0 hp0
    simp only [Img.pad, e1, e2]
    omega
  · simp only [PDataset.pad, he, Option.map_eq_some_iff] at hm
    obtain ⟨p0, hp0, rfl⟩ := hm
    obtain ⟨e1, e2⟩ := h2 p0 hp0
    simp only [Img.pad, e1, e2]
    omega
  · simp [PDataset.pad, hq] at hq'
  · simp only [PDataset.pad, he, Option.map_eq_some_iff] at hx
    obtain ⟨p0, hp0, rfl⟩ := hx
    obtain ⟨e1, e2⟩ := h4 p0 hp0
    simp only [Img.pad, e1, e2]
    omega

/-- **C23 is violated** by the quantum efficiency mask: whatever is padded by at least one pixel, a
dataset that has one ends with arrays of different shapes. -/
theorem pad_qe_mask_violated (d : PDataset M) (h w : ℕ) (hd : d.Shaped h w) (q : Img ℝ)
    (hq : d.qeMask = some q) (hp : d.patterns ≠ []) (arg : PadArg) (value : ℝ) (maskNew : Bool)
    (l r t b : ℕ) (ha : arg.Means l r t b) (hpos : 0 < l + r + t + b) :
    ¬ ∃ h' w', (d.pad arg value maskNew).Shaped h' w' := by
  have he : arg.expand = (l, r, t, b) := by
    cases arg <;> simp only [PadArg.Means] at ha <;> obtain ⟨rfl, rfl, rfl, rfl⟩ := ha <;> rfl
  rintro ⟨h', w', s1, -, s3, -⟩
  obtain ⟨e1, e2⟩ := s3 q hq
  obtain ⟨f1, f2⟩ := hd.2.2.1 q hq
  obtain ⟨p0, hp0⟩ := List.exists_mem_of_ne_nil _ hp
  obtain ⟨g1, g2⟩ := s1 (p0.pad l r t b value) (by
    simp only [PDataset.pad, he, List.mem_map]; exact ⟨p0, hp0, rfl⟩)
  obtain ⟨k1, k2⟩ := hd.1 p0 hp0
  simp only [Img.pad] at g1 g2
  omega

/-- A 2×2 dataset with every optional array. -/
noncomputable def fullDataset : PDataset Unit where
  translations := [(0, 0, 0)]
  patterns := [⟨2, 2, fun i j => 1 + i + 2 * j⟩]
  intensities := some [1]
  mask := some ⟨2, 2, fun i j => decide (i + j ≠ 0)⟩
  qeMask := some ⟨2, 2, fun _ _ => 1⟩
  background := some ⟨2, 2, fun _ _ => 1⟩
  basis := some fun _ _ => 1
  info := ()

theorem fullDataset_shaped : fullDataset.Shaped 2 2 := by
  refine ⟨fun p hp => ?_, fun m hm => ?_, fun q hq => ?_, fun b hb => ?_⟩
  · simp [fullDataset] at hp; subst hp; exact ⟨rfl, rfl⟩
  · cases hm; exact ⟨rfl, rfl⟩
  · cases hq; exact ⟨rfl, rfl⟩
  · cases hb; exact ⟨rfl, rfl⟩

/-- Non-vacuity of `pad_qe_mask_violated` and of the padding hypotheses. -/
example : ¬ ∃ h' w', (fullDataset.pad (.two 1 0) 0 true).Shaped h' w' :=
  pad_qe_mask_violated fullDataset 2 2 fullDataset_shaped _ rfl (by simp [fullDataset]) _ _ _
    1 1 0 0 ⟨rfl, rfl, rfl, rfl⟩ (by norm_num)

/-! ### C24: block sums -/

theorem applyMask_px (m : Img Bool) (x : Img ℝ) (i j : ℕ) :
    (applyMask m x).px i j = usableValue (some m) x i j := by
  simp [applyMask, Img.zip, usableValue, Usable]

theorem usableValue_none (x : Img ℝ) (i j : ℕ) : usableValue none x i j = x.px i j := by
  simp [usableValue, Usable]

theorem sumPool_px (f : ℕ) (x : Img ℝ) (i j : ℕ) : (x.sumPool f).px i j =
    ∑ i' ∈ Ico (f * i) (f * i + f), ∑ j' ∈ Ico (f * j) (f * j + f), x.px i' j' := by
  simp only [Img.sumPool, sum_Ico_eq_sum_range, Nat.add_sub_cancel_left]

/-- The optional mask applied to a pattern. -/
noncomputable def maskedBy (m : Option (Img Bool)) (x : Img ℝ) : Img ℝ :=
  match m with
  | some m => applyMask m x
  | none => x

theorem maskedBy_px (m : Option (Img Bool)) (x : Img ℝ) (i j : ℕ) :
    (maskedBy m x).px i j = usableValue m x i j := by
  cases m with
  | none => rw [usableValue_none]; rfl
  | some m => exact applyMask_px m x i j

theorem maskedBy_shape (m : Option (Img Bool)) (x : Img ℝ) :
    (maskedBy m x).h = x.h ∧ (maskedBy m x).w = x.w := by
  cases m <;> exact ⟨rfl, rfl⟩

theorem downsamplePatterns_eq (f : ℕ) (m : Option (Img Bool)) (ps : List (Img ℝ)) :
    downsamplePatterns f m ps = ps.map fun x => (maskedBy m x).sumPool f := by
  cases m <;> rfl

theorem sumPool_blockSums (f : ℕ) (m : Option (Img Bool)) (x : Img ℝ) :
    BlockSums f m x ((maskedBy m x).sumPool f) := by
  refine ⟨by simp [Img.sumPool, maskedBy_shape], by simp [Img.sumPool, maskedBy_shape],
    fun i _ j _ => ?_⟩
  rw [sumPool_px]
  simp only [maskedBy_px]

/-- Sum over `a * n` terms in blocks of `a`. -/
theorem sum_blocks {α : Type} [AddCommMonoid α] (g : ℕ → α) (a n : ℕ) :
    ∑ k ∈ range (a * n), g k = ∑ i ∈ range n, ∑ u ∈ range a, g (a * i + u) := by
  induction n with
  | zero => simp
  | succ n ih => rw [Nat.mul_succ, sum_range_add, ih, sum_range_succ]

theorem sumPool_sumPool (a b : ℕ) (x : Img ℝ) (i j : ℕ) :
    ((x.sumPool a).sumPool b).px i j = (x.sumPool (a * b)).px i j := by
  simp only [Img.sumPool]
  rw [sum_blocks]
  refine sum_congr rfl fun u _ => ?_
  rw [sum_comm]
  refine sum_congr rfl fun u' _ => ?_
  rw [sum_blocks]
  refine sum_congr rfl fun v _ => sum_congr rfl fun v' _ => ?_
  congr 1 <;> ring

theorem anyPool_px (f : ℕ) (m : Img Bool) (i j : ℕ) : (m.anyPool f).px i j = true ↔
    ∃ u < f, ∃ v < f, m.px (f * i + u) (f * j + v) = true := by
  simp [Img.anyPool]

theorem allPool_px (f : ℕ) (m : Img Bool) (i j : ℕ) : (m.allPool f).px i j = true ↔
    ∀ u < f, ∀ v < f, m.px (f * i + u) (f * j + v) = true := by
  have h := anyPool_px f (m.map not) i j
  simp only [Img.allPool, Img.map] at h ⊢
  rw [Bool.not_eq_true', ← Bool.not_eq_true, h]
  simp

theorem inBlock_iff {f : ℕ} (hf : 0 < f) (i j i' j' : ℕ) :
    InBlock f i j i' j' ↔ ∃ u < f, ∃ v < f, i' = f * i + u ∧ j' = f * j + v := by
  constructor
  · rintro ⟨rfl, rfl⟩
    exact ⟨i' % f, Nat.mod_lt _ hf, j' % f, Nat.mod_lt _ hf, (Nat.div_add_mod _ _).symm,
      (Nat.div_add_mod _ _).symm⟩
  · rintro ⟨u, hu, v, hv, rfl, rfl⟩
    exact ⟨by rw [Nat.mul_add_div hf, Nat.div_eq_of_lt hu]; rfl,
      by rw [Nat.mul_add_div hf, Nat.div_eq_of_lt hv]; rfl⟩

theorem downsample_ok (d : PDataset M) (f : ℕ) (mq : Option (Img Bool) × Option (Img ℝ))
    (B : ℕ → ℕ → ℝ) (h : downsampleMasks f d.mask d.qeMask = .ok mq) (hB : d.basis = some B) :
    d.downsample f = .ok { d with
        patterns := downsamplePatterns f d.mask d.patterns
        mask := mq.1
        qeMask := mq.2
        basis := some fun i j => B i j * f
        background := d.background.map (Img.sumPool f) } := by
  rw [PDataset.downsample, h]
  simp only [Except.bind, hB]

/-- **C24** (what is computed): for every factor `f ≥ 1` and every dataset with a detector geometry
and, if it has a quantum efficiency mask, a mask: `downsample f` succeeds; every pattern becomes its
usable block sums; without quantum efficiency mask an output pixel is usable iff all pixels of its
block are; with one, iff some pixel is, and the new quantum efficiency is the block mean, masked
pixels counting 0; the background is summed over blocks, the detector basis scaled by `f`, and
nothing else changes. -/
theorem downsample_values (d : PDataset M) (f : ℕ) (hf : 0 < f) (B : ℕ → ℕ → ℝ)
    (hB : d.basis = some B) (hq : d.qeMask.isSome → d.mask.isSome) :
    ∃ e, d.downsample f = .ok e ∧
      ListRel (BlockSums f d.mask) d.patterns e.patterns ∧
      OptRel (BlockSums f none) d.background e.background ∧
      (d.qeMask = none → e.qeMask = none ∧ OptRel (fun m m' : Img Bool => m'.h = m.h / f ∧
        m'.w = m.w / f ∧ ∀ i j, m'.px i j = true ↔ ∀ i' j', InBlock f i j i' j' →
          m.px i' j' = true) d.mask e.mask) ∧
      (∀ q m, d.qeMask = some q → d.mask = some m → ∃ q' m', e.qeMask = some q' ∧
        e.mask = some m' ∧ m'.h = m.h / f ∧ m'.w = m.w / f ∧
        (∀ i j, m'.px i j = true ↔ ∃ i' j', InBlock f i j i' j' ∧ m.px i' j' = true) ∧
        q'.h = q.h / f ∧ q'.w = q.w / f ∧ ∀ i j, q'.px i j = (∑ i' ∈ Ico (f * i) (f * i + f),
          ∑ j' ∈ Ico (f * j) (f * j + f), usableValue (some m) q i' j') / f ^ 2) ∧
      e.basis = some (fun i j => f * B i j) ∧
      e.translations = d.translations ∧ e.intensities = d.intensities ∧ e.info = d.info := by
  have hall : ∀ (m : Img Bool) i j, (m.allPool f).px i j = true ↔
      ∀ i' j', InBlock f i j i' j' → m.px i' j' = true := by
    intro m i j
    rw [allPool_px]
    constructor
    · intro h i' j' hb
      obtain ⟨u, hu, v, hv, rfl, rfl⟩ := (inBlock_iff hf _ _ _ _).1 hb
      exact h u hu v hv
    · intro h u hu v hv
      exact h _ _ ((inBlock_iff hf _ _ _ _).2 ⟨u, hu, v, hv, rfl, rfl⟩)
  have hany : ∀ (m : Img Bool) i j, (m.anyPool f).px i j = true ↔
      ∃ i' j', InBlock f i j i' j' ∧ m.px i' j' = true := by
    intro m i j
    rw [anyPool_px]
    constructor
    · rintro ⟨u, hu, v, hv, h⟩
      exact ⟨_, _, (inBlock_iff hf _ _ _ _).2 ⟨u, hu, v, hv, rfl, rfl⟩, h⟩
    · rintro ⟨i', j', hb, h⟩
      obtain ⟨u, hu, v, hv, rfl, rfl⟩ := (inBlock_iff hf _ _ _ _).1 hb
      exact ⟨u, hu, v, hv, h⟩
  obtain ⟨mq, hmq⟩ : ∃ mq, downsampleMasks f d.mask d.qeMask = .ok mq := by
    cases hm : d.mask <;> cases hq' : d.qeMask <;> simp [downsampleMasks]
    simp [hm, hq'] at hq
  refine ⟨_, downsample_ok d f mq B hmq hB,
    ?_, ?_, fun hn => ?_, fun q m h1 h2 => ?_, ?_, rfl, rfl, rfl⟩
  · simp only [downsamplePatterns_eq, ListRel]
    rw [List.forall₂_map_right_iff]
    exact List.forall₂_same.2 fun x _ => sumPool_blockSums f d.mask x
  · cases hb : d.background with
    | none => exact Or.inl ⟨rfl, rfl⟩
    | some x => exact Or.inr ⟨x, _, rfl, rfl, sumPool_blockSums f none x⟩
  · rw [hn] at hmq
    cases hm : d.mask with
    | none =>
      rw [hm] at hmq
      cases hmq
      exact ⟨rfl, Or.inl ⟨rfl, rfl⟩⟩
    | some m =>
      rw [hm] at hmq
      cases hmq
      exact ⟨rfl, Or.inr ⟨m, _, rfl, rfl, rfl, rfl, hall m⟩⟩
  · rw [h1, h2] at hmq
    cases hmq
    refine ⟨_, _, rfl, rfl, rfl, rfl, hany m, rfl, rfl, fun i j => ?_⟩
    simp only [Img.avgPool, sumPool_px, applyMask_px]
    rw [pow_two]
  · simp only [Option.some.injEq]
    funext i j
    ring

/-- **C24** (errors): a quantum efficiency mask without a mask, or no detector geometry, is a
TypeError. -/
theorem downsample_errors (d : PDataset M) (f : ℕ)
    (h : (d.qeMask.isSome ∧ d.mask = none) ∨ d.basis = none) :
    d.downsample f = .error .typeError := by
  rw [PDataset.downsample]
  cases hm : d.mask <;> cases hq : d.qeMask <;> cases hb : d.basis <;>
    simp [hm, hq, hb, downsampleMasks, Except.bind] at h ⊢

theorem sum_block_total (f n : ℕ) (g : ℕ → ℝ) :
    ∑ i ∈ range n, ∑ i' ∈ Ico (f * i) (f * i + f), g i' = ∑ i ∈ range (f * n), g i := by
  rw [sum_blocks]
  refine sum_congr rfl fun i _ => ?_
  rw [sum_Ico_eq_sum_range, Nat.add_sub_cancel_left]

/-- **C24** (counts): when `f` divides the shape, summing the block sums gives the total of the
usable pixels. -/
theorem downsample_conserves_counts (f : ℕ) (hf : 0 < f) (m : Option (Img Bool)) (x y : Img ℝ)
    (hy : BlockSums f m x y) (hh : f ∣ x.h) (hw : f ∣ x.w) :
    y.total = ∑ i ∈ range x.h, ∑ j ∈ range x.w, usableValue m x i j := by
  obtain ⟨h1, h2, h3⟩ := hy
  have e : y.total = ∑ i ∈ range y.h, ∑ j ∈ range y.w,
      ∑ i' ∈ Ico (f * i) (f * i + f), ∑ j' ∈ Ico (f * j) (f * j + f), usableValue m x i' j' :=
    sum_congr rfl fun i hi => sum_congr rfl fun j hj => h3 i (mem_range.1 hi) j (mem_range.1 hj)
  rw [e]
  have e2 : ∀ i ∈ range y.h, (∑ j ∈ range y.w, ∑ i' ∈ Ico (f * i) (f * i + f),
      ∑ j' ∈ Ico (f * j) (f * j + f), usableValue m x i' j') =
      ∑ i' ∈ Ico (f * i) (f * i + f), ∑ j ∈ range x.w, usableValue m x i' j := by
    intro i _
    rw [sum_comm]
    refine sum_congr rfl fun i' _ => ?_
    rw [sum_block_total, h2, Nat.mul_div_cancel' hw]
  rw [sum_congr rfl e2, sum_block_total, h1, Nat.mul_div_cancel' hh]

/-- **C24** (identity): `downsample 1` keeps usable pixels, the mask, the background and the
basis, and the quantum efficiency of usable pixels. -/
theorem downsample_one (d : PDataset M) (hB : d.basis.isSome)
    (hq : d.qeMask.isSome → d.mask.isSome) :
    ∃ e, d.downsample 1 = .ok e ∧ OptRel Img.Same d.mask e.mask ∧
      OptRel Img.Same d.background e.background ∧ e.basis = d.basis ∧
      ListRel (fun x y : Img ℝ => y.h = x.h ∧ y.w = x.w ∧
        ∀ i j, Usable d.mask i j → y.px i j = x.px i j) d.patterns e.patterns ∧
      OptRel (fun x y : Img ℝ => y.h = x.h ∧ y.w = x.w ∧
        ∀ i j, Usable d.mask i j → y.px i j = x.px i j) d.qeMask e.qeMask := by
  obtain ⟨B, hB⟩ := Option.isSome_iff_exists.1 hB
  have all1 : ∀ m : Img Bool, Img.Same m (m.allPool 1) := by
    intro m
    refine ⟨by simp [Img.allPool, Img.map, Img.anyPool], by simp [Img.allPool, Img.map, Img.anyPool],
      fun i _ j _ => ?_⟩
    rw [Bool.eq_iff_iff, allPool_px]
    simp
  have any1 : ∀ m : Img Bool, Img.Same m (m.anyPool 1) := by
    intro m
    refine ⟨by simp [Img.anyPool], by simp [Img.anyPool], fun i _ j _ => ?_⟩
    rw [Bool.eq_iff_iff, anyPool_px]
    simp
  have sum1 : ∀ (m : Option (Img Bool)) (x : Img ℝ) i j, Usable m i j →
      ((maskedBy m x).sumPool 1).px i j = x.px i j := by
    intro m x i j hu
    simp [Img.sumPool, maskedBy_px, usableValue, hu]
  obtain ⟨mq, hmq⟩ : ∃ mq, downsampleMasks 1 d.mask d.qeMask = .ok mq := by
    cases hm : d.mask <;> cases hq' : d.qeMask <;> simp [downsampleMasks]
    simp [hm, hq'] at hq
  refine ⟨_, downsample_ok d 1 mq B hmq hB, ?_, ?_, ?_, ?_, ?_⟩
  · cases hm : d.mask with
    | none => 
      cases hq' : d.qeMask with
      | none => rw [hm, hq'] at hmq; cases hmq; exact Or.inl ⟨rfl, rfl⟩
      | some q => rw [hm, hq'] at hmq; cases hmq
    | some m =>
      cases hq' : d.qeMask with
      | none => rw [hm, hq'] at hmq; cases hmq; exact Or.inr ⟨_, _, rfl, rfl, all1 m⟩
      | some q => rw [hm, hq'] at hmq; cases hmq; exact Or.inr ⟨_, _, rfl, rfl, any1 m⟩
  · cases hb : d.background with
    | none => exact Or.inl ⟨rfl, rfl⟩
    | some x => exact Or.inr ⟨x, _, rfl, rfl, by simp [Img.sumPool], by simp [Img.sumPool],
        fun i _ j _ => (sum1 none x i j (by simp [Usable])).symm⟩
  · simp [hB]
  · simp only [downsamplePatterns_eq, ListRel]
    rw [List.forall₂_map_right_iff]
    exact List.forall₂_same.2 fun x _ => ⟨by simp [Img.sumPool, maskedBy_shape],
      by simp [Img.sumPool, maskedBy_shape], fun i j hu => sum1 d.mask x i j hu⟩
  · cases hm : d.mask with
    | none => 
      cases hq' : d.qeMask with
      | none => rw [hm, hq'] at hmq; cases hmq; exact Or.inl ⟨rfl, rfl⟩
      | some q => rw [hm, hq'] at hmq; cases hmq
    | some m =>
      cases hq' : d.qeMask with
      | none => rw [hm, hq'] at hmq; cases hmq; exact Or.inl ⟨rfl, rfl⟩
      | some q =>
        rw [hm, hq'] at hmq; cases hmq
        refine Or.inr ⟨_, _, rfl, rfl, by simp [Img.avgPool, applyMask, Img.zip],
          by simp [Img.avgPool, applyMask, Img.zip], fun i j hu => ?_⟩
        have := sum1 (some m) q i j hu
        simp only [maskedBy] at this
        simp [Img.avgPool, this]

/-! ### C24: composition -/

theorem anyPool_anyPool (a b : ℕ) (ha : 0 < a) (m : Img Bool) :
    Img.Same ((m.anyPool a).anyPool b) (m.anyPool (a * b)) := by
  refine ⟨by simp [Img.anyPool, Nat.div_div_eq_div_mul],
    by simp [Img.anyPool, Nat.div_div_eq_div_mul], fun i _ j _ => ?_⟩
  rw [Bool.eq_iff_iff, anyPool_px, anyPool_px]
  simp only [anyPool_px]
  constructor
  · rintro ⟨u, hu, v, hv, u', hu', v', hv', h⟩
    refine ⟨a * u + u', ?_, a * v + v', ?_, ?_⟩
    · calc a * u + u' < a * u + a := by omega
        _ = a * (u + 1) := by ring
        _ ≤ a * b := Nat.mul_le_mul_left _ hu
    · calc a * v + v' < a * v + a := by omega
        _ = a * (v + 1) := by ring
        _ ≤ a * b := Nat.mul_le_mul_left _ hv
    · rw [← h]; congr 1 <;> ring
  · rintro ⟨u, hu, v, hv, h⟩
    refine ⟨u / a, Nat.div_lt_of_lt_mul hu, v / a, Nat.div_lt_of_lt_mul hv,
      u % a, Nat.mod_lt _ ha, v % a, Nat.mod_lt _ ha, ?_⟩
    rw [← h]
    congr 1
    · rw [Nat.mul_add, add_assoc, Nat.div_add_mod]; ring
    · rw [Nat.mul_add, add_assoc, Nat.div_add_mod]; ring

theorem allPool_allPool (a b : ℕ) (ha : 0 < a) (m : Img Bool) :
    Img.Same ((m.allPool a).allPool b) (m.allPool (a * b)) := by
  obtain ⟨h1, h2, h3⟩ := anyPool_anyPool a b ha (m.map not)
  refine ⟨h1, h2, fun i hi j hj => ?_⟩
  have e := h3 i hi j hj
  simp only [Img.allPool, Img.map, Img.anyPool, Bool.not_not] at e ⊢
  rw [e]

theorem avgPool_eq (f : ℕ) (x : Img ℝ) (i j : ℕ) :
    (x.avgPool f).px i j = (x.sumPool f).px i j / (f * f) := rfl

/-- Where no pixel of a block is usable, the block sum is 0: masking again changes nothing. -/
theorem remask_any (a : ℕ) (m : Img Bool) (x : Img ℝ) (i j : ℕ) :
    usableValue (some (m.anyPool a)) ((applyMask m x).sumPool a) i j =
      ((applyMask m x).sumPool a).px i j := by
  by_cases h : (m.anyPool a).px i j = true
  · simp [usableValue, Usable, h]
  · have hz : ((applyMask m x).sumPool a).px i j = 0 := by
      simp only [Img.sumPool]
      refine sum_eq_zero fun u hu => sum_eq_zero fun v hv => ?_
      rw [anyPool_px] at h
      push Not at h
      have := h u (mem_range.1 hu) v (mem_range.1 hv)
      simp only [ne_eq, Bool.not_eq_true] at this
      simp [applyMask, Img.zip, this]
    simp [usableValue, hz]

theorem sumPool_congr (f : ℕ) (x y : Img ℝ) (h : ∀ i j, x.px i j = y.px i j) (i j : ℕ) :
    (x.sumPool f).px i j = (y.sumPool f).px i j := by
  simp [Img.sumPool, h]

/-- **C24** (composition): `downsample a` then `downsample b` is `downsample (a * b)`: same mask,
quantum efficiency, background, basis and metadata, and the same patterns — on every pixel if the
dataset has a quantum efficiency mask or no mask, otherwise on every pixel that is usable
afterwards. -/
theorem downsample_compose (d : PDataset M) (a b : ℕ) (ha : 0 < a) (B : ℕ → ℕ → ℝ)
    (hB : d.basis = some B) (hq : d.qeMask.isSome → d.mask.isSome) :
    ∃ e1 e2 e, d.downsample a = .ok e1 ∧ e1.downsample b = .ok e2 ∧ d.downsample (a * b) = .ok e ∧
      e2.SameOn (fun i j => d.qeMask.isSome ∨ Usable e.mask i j) e := by
  have hbasis : (fun i j => B i j * (a : ℝ) * (b : ℝ)) = fun i j => B i j * ((a * b : ℕ) : ℝ) := by
    funext i j; push_cast; ring
  have hbg : OptRel Img.Same ((d.background.map (Img.sumPool a)).map (Img.sumPool b))
      (d.background.map (Img.sumPool (a * b))) := by
    cases d.background with
    | none => exact Or.inl ⟨rfl, rfl⟩
    | some x => exact Or.inr ⟨_, _, rfl, rfl, by simp [Img.sumPool, Nat.div_div_eq_div_mul],
        by simp [Img.sumPool, Nat.div_div_eq_div_mul], fun i _ j _ => sumPool_sumPool a b x i j⟩
  have shape : ∀ (m m' : Option (Img Bool)) (x : Img ℝ),
      ((maskedBy m ((maskedBy m' x).sumPool a)).sumPool b).h = ((maskedBy m' x).sumPool (a * b)).h ∧
      ((maskedBy m ((maskedBy m' x).sumPool a)).sumPool b).w =
        ((maskedBy m' x).sumPool (a * b)).w := by
    intro m m' x
    simp [Img.sumPool, maskedBy_shape, Nat.div_div_eq_div_mul]
  cases hm : d.mask with
  | none =>
    have hq' : d.qeMask = none := by
      cases h : d.qeMask with
      | none => rfl
      | some q => simp [hm, h] at hq
    refine ⟨_, _, _, downsample_ok d a (none, none) B (by rw [hm, hq']; rfl) hB,
        downsample_ok _ b _ _ rfl rfl,
        downsample_ok d (a * b) (none, none) B (by rw [hm, hq']; rfl) hB, ?_⟩
    refine ⟨rfl, rfl, rfl, congrArg some hbasis, Or.inl ⟨rfl, rfl⟩, Or.inl ⟨rfl, rfl⟩, hbg, ?_⟩
    simp only [downsamplePatterns_eq, hm, List.map_map, ListRel, List.forall₂_map_left_iff,
      List.forall₂_map_right_iff]
    exact List.forall₂_same.2 fun x _ => ⟨(shape none none x).1, (shape none none x).2,
      fun i _ j _ _ => sumPool_sumPool a b x i j⟩
  | some m =>
    cases hq' : d.qeMask with
    | none =>
      refine ⟨_, _, _, downsample_ok d a (some (m.allPool a), none) B (by rw [hm, hq']; rfl) hB,
        downsample_ok _ b _ _ rfl rfl,
        downsample_ok d (a * b) (some (m.allPool (a * b)), none) B (by rw [hm, hq']; rfl) hB, ?_⟩
      refine ⟨rfl, rfl, rfl, congrArg some hbasis,
        Or.inr ⟨_, _, rfl, rfl, allPool_allPool a b ha m⟩, Or.inl ⟨rfl, rfl⟩, hbg, ?_⟩
      simp only [downsamplePatterns_eq, hm, List.map_map, ListRel, List.forall₂_map_left_iff,
        List.forall₂_map_right_iff]
      refine List.forall₂_same.2 fun x _ => ⟨(shape _ _ x).1, (shape _ _ x).2,
        fun i hi j hj hu => ?_⟩
      simp only [Function.comp, Option.isSome_none, Bool.false_eq_true, false_or] at hi hj hu ⊢
      rw [← sumPool_sumPool a b]
      simp only [Img.sumPool, maskedBy_px]
      refine sum_congr rfl fun u hu1 => sum_congr rfl fun v hv1 => ?_
      have hus : Usable (some (m.allPool a)) (b * i + u) (b * j + v) := by
        intro m' hm'
        cases hm'
        rw [allPool_px]
        intro u' hu' v' hv'
        have h1 := (allPool_px (a * b) m i j).1 (hu _ rfl) (a * u + u') (by
          have : u < b := mem_range.1 hu1
          calc a * u + u' < a * u + a := by omega
            _ = a * (u + 1) := by ring
            _ ≤ a * b := Nat.mul_le_mul_left _ this) (a * v + v') (by
          have : v < b := mem_range.1 hv1
          calc a * v + v' < a * v + a := by omega
            _ = a * (v + 1) := by ring
            _ ≤ a * b := Nat.mul_le_mul_left _ this)
        rw [← h1]
        congr 1 <;> ring
      rw [usableValue, if_pos hus]
    | some q =>
      refine ⟨_, _, _, downsample_ok d a (some (m.anyPool a), some ((applyMask m q).avgPool a)) B (by rw [hm, hq']; rfl) hB,
        downsample_ok _ b _ _ rfl rfl,
        downsample_ok d (a * b) (some (m.anyPool (a * b)), some ((applyMask m q).avgPool (a * b))) B (by rw [hm, hq']; rfl) hB, ?_⟩
      have key : ∀ x : Img ℝ, ∀ i j,
          ((applyMask (m.anyPool a) ((applyMask m x).sumPool a)).sumPool b).px i j =
            ((applyMask m x).sumPool (a * b)).px i j := by
        intro x i j
        rw [← sumPool_sumPool a b]
        refine sumPool_congr b _ _ (fun i j => ?_) i j
        rw [applyMask_px, remask_any]
      refine ⟨rfl, rfl, rfl, congrArg some hbasis,
        Or.inr ⟨_, _, rfl, rfl, anyPool_anyPool a b ha m⟩, Or.inr ⟨_, _, rfl, rfl, ?_⟩, hbg, ?_⟩
      · refine ⟨by simp [Img.avgPool, applyMask, Img.zip, Nat.div_div_eq_div_mul],
          by simp [Img.avgPool, applyMask, Img.zip, Nat.div_div_eq_div_mul], fun i _ j _ => ?_⟩
        have e : ∀ i j, (applyMask (m.anyPool a) ((applyMask m q).avgPool a)).px i j =
            (applyMask (m.anyPool a) ((applyMask m q).sumPool a)).px i j / (a * a) := by
          intro i j
          simp only [applyMask, Img.zip, Img.avgPool]
          split <;> simp
        rw [avgPool_eq, avgPool_eq, ← key q i j]
        simp only [Img.sumPool, e]
        simp only [← sum_div]
        rw [div_div]
        congr 1
        push_cast
        ring
      · simp only [downsamplePatterns_eq, hm, List.map_map, ListRel, List.forall₂_map_left_iff,
          List.forall₂_map_right_iff]
        exact List.forall₂_same.2 fun x _ => ⟨(shape _ _ x).1, (shape _ _ x).2,
          fun i _ j _ _ => key x i j⟩

/-- Non-vacuity: `fullDataset` meets the hypotheses of the C24 theorems. -/
example : (∃ e, fullDataset.downsample 1 = .ok e) ∧
    ∃ e1 e2 e, fullDataset.downsample 2 = .ok e1 ∧ e1.downsample 1 = .ok e2 ∧
      fullDataset.downsample (2 * 1) = .ok e ∧
      e2.SameOn (fun i j => fullDataset.qeMask.isSome ∨ Usable e.mask i j) e := by
  refine ⟨?_, downsample_compose fullDataset 2 1 (by norm_num) _ rfl (fun _ => rfl)⟩
  obtain ⟨e, he, _⟩ := downsample_one fullDataset rfl (fun _ => rfl)
  exact ⟨e, he⟩

/-- A one-exposure 4×4 dataset whose first pixel is masked off, without quantum efficiency. -/
def stripDataset : PDataset Unit where
  translations := [(0, 0, 0)]
  patterns := [⟨4, 4, fun _ _ => 1⟩]
  intensities := none
  mask := some ⟨4, 4, fun i j => decide (i + j ≠ 0)⟩
  qeMask := none
  background := some ⟨4, 4, fun _ _ => 1⟩
  basis := some fun _ _ => 1
  info := ()

/-- The restriction to usable pixels in `downsample_compose` is needed: on a pixel masked off in
the end, downsampling in two steps loses counts that one step keeps (12 against 15). -/
theorem downsample_compose_masked_pixels_differ :
    ∃ e1 e2 e, stripDataset.downsample 2 = .ok e1 ∧ e1.downsample 2 = .ok e2 ∧
      stripDataset.downsample 4 = .ok e ∧
      e2.patterns.map (fun p => p.px 0 0) = [12] ∧ e.patterns.map (fun p => p.px 0 0) = [15] := by
  refine ⟨_, _, _, downsample_ok stripDataset 2 (some (Img.allPool 2 _), none) _ rfl rfl,
    downsample_ok _ 2 (some (Img.allPool 2 _), none) _ rfl rfl,
    downsample_ok stripDataset 4 (some (Img.allPool 4 _), none) _ rfl rfl, ?_, ?_⟩
  · have h2 : ∀ a b : ℕ, (decide (a + b ≠ 0)) = !(decide (a = 0) && decide (b = 0)) := by
      intro a b; by_cases a = 0 <;> by_cases b = 0 <;> simp [*]
    simp [stripDataset, downsamplePatterns, applyMask, Img.zip, Img.sumPool, Img.allPool, Img.map,
      Img.anyPool, sum_range_succ, List.range_succ]
    norm_num
  · simp [stripDataset, downsamplePatterns, applyMask, Img.zip, Img.sumPool, sum_range_succ]
    norm_num

/-- The background is *not* restricted to usable pixels although the patterns are: with one masked
pixel in a block, a pattern equal to the background is no longer equal to it after `downsample`. -/
theorem downsample_background_counts_masked_pixels :
    ∃ e, fullDataset.downsample 2 = .ok e ∧
      (downsamplePatterns 2 fullDataset.mask [⟨2, 2, fun _ _ => 1⟩]).map (fun p => p.px 0 0) = [3] ∧
      e.background.map (fun p => p.px 0 0) = some 4 := by
  refine ⟨_, downsample_ok fullDataset 2 (some (Img.anyPool 2 _),
    some (Img.avgPool 2 (applyMask _ _))) _ rfl rfl, ?_, ?_⟩
  · simp [fullDataset, downsamplePatterns, applyMask, Img.zip, Img.sumPool, sum_range_succ]
    norm_num
  · simp [fullDataset, Img.sumPool, sum_range_succ]
    norm_num

end Cdtools
