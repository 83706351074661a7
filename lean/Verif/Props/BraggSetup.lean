/-
C79: construction of `Bragg2DPtycho` models (`models/bragg_2d_ptycho.py:265-484`).
-/
import Verif.Props.Bragg
import Verif.Props.SimDataset

set_option linter.unusedSectionVars false

namespace Cdtools
open Finset Matrix

variable {n m a b N k : ℕ} [NeZero n] [NeZero m] [NeZero a] [NeZero b]

/-! ### The object basis -/

theorem mulVec_outer (u v w : Vec3) : (Matrix.of fun i j => u i * v j).mulVec w = fun i => u i * Vec3.dot v w := by
  funext i
  simp [mulVec, dotProduct, Fin.sum_univ_three, Vec3.dot]
  ring

/-- The projector of `from_dataset` moves a point along the normal of the exit wave into the sample plane. -/
theorem braggProjector_mulVec (ew nrm v : Vec3) (he : ew.dot ew = 1) (hne : nrm.dot ew ≠ 0) :
    (braggProjector ew nrm).mulVec v = fun i => v i - nrm.dot v / nrm.dot ew * ew i := by
  set top : Matrix (Fin 3) (Fin 3) ℝ := 1 - Matrix.of fun i j => ew i * ew j with htop
  set gram : Matrix (Fin 3) (Fin 3) ℝ := top.transpose * top + Matrix.of fun i j => nrm i * nrm j with hgr
  have htopv : ∀ w : Vec3, top.mulVec w = fun i => w i - ew i * ew.dot w := by
    intro w
    rw [htop, sub_mulVec, one_mulVec, mulVec_outer]
    rfl
  have htopT : top.transpose = top := by
    ext i j
    simp only [htop, transpose_apply, Matrix.sub_apply, Matrix.one_apply, Matrix.of_apply]
    by_cases h : i = j
    · subst h; ring
    · rw [if_neg h, if_neg (Ne.symm h)]; ring
  have hdot : ∀ w u : Vec3, ∀ c : ℝ, Vec3.dot u (fun i => w i - ew i * c) = u.dot w - u.dot ew * c := by
    intro w u c; simp only [Vec3.dot]; ring
  have htt : ∀ w, top.mulVec (top.mulVec w) = top.mulVec w := by
    intro w
    rw [htopv (top.mulVec w), htopv w]
    funext i
    rw [hdot, he]; ring
  have hgv : ∀ w, gram.mulVec w = fun i => w i - ew i * ew.dot w + nrm i * nrm.dot w := by
    intro w
    rw [hgr, add_mulVec, ← mulVec_mulVec, htopT, htt, htopv, mulVec_outer]
    rfl
  have hunit : IsUnit gram.det := by
    rw [isUnit_iff_ne_zero]
    intro h0
    obtain ⟨w, hw, hw0⟩ := exists_mulVec_eq_zero_iff.2 h0
    rw [hgv] at hw0
    -- take the product with `ew`
    have h1 : nrm.dot ew * nrm.dot w = 0 := by
      have h := congrArg (fun u : Vec3 => Vec3.dot ew u) hw0
      simp only [Vec3.dot, Pi.zero_apply] at h he ⊢
      linear_combination h + (ew 0 * w 0 + ew 1 * w 1 + ew 2 * w 2) * he
    have h2 : nrm.dot w = 0 := (mul_eq_zero.1 h1).resolve_left hne
    have h3 : ∀ i, w i = ew i * ew.dot w := by
      intro i
      have h := congrFun hw0 i
      simp only [h2, mul_zero, add_zero, Pi.zero_apply] at h
      linarith
    have h4 : nrm.dot w = nrm.dot ew * ew.dot w := by
      have : nrm.dot w = nrm 0 * (ew 0 * ew.dot w) + nrm 1 * (ew 1 * ew.dot w) + nrm 2 * (ew 2 * ew.dot w) := by
        conv_lhs => unfold Vec3.dot
        rw [← h3 0, ← h3 1, ← h3 2]
      rw [this]; simp only [Vec3.dot]; ring
    rw [h2] at h4
    have h5 : ew.dot w = 0 := (mul_eq_zero.1 h4.symm).resolve_left hne
    apply hw
    funext i
    rw [h3 i, h5]; simp
  have hu : gram.mulVec (fun i => v i - nrm.dot v / nrm.dot ew * ew i) = top.transpose.mulVec v := by
    rw [hgv, htopT, htopv]
    have e1 : nrm.dot (fun i => v i - nrm.dot v / nrm.dot ew * ew i) = 0 := by
      have : nrm.dot (fun i => v i - nrm.dot v / nrm.dot ew * ew i) = nrm.dot v - nrm.dot v / nrm.dot ew * nrm.dot ew := by
        generalize nrm.dot v / nrm.dot ew = c
        simp only [Vec3.dot]; ring
      rw [this, div_mul_cancel₀ _ hne, sub_self]
    have e2 : ew.dot (fun i => v i - nrm.dot v / nrm.dot ew * ew i) = ew.dot v - nrm.dot v / nrm.dot ew := by
      have : ew.dot (fun i => v i - nrm.dot v / nrm.dot ew * ew i) = ew.dot v - nrm.dot v / nrm.dot ew * ew.dot ew := by
        generalize nrm.dot v / nrm.dot ew = c
        simp only [Vec3.dot]; ring
      rw [this, he, mul_one]
    funext i
    rw [e1, e2]
    ring
  have : (braggProjector ew nrm).mulVec v = gram⁻¹.mulVec (top.transpose.mulVec v) := by
    rw [mulVec_mulVec]; rfl
  rw [this, ← hu, mulVec_mulVec, nonsing_inv_mul _ hunit, one_mulVec]

theorem sampleNormal_spec {B : Matrix (Fin 3) (Fin 2) ℝ} (hB : Spans B) :
    (sampleNormal B).dot (sampleNormal B) = 1 ∧ ∀ j, (sampleNormal B).dot (basisCol B j) = 0 := by
  set C := Vec3.cross (fun i => B i 1) (fun i => B i 0) with hC
  have hCC : 0 < C.dot C := by
    have h := cross_pos hB
    have e : C.dot C = ((basisCol B 0).cross (basisCol B 1)).dot ((basisCol B 0).cross (basisCol B 1)) := by
      rw [hC]; simp [Vec3.dot, Vec3.cross, basisCol]; ring
    rw [e]; exact h
  have hs : Real.sqrt (C.dot C) ≠ 0 := (Real.sqrt_pos.2 hCC).ne'
  have hss : Real.sqrt (C.dot C) * Real.sqrt (C.dot C) = C.dot C := Real.mul_self_sqrt hCC.le
  have hd : ∀ v : Vec3, (sampleNormal B).dot v = C.dot v / Real.sqrt (C.dot C) := by
    intro v
    unfold sampleNormal Vec3.unit
    rw [← hC]
    generalize Real.sqrt (C.dot C) = s
    simp only [Vec3.dot]; ring
  constructor
  · rw [hd, dot_comm, hd, div_div, hss, div_self hCC.ne']
  · intro j
    rw [hd, hC]
    have : Vec3.dot (Vec3.cross (fun i => B i 1) (fun i => B i 0)) (basisCol B j) = 0 := by
      fin_cases j <;> simp [Vec3.dot, Vec3.cross, basisCol] <;> ring
    rw [this, zero_div]

/-- **C79** (object basis): the columns of `obj_basis` lie in the sample plane, and projected along the normal of the exit
wave they are the columns of the exit wave basis; it is the only such basis. It does not matter whether the surface
normal is normalized. -/
theorem bragg_obj_basis (E : Matrix (Fin 3) (Fin 2) ℝ) (hE : Spans E) (nrm : Vec3) (hne : nrm.dot (sampleNormal E) ≠ 0)
    (j : Fin 2) :
    nrm.dot (basisCol (braggObjBasis E nrm) j) = 0 ∧
    (∃ s : ℝ, ∀ c, basisCol (braggObjBasis E nrm) j c = basisCol E j c + s * sampleNormal E c) ∧
    (∀ (v : Vec3) (s : ℝ), nrm.dot v = 0 → (∀ c, v c = basisCol E j c + s * sampleNormal E c) →
      v = basisCol (braggObjBasis E nrm) j) ∧
    (∀ c : ℝ, c ≠ 0 → braggObjBasis E (fun i => c * nrm i) = braggObjBasis E nrm) := by
  obtain ⟨he, -⟩ := sampleNormal_spec hE
  set e := sampleNormal E with hee
  have hcol : ∀ (nrm : Vec3) (_ : nrm.dot e ≠ 0) (j : Fin 2), basisCol (braggObjBasis E nrm) j =
      fun i => basisCol E j i - nrm.dot (basisCol E j) / nrm.dot e * e i := by
    intro nrm hne j
    rw [← braggProjector_mulVec e nrm (basisCol E j) he hne]
    rfl
  refine ⟨?_, ?_, ?_, ?_⟩
  · rw [hcol nrm hne]
    have : nrm.dot (fun i => basisCol E j i - nrm.dot (basisCol E j) / nrm.dot e * e i) =
        nrm.dot (basisCol E j) - nrm.dot (basisCol E j) / nrm.dot e * nrm.dot e := by
      generalize nrm.dot (basisCol E j) / nrm.dot e = c
      simp only [Vec3.dot]; ring
    rw [this, div_mul_cancel₀ _ hne, sub_self]
  · refine ⟨-(nrm.dot (basisCol E j) / nrm.dot e), fun c => ?_⟩
    rw [hcol nrm hne]; ring
  · intro v s hv hs
    rw [hcol nrm hne]
    have h : nrm.dot v = nrm.dot (basisCol E j) + s * nrm.dot e := by
      have : v = fun c => basisCol E j c + s * e c := funext hs
      rw [this]; simp only [Vec3.dot]; ring
    rw [hv] at h
    have hs' : s = -(nrm.dot (basisCol E j) / nrm.dot e) := by
      rw [← neg_div, eq_div_iff hne]; linarith
    funext i
    rw [hs i, hs']; ring
  · intro c hc
    have hd : ∀ v : Vec3, Vec3.dot (fun i => c * nrm i) v = c * nrm.dot v := by
      intro v; simp only [Vec3.dot]; ring
    have hne' : Vec3.dot (fun i => c * nrm i) e ≠ 0 := by rw [hd]; exact mul_ne_zero hc hne
    ext i j
    have h1 := congrFun (hcol _ hne' j) i
    have h2 := congrFun (hcol nrm hne j) i
    rw [hd, hd, mul_div_mul_left _ _ hc] at h1
    exact h1.trans h2.symm

/-- **C79** (untilted): in transmission, with a detector facing the beam, the object has the basis of the exit wave. -/
theorem bragg_obj_basis_transmission (E : Matrix (Fin 3) (Fin 2) ℝ) (hE : Spans E) (nrm : Vec3)
    (hne : nrm.dot (sampleNormal E) ≠ 0) (h : ∀ j, nrm.dot (basisCol E j) = 0) : braggObjBasis E nrm = E := by
  ext i j
  exact (congrFun ((bragg_obj_basis E hE nrm hne j).2.2.1 (basisCol E j) 0 (h j) (fun c => by ring)) i).symm

/-- Non-vacuity: a surface tilted by 45°. -/
example : Spans !![0, -1; -1, 0; 0, 0] ∧ Vec3.dot ![1, 0, 1] (sampleNormal !![0, -1; -1, 0; 0, 0]) ≠ 0 := by
  constructor
  · simp [Spans, basisCol, Vec3.dot]
  · simp [sampleNormal, Vec3.unit, Vec3.cross, Vec3.dot]

/-! ### The surface normal -/

/-- **C79** (surface normal): an explicit normal wins over the scattering mode, which wins over the dataset; by default the
sample is perpendicular to the beam. -/
theorem bragg_normal_precedence (v w : Vec3) (mode : Option String) (o : Option Vec3) (D : Matrix (Fin 3) (Fin 2) ℝ) :
    braggNormal (some v) mode o D = .ok v ∧ braggNormal none (some "transmission") o D = .ok ![0, 0, 1] ∧
    braggNormal none (some "t") o D = .ok ![0, 0, 1] ∧ braggNormal none none (some w) D = .ok w ∧
    braggNormal none none none D = .ok ![0, 0, 1] := by
  refine ⟨rfl, ?_, ?_, rfl, rfl⟩ <;> simp [braggNormal]

/-- **C79** (reflection): in reflection mode, a beam along `z` reflected specularly by the sample goes to the middle of the
detector, i.e. against the direction of the cross product of the detector basis (which points from the detector to the
sample), for every detector that does not face the direct beam. -/
theorem bragg_normal_reflection (o : Option Vec3) (D : Matrix (Fin 3) (Fin 2) ℝ) (hD : Spans D) (v : Vec3)
    (h : braggNormal none (some "reflection") o D = .ok v)
    (hback : ((basisCol D 0).cross (basisCol D 1)).unit ≠ ![0, 0, -1]) :
    ∀ c, (![0, 0, 1] : Vec3) c - 2 * (Vec3.dot ![0, 0, 1] v / v.dot v) * v c =
      -((basisCol D 0).cross (basisCol D 1)).unit c := by
  set out := ((basisCol D 0).cross (basisCol D 1)).unit with hout
  have h1 : out.dot out = 1 := by
    have hp := cross_pos hD
    set C := (basisCol D 0).cross (basisCol D 1)
    have hss : Real.sqrt (C.dot C) * Real.sqrt (C.dot C) = C.dot C := Real.mul_self_sqrt hp.le
    have : out.dot out = C.dot C / (Real.sqrt (C.dot C) * Real.sqrt (C.dot C)) := by
      rw [hout]; unfold Vec3.unit
      generalize Real.sqrt (C.dot C) = s
      simp only [Vec3.dot]; ring
    rw [this, hss, div_self hp.ne']
  have hv : v = fun c => out c + ![0, 0, 1] c := by
    unfold braggNormal at h
    simp only [String.reduceEq, or_true, if_true, or_self, if_false] at h
    have h' := (Except.ok.inj h).symm
    rw [h']
    funext c
    have e : (Vec3.cross (fun c => D c 0) (fun c => D c 1)).unit = out := rfl
    rw [e, h1]; simp
  have hvv : v.dot v = 2 * (1 + out 2) := by
    have : v.dot v = out.dot out + 2 * out 2 + 1 := by rw [hv]; simp [Vec3.dot]; ring
    rw [this, h1]; ring
  have hzv : Vec3.dot ![0, 0, 1] v = 1 + out 2 := by rw [hv]; simp [Vec3.dot]; ring
  have hne : 1 + out 2 ≠ 0 := by
    intro h0
    apply hback
    have h2 : out 2 = -1 := by linarith
    have h3 : out 0 * out 0 + out 1 * out 1 = 0 := by
      simp only [Vec3.dot, h2] at h1; linarith
    have h4 : out 0 = 0 := by nlinarith [mul_self_nonneg (out 0), mul_self_nonneg (out 1)]
    have h5 : out 1 = 0 := by nlinarith [mul_self_nonneg (out 0), mul_self_nonneg (out 1)]
    funext i
    fin_cases i
    · exact h4
    · exact h5
    · exact h2
  intro c
  rw [hzv, hvv]
  have : 2 * ((1 + out 2) / (2 * (1 + out 2))) = 1 := by field_simp
  rw [this, hv]
  ring

/-- Non-vacuity: a detector above the sample. -/
example : Spans !![0, 1; -1, 0; 0, 1] ∧ ((basisCol !![0, 1; -1, 0; 0, 1] 0).cross (basisCol !![0, 1; -1, 0; 0, 1] 1)).unit ≠
    ![0, 0, -1] := by
  constructor
  · simp [Spans, basisCol, Vec3.dot]
  · intro h
    have := congrFun h 0
    simp [Vec3.unit, Vec3.cross, basisCol, Vec3.dot] at this

/-- **C79** (violated): every other name of a scattering mode ends in an AttributeError instead of the ValueError the code
raises for modes that are no strings. -/
theorem bragg_normal_mode_violated (s : String) (h : s ∉ ["t", "transmission", "r", "reflection"]) (o : Option Vec3)
    (D : Matrix (Fin 3) (Fin 2) ℝ) : braggNormal none (some s) o D = .error "AttributeError" := by
  simp only [List.mem_cons, List.not_mem_nil, or_false, not_or] at h
  unfold braggNormal
  simp only [h.1, h.2.1, h.2.2.1, h.2.2.2, or_self, if_false]

/-! ### The scan -/

/-- **C79** (object size): all exposures of the scan the model was built for can be simulated, as long as the position
corrections stay within the padding. -/
theorem bragg_forward_succeeds (M : Bragg n m a b N k) (hW : M.weights ≠ none)
    (padding : ℕ) (ts : Fin N → Fin 3 → ℝ) (t0 : Fin 3 → ℝ) (rest : List (Fin 3 → ℝ))
    (hl : List.ofFn ts = t0 :: rest)
    (hh : (M.obj.h : ℤ) = (braggSetup a M.objBasis t0 rest padding 0).1)
    (hw : (M.obj.w : ℤ) = (braggSetup b M.objBasis t0 rest padding 1).1)
    (hm : M.minTranslation = ![(braggSetup a M.objBasis t0 rest padding 0).2, (braggSetup b M.objBasis t0 rest padding 1).2])
    (ho : ∀ o, M.offsets = some o → ∀ i c, |M.translationScale * o i c| ≤ padding) (idx : Fin N) :
    ∃ img, M.forward idx (ts idx) = .ok img := by
  have hmem : ts idx ∈ t0 :: rest := by rw [← hl]; exact List.mem_ofFn.2 ⟨idx, rfl⟩
  have hoff : ∃ d : Fin 2 → ℝ, (∀ c, |d c| ≤ padding) ∧
      M.pixTrans idx (ts idx) = (projectToSample M.objBasis (ts idx)).1 - M.minTranslation + d := by
    unfold Bragg.pixTrans
    cases hc : M.offsets with
    | none => exact ⟨0, fun c => by simp, by simp⟩
    | some o => exact ⟨M.translationScale • o idx, fun c => ho o hc idx c, rfl⟩
  obtain ⟨d, hd, hp⟩ := hoff
  have mem : ∀ c : Fin 2, (projectToSample M.objBasis (ts idx)).1 c ∈ (projectToSample M.objBasis t0).1 c ::
      rest.map fun t => (projectToSample M.objBasis t).1 c := by
    intro c
    rw [← List.map_cons (f := fun t => (projectToSample M.objBasis t).1 c)]
    exact List.mem_map_of_mem (f := fun t => (projectToSample M.objBasis t).1 c) hmem
  obtain ⟨a1, a2⟩ := setup_bounds a _ _ (padding : ℤ) _ (mem 0)
  obtain ⟨b1, b2⟩ := setup_bounds b _ _ (padding : ℤ) _ (mem 1)
  have e : ∀ c, M.pixTrans idx (ts idx) c = (projectToSample M.objBasis (ts idx)).1 c - M.minTranslation c + d c := by
    intro c; rw [hp]; rfl
  have hm0 := congrFun hm 0
  have hm1 := congrFun hm 1
  simp only [Matrix.cons_val_zero, Matrix.cons_val_one] at hm0 hm1
  unfold braggSetup at hh hw hm0 hm1
  rw [← hm0, ← hh] at a2
  rw [← hm0] at a1
  rw [← hm1, ← hw] at b2
  rw [← hm1] at b1
  have d0 := abs_le.1 (hd 0)
  have d1 := abs_le.1 (hd 1)
  push_cast at a1 a2 b1 b2
  have w0 : 0 ≤ ⌊M.pixTrans idx (ts idx) 0⌋ ∧ ⌊M.pixTrans idx (ts idx) 0⌋ + a ≤ M.obj.h := by
    rw [e 0]
    refine ⟨Int.floor_nonneg.2 (by linarith), ?_⟩
    have := floor_le_int (x := (projectToSample M.objBasis (ts idx)).1 0 - M.minTranslation 0 + d 0)
      (k := (M.obj.h : ℤ) - a) (by push_cast; linarith)
    linarith
  have w1 : 0 ≤ ⌊M.pixTrans idx (ts idx) 1⌋ ∧ ⌊M.pixTrans idx (ts idx) 1⌋ + b ≤ M.obj.w := by
    rw [e 1]
    refine ⟨Int.floor_nonneg.2 (by linarith), ?_⟩
    have := floor_le_int (x := (projectToSample M.objBasis (ts idx)).1 1 - M.minTranslation 1 + d 1)
      (k := (M.obj.w : ℤ) - b) (by push_cast; linarith)
    linarith
  obtain ⟨W, hW⟩ := Option.ne_none_iff_exists'.1 hW
  rw [M.forward_eq W hW, objWindow_inside (n := a) (m := b) w0 w1]
  exact ⟨_, rfl⟩

/-- The median splits a list: it is an element, at least half of the elements are not larger and at least half of them
not smaller. -/
theorem torchMedian_spec (l : List ℝ) (hl : l ≠ []) :
    torchMedian l ∈ l ∧ l.length ≤ 2 * (l.filter fun x => decide (x ≤ torchMedian l)).length ∧
    l.length ≤ 2 * (l.filter fun x => decide (torchMedian l ≤ x)).length := by
  set s := l.mergeSort (fun x y => decide (x ≤ y)) with hs
  have hperm : s.Perm l := List.mergeSort_perm _ _
  have hlen : s.length = l.length := hperm.length_eq
  have hpos : 0 < l.length := List.length_pos_iff.2 hl
  set i := (l.length - 1) / 2 with hi
  have hil : i < s.length := by omega
  have hm : torchMedian l = s[i] := by
    unfold torchMedian
    rw [← hs, ← hi, List.getD_eq_getElem?_getD, List.getElem?_eq_getElem hil, Option.getD_some]
  have hsorted : s.Pairwise (fun x y => decide (x ≤ y) = true) := by
    refine List.pairwise_mergeSort (le := fun x y : ℝ => decide (x ≤ y)) ?_ ?_ l
    · intro x y z h1 h2
      simp only [decide_eq_true_eq] at h1 h2 ⊢
      exact h1.trans h2
    · intro x y
      simp only [Bool.or_eq_true, decide_eq_true_eq]
      exact le_total x y
  have hle : ∀ p q (hp : p < s.length) (hq : q < s.length), p ≤ q → s[p] ≤ s[q] := by
    intro p q hp hq hpq
    rcases Nat.lt_or_eq_of_le hpq with h | h
    · simpa using List.pairwise_iff_getElem.1 hsorted p q hp hq h
    · subst h; exact le_refl _
  have hcount : ∀ P : ℝ → Bool, (l.filter P).length = (s.filter P).length := fun P => (hperm.filter P).length_eq.symm
  refine ⟨?_, ?_, ?_⟩
  · rw [hm]; exact hperm.mem_iff.1 (List.getElem_mem hil)
  · rw [hcount, hm]
    have hsub : (s.take (i + 1)).filter (fun x => decide (x ≤ s[i])) = s.take (i + 1) := by
      rw [List.filter_eq_self]
      intro x hx
      obtain ⟨p, hp, rfl⟩ := List.mem_iff_getElem.1 hx
      rw [List.getElem_take]
      rw [List.length_take] at hp
      simpa using hle p i (by omega) hil (by omega)
    have h1 := ((List.take_sublist (i + 1) s).filter fun x => decide (x ≤ s[i])).length_le
    rw [hsub, List.length_take] at h1
    omega
  · rw [hcount, hm]
    have hsub : (s.drop i).filter (fun x => decide (s[i] ≤ x)) = s.drop i := by
      rw [List.filter_eq_self]
      intro x hx
      obtain ⟨p, hp, rfl⟩ := List.mem_iff_getElem.1 hx
      rw [List.getElem_drop]
      rw [List.length_drop] at hp
      simpa using hle i (i + p) hil (by omega) (by omega)
    have h1 := ((List.drop_sublist i s).filter fun x => decide (s[i] ≤ x)).length_le
    rw [hsub, List.length_drop] at h1
    omega

/-- **C79** (focus): the reference plane of the propagation distances is the median plane of the scan: at least one
exposure is in focus, at least half of the exposures are at or before it and at least half at or behind it. -/
theorem bragg_median (M : Bragg n m a b N k) (ts : List (Fin 3 → ℝ)) (hts : ts ≠ [])
    (hm : M.medianPropagation = braggMedian M.objBasis ts) :
    (∃ t ∈ ts, M.distance t = 0) ∧
    ts.length ≤ 2 * (ts.filter fun t => decide (M.distance t ≤ 0)).length ∧
    ts.length ≤ 2 * (ts.filter fun t => decide (0 ≤ M.distance t)).length := by
  obtain ⟨h1, h2, h3⟩ := torchMedian_spec (ts.map fun t => (projectToSample M.objBasis t).2) (by simpa using hts)
  unfold braggMedian at hm
  rw [← hm] at h1 h2 h3
  rw [List.length_map, List.filter_map, List.length_map] at h2 h3
  refine ⟨?_, ?_, ?_⟩
  · obtain ⟨t, ht, he⟩ := List.mem_map.1 h1
    exact ⟨t, ht, by unfold Bragg.distance; rw [he, sub_self]⟩
  · convert h2 using 5
    simp [Bragg.distance]
  · convert h3 using 5
    simp [Bragg.distance]

/-! ### probe_fourier_crop -/

/-- **C79** (Fourier crop): a crop `c > 0` removes `c` pixels on each side; a crop of `0` on an axis, which should keep all
pixels, leaves no pixel. -/
theorem bragg_crop_length (n c : ℕ) (hc : 0 < c) (h : 2 * c ≤ n) : cropLength n c = n - 2 * c ∧ cropLength n 0 = 0 := by
  unfold cropLength sliceExtent sliceBound
  constructor
  · rw [if_neg (by omega), if_pos (by omega)]
    dsimp only
    omega
  · simp

/-- **C79** (field of view, partial): without oversampling, the cropped probe covers the field of view of the detector
grid, in pixels of the object. Missing: with oversampling it does not, see `bragg_field_of_view_violated`. -/
theorem bragg_field_of_view_partial (det c : ℕ) (hc : 0 < c) (h : 2 * c < det) :
    (cropLength (1 * det) c : ℝ) * braggScale det 1 c = (1 * det : ℕ) := by
  have h1 := (bragg_crop_length det c hc h.le).1
  have : (cropLength det c : ℝ) ≠ 0 := by
    rw [h1]; exact_mod_cast (by omega : det - 2 * c ≠ 0)
  unfold braggScale
  rw [one_mul]
  field_simp

/-- **C79** (violated): with oversampling, `probe_basis` is too small by the oversampling factor: the probe covers
`oversampling * det` pixels of the object, but its basis says `det`. -/
theorem bragg_field_of_view_violated (det os c : ℕ) (hos : 2 ≤ os) (hc : 0 < c) (h : 2 * c < det) :
    (cropLength (os * det) c : ℝ) * braggScale det os c = det ∧ (det : ℝ) ≠ (os * det : ℕ) := by
  have hle : det ≤ os * det := Nat.le_mul_of_pos_left _ (by omega)
  have h1 := (bragg_crop_length (os * det) c hc (by omega)).1
  have : (cropLength (os * det) c : ℝ) ≠ 0 := by
    rw [h1]; exact_mod_cast (by omega : os * det - 2 * c ≠ 0)
  constructor
  · unfold braggScale
    field_simp
  · intro he
    have he' : det = os * det := by exact_mod_cast he
    have : 2 * det ≤ os * det := Nat.mul_le_mul_right _ hos
    omega

end Cdtools
