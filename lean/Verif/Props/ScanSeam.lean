/-
C102: the simulated intensity as a function of the scan position, across pixel boundaries.
-/
import Verif.Lemmas.FancySmooth
import Verif.Props.Interactions
import Verif.Props.ImageProc

set_option linter.unusedSectionVars false

namespace Cdtools
open Finset Topology Filter

variable {n m : ℕ} [NeZero n] [NeZero m]

/-! ### Specification -/

/-- The far-field intensity of the exit wave of `ptycho_2D_sinc` at a scan position (0 if it raises). -/
noncomputable def detected (probe : Wave n m) (obj : Img ℂ) (tr : ℝ × ℝ) (k : ZMod n) (l : ZMod m) : ℝ :=
  match sincExit false probe obj tr with
  | .ok e => ‖farField e k l‖ ^ 2
  | .error _ => 0

/-- The exit wave that is approached from below at the integer row `z`: the last row of the probe is multiplied by row `z - 1` of the object
(just above the window) instead of row `z + n - 1`. -/
noncomputable def seamRow (q : Wave n m) (obj : Img ℂ) (z c : ℕ) : Wave n m := fun i j =>
  q i j * obj.px (if i.val + 1 < n then z + i.val else z - 1) (c + j.val)

/-- The same for columns. -/
noncomputable def seamCol (q : Wave n m) (obj : Img ℂ) (r z : ℕ) : Wave n m := fun i j =>
  q i j * obj.px (r + i.val) (if j.val + 1 < m then z + j.val else z - 1)

/-! ### Proofs -/

theorem farField_roll_norm (w : Wave n m) (a : ZMod n) (b : ZMod m) (k : ZMod n) (l : ZMod m) :
    ‖farField (fun i j => w (i - a) (j - b)) k l‖ = ‖farField w k l‖ := by
  unfold farField fftshift2
  simp only [norm_div]
  congr 1
  have : (ifftshift2 fun i j => w (i - a) (j - b)) = fun i j => (ifftshift2 w) (i - a) (j - b) := by
    funext i j
    unfold ifftshift2
    congr 1 <;> ring
  rw [this, fft2_roll, norm_mul, norm_mul, stdAddChar_norm, stdAddChar_norm, one_mul, one_mul]

theorem val_sub_one (i : ZMod n) : ((i - 1).val + 1 < n ∧ i.val = (i - 1).val + 1) ∨ (¬ (i - 1).val + 1 < n ∧ i.val = 0) := by
  have hlt := ZMod.val_lt (i - 1)
  have e : i = (((i - 1).val + 1 : ℕ) : ZMod n) := by
    push_cast
    rw [ZMod.natCast_zmod_val]
    ring
  by_cases h : (i - 1).val + 1 < n
  · left
    refine ⟨h, ?_⟩
    conv_lhs => rw [e]
    rw [ZMod.val_natCast, Nat.mod_eq_of_lt h]
  · right
    refine ⟨h, ?_⟩
    have hn : (i - 1).val + 1 = n := by omega
    conv_lhs => rw [e]
    rw [hn]
    simp

theorem sincShift_continuous (p q : Wave n m) {f g : ℝ → ℝ} (x : ℝ) (hf : DifferentiableAt ℝ f x) (hg : DifferentiableAt ℝ g x)
    (k : ZMod n) (l : ZMod m) :
    ContinuousAt (fun s => ‖farField (fun i j => sincShift p (f s) (g s) i j * q i j) k l‖ ^ 2) x := by
  have hp : DWave (fun _ : ℝ => p) x := .const p
  have hq : DWave (fun _ : ℝ => q) x := .const q
  have hm : DWave (fun s : ℝ => (phaseMask (f s) (g s) : Wave n m)) x := .phaseMask hf hg
  have h1 := (((hp.linear isLinear_fft2).linear isLinear_fftshift2).mul hm).linear isLinear_ifftshift2
  have h2 := ((h1.linear isLinear_ifft2).mul hq).linear isLinear_farField
  exact (diff_normSq (h2 k l)).continuousAt

theorem detected_eq (p : Wave n m) (obj : Img ℂ) (tr : ℝ × ℝ) (z0 z1 : ℤ) (h0 : ⌊tr.1⌋ = z0) (h1 : ⌊tr.2⌋ = z1)
    (h : ReadsInside n m obj z0 z1) (k : ZMod n) (l : ZMod m) :
    detected p obj tr k l = ‖farField (fun i j => sincShift p (tr.1 - z0) (tr.2 - z1) i j *
      obj.px (z0.toNat + i.val) (z1.toNat + j.val)) k l‖ ^ 2 := by
  have h' := (subpixel_exit_waves p obj tr (by rw [h0, h1]; exact h)).1
  unfold detected
  rw [h']
  simp only [Int.fract, h0, h1]

/-- **C102** (rows): as the scan position moves through an integer row `z`, the intensity is continuous from above; from below it
approaches the intensity of the exit wave in which the last row of the (column-shifted) probe sees row `z - 1` of the object in
place of row `z + n - 1`. -/
theorem scan_row_limits (p : Wave n m) (obj : Img ℂ) (z : ℕ) (y : ℝ) (hz : 1 ≤ z) (hh : z + n ≤ obj.h) (hy : 0 ≤ ⌊y⌋)
    (hw : ⌊y⌋ + m ≤ obj.w) (k : ZMod n) (l : ZMod m) :
    Tendsto (fun x => detected p obj (x, y) k l) (𝓝[≥] (z : ℝ)) (𝓝 (detected p obj (z, y) k l)) ∧
    Tendsto (fun x => detected p obj (x, y) k l) (𝓝[<] (z : ℝ))
      (𝓝 (‖farField (seamRow (sincShift p 0 (Int.fract y)) obj z ⌊y⌋.toNat) k l‖ ^ 2)) := by
  constructor
  · have hc := sincShift_continuous p (fun i j => obj.px (((z : ℤ)).toNat + i.val) (⌊y⌋.toNat + j.val))
      (f := fun x => x - ((z : ℤ) : ℝ)) (g := fun _ => y - ⌊y⌋) (z : ℝ) (differentiableAt_id.sub_const _) (differentiableAt_const _) k l
    have hin : ReadsInside n m obj (z : ℤ) ⌊y⌋ := ⟨by positivity, by exact_mod_cast hh, hy, hw⟩
    rw [detected_eq p obj (z, y) z ⌊y⌋ (by simp) rfl hin]
    refine (hc.tendsto.mono_left nhdsWithin_le_nhds).congr' ?_
    have hlt : ∀ᶠ x : ℝ in 𝓝[≥] (z : ℝ), x < z + 1 := nhdsWithin_le_nhds (Iio_mem_nhds (by linarith))
    filter_upwards [hlt, self_mem_nhdsWithin] with x h1 h2
    have h2 : (z : ℝ) ≤ x := h2
    exact (detected_eq p obj (x, y) z ⌊y⌋ (Int.floor_eq_iff.2 ⟨by exact_mod_cast h2, by exact_mod_cast h1⟩) rfl hin k l).symm
  · have hc := sincShift_continuous p (fun i j => obj.px (((z : ℤ) - 1).toNat + i.val) (⌊y⌋.toNat + j.val))
      (f := fun x => x - (((z : ℤ) - 1 : ℤ) : ℝ)) (g := fun _ => y - ⌊y⌋) (z : ℝ) (differentiableAt_id.sub_const _) (differentiableAt_const _) k l
    have hin : ReadsInside n m obj ((z : ℤ) - 1) ⌊y⌋ := ⟨by omega, by omega, hy, hw⟩
    have hval : ‖farField (fun i j => sincShift p ((z : ℝ) - (((z : ℤ) - 1 : ℤ) : ℝ)) (y - ⌊y⌋) i j *
        obj.px (((z : ℤ) - 1).toNat + i.val) (⌊y⌋.toNat + j.val)) k l‖ ^ 2 =
        ‖farField (seamRow (sincShift p 0 (Int.fract y)) obj z ⌊y⌋.toNat) k l‖ ^ 2 := by
      rw [← farField_roll_norm (seamRow (sincShift p 0 (Int.fract y)) obj z ⌊y⌋.toNat) 1 0 k l]
      congr 4
      funext i j
      have e1 : sincShift p ((z : ℝ) - (((z : ℤ) - 1 : ℤ) : ℝ)) (y - ⌊y⌋) =
          fun i j => sincShift p 0 (Int.fract y) (i - 1) (j - 0) := by
        have h1 := (shifts_preserve_energy_and_compose p 0 (Int.fract y) ((1 : ℤ) : ℝ) ((0 : ℤ) : ℝ)).2.1
        rw [integer_shift_is_roll] at h1
        have e2 : (z : ℝ) - (((z : ℤ) - 1 : ℤ) : ℝ) = 0 + ((1 : ℤ) : ℝ) := by push_cast; ring
        have e3 : y - ⌊y⌋ = Int.fract y + ((0 : ℤ) : ℝ) := by simp
        rw [e2, e3, ← h1]
        simp
      rw [e1]
      unfold seamRow
      simp only [sub_zero]
      congr 2
      rcases val_sub_one i with ⟨h1, h2⟩ | ⟨h1, h2⟩
      · rw [if_pos h1]; omega
      · rw [if_neg h1]; omega
    rw [← hval]
    refine (hc.tendsto.mono_left nhdsWithin_le_nhds).congr' ?_
    have hlt : ∀ᶠ x : ℝ in 𝓝[<] (z : ℝ), (z : ℝ) - 1 < x := nhdsWithin_le_nhds (Ioi_mem_nhds (by linarith))
    filter_upwards [hlt, self_mem_nhdsWithin] with x h1 h2
    have h2 : x < (z : ℝ) := h2
    refine (detected_eq p obj (x, y) (z - 1) ⌊y⌋ (Int.floor_eq_iff.2 ⟨?_, ?_⟩) rfl hin k l).symm
    · push_cast; exact h1.le
    · push_cast; linarith

/-- **C102** (columns). -/
theorem scan_col_limits (p : Wave n m) (obj : Img ℂ) (z : ℕ) (x : ℝ) (hz : 1 ≤ z) (hw : z + m ≤ obj.w) (hx : 0 ≤ ⌊x⌋)
    (hh : ⌊x⌋ + n ≤ obj.h) (k : ZMod n) (l : ZMod m) :
    Tendsto (fun y => detected p obj (x, y) k l) (𝓝[≥] (z : ℝ)) (𝓝 (detected p obj (x, z) k l)) ∧
    Tendsto (fun y => detected p obj (x, y) k l) (𝓝[<] (z : ℝ))
      (𝓝 (‖farField (seamCol (sincShift p (Int.fract x) 0) obj ⌊x⌋.toNat z) k l‖ ^ 2)) := by
  constructor
  · have hc := sincShift_continuous p (fun i j => obj.px (⌊x⌋.toNat + i.val) (((z : ℤ)).toNat + j.val))
      (f := fun _ => x - ⌊x⌋) (g := fun y => y - ((z : ℤ) : ℝ)) (z : ℝ) (differentiableAt_const _) (differentiableAt_id.sub_const _) k l
    have hin : ReadsInside n m obj ⌊x⌋ (z : ℤ) := ⟨hx, hh, by positivity, by exact_mod_cast hw⟩
    rw [detected_eq p obj (x, z) ⌊x⌋ z rfl (by simp) hin]
    refine (hc.tendsto.mono_left nhdsWithin_le_nhds).congr' ?_
    have hlt : ∀ᶠ x : ℝ in 𝓝[≥] (z : ℝ), x < z + 1 := nhdsWithin_le_nhds (Iio_mem_nhds (by linarith))
    filter_upwards [hlt, self_mem_nhdsWithin] with y h1 h2
    have h2 : (z : ℝ) ≤ y := h2
    exact (detected_eq p obj (x, y) ⌊x⌋ z rfl (Int.floor_eq_iff.2 ⟨by exact_mod_cast h2, by exact_mod_cast h1⟩) hin k l).symm
  · have hc := sincShift_continuous p (fun i j => obj.px (⌊x⌋.toNat + i.val) (((z : ℤ) - 1).toNat + j.val))
      (f := fun _ => x - ⌊x⌋) (g := fun y => y - (((z : ℤ) - 1 : ℤ) : ℝ)) (z : ℝ) (differentiableAt_const _) (differentiableAt_id.sub_const _) k l
    have hin : ReadsInside n m obj ⌊x⌋ ((z : ℤ) - 1) := ⟨hx, hh, by omega, by omega⟩
    have hval : ‖farField (fun i j => sincShift p (x - ⌊x⌋) ((z : ℝ) - (((z : ℤ) - 1 : ℤ) : ℝ)) i j *
        obj.px (⌊x⌋.toNat + i.val) (((z : ℤ) - 1).toNat + j.val)) k l‖ ^ 2 =
        ‖farField (seamCol (sincShift p (Int.fract x) 0) obj ⌊x⌋.toNat z) k l‖ ^ 2 := by
      rw [← farField_roll_norm (seamCol (sincShift p (Int.fract x) 0) obj ⌊x⌋.toNat z) 0 1 k l]
      congr 4
      funext i j
      have e1 : sincShift p (x - ⌊x⌋) ((z : ℝ) - (((z : ℤ) - 1 : ℤ) : ℝ)) =
          fun i j => sincShift p (Int.fract x) 0 (i - 0) (j - 1) := by
        have h1 := (shifts_preserve_energy_and_compose p (Int.fract x) 0 ((0 : ℤ) : ℝ) ((1 : ℤ) : ℝ)).2.1
        rw [integer_shift_is_roll] at h1
        have e2 : (z : ℝ) - (((z : ℤ) - 1 : ℤ) : ℝ) = 0 + ((1 : ℤ) : ℝ) := by push_cast; ring
        have e3 : x - ⌊x⌋ = Int.fract x + ((0 : ℤ) : ℝ) := by simp
        rw [e2, e3, ← h1]
        simp
      rw [e1]
      unfold seamCol
      simp only [sub_zero]
      congr 2
      rcases val_sub_one j with ⟨h1, h2⟩ | ⟨h1, h2⟩
      · rw [if_pos h1]; omega
      · rw [if_neg h1]; omega
    rw [← hval]
    refine (hc.tendsto.mono_left nhdsWithin_le_nhds).congr' ?_
    have hlt : ∀ᶠ y : ℝ in 𝓝[<] (z : ℝ), (z : ℝ) - 1 < y := nhdsWithin_le_nhds (Ioi_mem_nhds (by linarith))
    filter_upwards [hlt, self_mem_nhdsWithin] with y h1 h2
    have h2 : y < (z : ℝ) := h2
    refine (detected_eq p obj (x, y) ⌊x⌋ (z - 1) rfl (Int.floor_eq_iff.2 ⟨?_, ?_⟩) hin k l).symm
    · push_cast; exact h1.le
    · push_cast; linarith

/-- **C102** (no jump): the intensity is continuous through the integer row `z` if in every column of the window the last row of the
column-shifted probe vanishes or the object is the same in the rows `z - 1` and `z + n - 1`. -/
theorem scan_row_continuous (p : Wave n m) (obj : Img ℂ) (z : ℕ) (y : ℝ) (hz : 1 ≤ z) (hh : z + n ≤ obj.h) (hy : 0 ≤ ⌊y⌋)
    (hw : ⌊y⌋ + m ≤ obj.w)
    (hseam : ∀ j, sincShift p 0 (Int.fract y) (-1) j = 0 ∨
      obj.px (z - 1) (⌊y⌋.toNat + j.val) = obj.px (z + n - 1) (⌊y⌋.toNat + j.val)) (k : ZMod n) (l : ZMod m) :
    ContinuousAt (fun x => detected p obj (x, y) k l) z := by
  obtain ⟨h1, h2⟩ := scan_row_limits p obj z y hz hh hy hw k l
  have hin : ReadsInside n m obj (z : ℤ) ⌊y⌋ := ⟨by positivity, by exact_mod_cast hh, hy, hw⟩
  have e : detected p obj (z, y) k l = ‖farField (seamRow (sincShift p 0 (Int.fract y)) obj z ⌊y⌋.toNat) k l‖ ^ 2 := by
    rw [detected_eq p obj (z, y) z ⌊y⌋ (by simp) rfl hin]
    congr 4
    funext i j
    unfold seamRow
    simp only [Int.cast_natCast, sub_self, Int.toNat_natCast, Int.fract]
    by_cases hi : i.val + 1 < n
    · rw [if_pos hi]
    · rw [if_neg hi]
      have hlt := ZMod.val_lt i
      have hv : i.val = n - 1 := by omega
      have hi1 : i = -1 := by
        have : ((i.val + 1 : ℕ) : ZMod n) = 0 := by
          rw [show i.val + 1 = n by omega]; simp
        push_cast at this
        rw [ZMod.natCast_zmod_val] at this
        exact eq_neg_of_add_eq_zero_left this
      rcases hseam j with h3 | h3
      · rw [Int.fract, ← hi1] at h3
        rw [h3]; simp
      · rw [h3, hv, Nat.add_sub_assoc NeZero.one_le]
  rw [← e] at h2
  have : Tendsto (fun x => detected p obj (x, y) k l) (𝓝[<] (z : ℝ) ⊔ 𝓝[≥] (z : ℝ)) (𝓝 (detected p obj (z, y) k l)) := h2.sup h1
  rw [← nhdsWithin_union, Set.Iio_union_Ici, nhdsWithin_univ] at this
  exact this

/-- A 2 × 1 probe that is lit in its last row only, on a 3 × 1 object that is opaque except for its first row. -/
noncomputable def edgeProbe : Wave 2 1 := fun i _ => if i = 1 then 1 else 0

/-- See `edgeProbe`. -/
def edgeObject : Img ℂ := ⟨3, 1, fun i _ => if i = 0 then 1 else 0⟩

/-- **C102** is violated without that condition: below row 1 the simulated intensity of this scan approaches total intensity 1, at row 1 it
is zero. No choice of detector pixels is needed: the total jumps, so some pixel does. -/
theorem scan_row_jump_violated :
    Tendsto (fun x => ∑ k, ∑ l, detected edgeProbe edgeObject (x, 0) k l) (𝓝[<] (1 : ℝ)) (𝓝 1) ∧
    (∀ k l, detected edgeProbe edgeObject (1, 0) k l = 0) ∧
    ∃ k l, ¬ ContinuousAt (fun x => detected edgeProbe edgeObject (x, 0) k l) 1 := by
  have hlim := fun k l => scan_row_limits edgeProbe edgeObject 1 0 le_rfl (by simp [edgeObject]) (by simp) (by simp [edgeObject]) k l
  simp only [Nat.cast_one, Int.fract_zero, Int.floor_zero, Int.toNat_zero] at hlim
  rw [(shifts_preserve_energy_and_compose edgeProbe 0 0 0 0).2.2.1] at hlim
  have hpow : ∑ k, ∑ l, ‖farField (seamRow edgeProbe edgeObject 1 0) k l‖ ^ 2 = 1 := by
    have h1 := (far_field_unitary (n := 2) (m := 1)).2.2.1 (seamRow edgeProbe edgeObject 1 0)
    unfold power at h1
    refine h1.trans ?_
    have hs1 : ∀ f : ZMod 1 → ℝ, ∑ j, f j = f 0 := fun f => Fin.sum_univ_one f
    have hs : ∀ f : ZMod 2 → ZMod 1 → ℝ, ∑ i, ∑ j, f i j = f 0 0 + f 1 0 := fun f => by
      simp only [hs1]
      exact Fin.sum_univ_two fun i : Fin 2 => f i 0
    have v1 : (1 : ZMod 2).val = 1 := rfl
    have v0 : (0 : ZMod 2) ≠ 1 := by decide
    rw [hs]
    simp [seamRow, edgeProbe, edgeObject, v1, v0]
  have hzero : ∀ k l, detected edgeProbe edgeObject (1, 0) k l = 0 := by
    intro k l
    rw [detected_eq edgeProbe edgeObject (1, 0) 1 0 (by simp) (by simp) ⟨by norm_num, by simp [edgeObject], le_rfl, by simp [edgeObject]⟩]
    simp only [Int.cast_one, Int.cast_zero, sub_self]
    rw [(shifts_preserve_energy_and_compose edgeProbe 0 0 0 0).2.2.1]
    have hz : (fun i j => edgeProbe i j * edgeObject.px ((1 : ℤ).toNat + i.val) ((0 : ℤ).toNat + j.val)) = (0 : Wave 2 1) := by
      funext i j
      simp [edgeObject]
    rw [hz, (isLinear_farField (n := 2) (m := 1)).map_zero]
    simp
  have htot : Tendsto (fun x => ∑ k, ∑ l, detected edgeProbe edgeObject (x, 0) k l) (𝓝[<] (1 : ℝ)) (𝓝 1) := by
    have h1 : Tendsto (fun x => ∑ k, ∑ l, detected edgeProbe edgeObject (x, 0) k l) (𝓝[<] (1 : ℝ))
        (𝓝 (∑ k, ∑ l, ‖farField (seamRow edgeProbe edgeObject 1 0) k l‖ ^ 2)) :=
      tendsto_finsetSum _ fun k _ => tendsto_finsetSum _ fun l _ => (hlim k l).2
    rw [hpow] at h1
    exact h1
  refine ⟨htot, hzero, ?_⟩
  by_contra hcon
  push Not at hcon
  have h2 : Tendsto (fun x => ∑ k, ∑ l, detected edgeProbe edgeObject (x, 0) k l) (𝓝[<] (1 : ℝ))
      (𝓝 (∑ k, ∑ l, detected edgeProbe edgeObject (1, 0) k l)) :=
    tendsto_finsetSum _ fun k _ => tendsto_finsetSum _ fun l _ => (hcon k l).tendsto.mono_left nhdsWithin_le_nhds
  have h3 := tendsto_nhds_unique htot h2
  simp [hzero] at h3

/-- A probe that vanishes on its last row meets the condition of `scan_row_continuous` at every row, for every object. -/
example (obj : Img ℂ) (hobj : obj.h = 9 ∧ obj.w = 9) (k : ZMod 3) (l : ZMod 3) :
    ContinuousAt (fun x => detected (fun i j => if i = 0 then (1 : ℂ) + j.val else 0 : Wave 3 3) obj (x, 2) k l) (4 : ℕ) := by
  have h2 : ⌊(2 : ℝ)⌋ = 2 := by norm_num
  have hf : Int.fract (2 : ℝ) = 0 := by norm_num
  refine scan_row_continuous _ obj 4 2 (by norm_num) (by omega) (by rw [h2]; norm_num) (by rw [h2]; omega) (fun j => Or.inl ?_) k l
  rw [hf, (shifts_preserve_energy_and_compose _ 0 0 0 0).2.2.1]
  exact if_neg (by decide)

end Cdtools
