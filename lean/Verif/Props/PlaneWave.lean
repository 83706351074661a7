/-
C56: the generalized angular spectrum propagator, frequency by frequency, is the phase a plane wave accumulates.
-/
import Verif.Props.Propagators

namespace Cdtools
open Finset

/-- Decomposition of a vector along two vectors and their cross product. -/
theorem vec3_decompose (b1 b2 v : Vec3) (i : Fin 3) :
    (b1.dot b1 * b2.dot b2 - b1.dot b2 * b1.dot b2) * v i =
      v.dot b1 * (b2.dot b2 * b1 i - b1.dot b2 * b2 i) + v.dot b2 * (b1.dot b1 * b2 i - b1.dot b2 * b1 i) +
        v.dot (b1.cross b2) * (b1.cross b2) i := by
  fin_cases i <;> simp [Vec3.dot, Vec3.cross] <;> ring

theorem dot_cross_self (b1 b2 : Vec3) :
    (b1.cross b2).dot (b1.cross b2) = b1.dot b1 * b2.dot b2 - b1.dot b2 * b1.dot b2 := by
  simp [Vec3.dot, Vec3.cross]; ring

/-- Vectors with the same products with two independent vectors and with a unit normal are equal. -/
theorem vec3_ext (b1 b2 nrm u v : Vec3) (hd : b1.dot b1 * b2.dot b2 - b1.dot b2 * b1.dot b2 ≠ 0)
    (hn1 : nrm.dot b1 = 0) (hn2 : nrm.dot b2 = 0) (hnn : nrm.dot nrm = 1)
    (h1 : u.dot b1 = v.dot b1) (h2 : u.dot b2 = v.dot b2) (h3 : u.dot nrm = v.dot nrm) : u = v := by
  set d := b1.dot b1 * b2.dot b2 - b1.dot b2 * b1.dot b2 with hdd
  -- the cross product is a non-zero multiple of the normal
  have hnc : ∀ i, d * nrm i = nrm.dot (b1.cross b2) * (b1.cross b2) i := by
    intro i; have := vec3_decompose b1 b2 nrm i; rw [hn1, hn2] at this; linarith
  set γ := nrm.dot (b1.cross b2) with hγ
  have hγ2 : γ * γ = d := by
    have h0 := hnc 0; have h1' := hnc 1; have h2' := hnc 2
    have : d * nrm.dot nrm = γ * γ := by
      simp only [hγ, Vec3.dot] at *
      linear_combination nrm 0 * h0 + nrm 1 * h1' + nrm 2 * h2'
    rw [hnn] at this; linarith
  have hγ0 : γ ≠ 0 := by intro h; rw [h] at hγ2; apply hd; rw [← hγ2]; ring
  have hc : ∀ i, (b1.cross b2) i = γ * nrm i := by
    intro i
    have := hnc i
    rw [← hγ2] at this
    have h' : γ * (γ * nrm i - (b1.cross b2) i) = 0 := by linear_combination this
    rcases mul_eq_zero.mp h' with h' | h'
    · exact absurd h' hγ0
    · linarith
  have hcd : ∀ w : Vec3, w.dot (b1.cross b2) = γ * w.dot nrm := by
    intro w; simp only [Vec3.dot]; rw [hc 0, hc 1, hc 2]; ring
  funext i
  have hu := vec3_decompose b1 b2 u i
  have hv := vec3_decompose b1 b2 v i
  rw [← hdd, hcd, h1, h2, h3] at hu
  rw [← hdd, hcd] at hv
  exact mul_left_cancel₀ hd (hu.trans hv.symm)

/-- The dual basis is dual to the basis. -/
theorem dualBasis_dual (b1 b2 : Vec3) (hd : b1.dot b1 * b2.dot b2 - b1.dot b2 * b1.dot b2 ≠ 0) :
    (dualBasis b1 b2).1.dot b1 = 1 ∧ (dualBasis b1 b2).1.dot b2 = 0 ∧
    (dualBasis b1 b2).2.dot b1 = 0 ∧ (dualBasis b1 b2).2.dot b2 = 1 := by
  set d := b1.dot b1 * b2.dot b2 - b1.dot b2 * b1.dot b2 with hdd
  have e : ∀ (α β : ℝ) (x : Vec3), Vec3.dot (fun i => (α * b1 i - β * b2 i) / d) x = (α * b1.dot x - β * b2.dot x) / d := by
    intro α β x; simp only [Vec3.dot]; ring
  have e' : ∀ (α β : ℝ) (x : Vec3), Vec3.dot (fun i => (α * b2 i - β * b1 i) / d) x = (α * b2.dot x - β * b1.dot x) / d := by
    intro α β x; simp only [Vec3.dot]; ring
  have hcomm := dot_comm b2 b1
  refine ⟨?_, ?_, ?_, ?_⟩ <;> simp only [dualBasis, ← hdd]
  · rw [e, hcomm, div_eq_one_iff_eq hd, hdd]; ring
  · rw [e, div_eq_zero_iff]; left; ring
  · rw [e', hcomm, div_eq_zero_iff]; left; ring
  · rw [e', div_eq_one_iff_eq hd, hdd]

/-- The oriented normal of the code is the unit normal on the side of the reference vector. -/
theorem perpDir_eq (b1 b2 ref nrm : Vec3) (hd : b1.dot b1 * b2.dot b2 - b1.dot b2 * b1.dot b2 ≠ 0)
    (hn1 : nrm.dot b1 = 0) (hn2 : nrm.dot b2 = 0) (hnn : nrm.dot nrm = 1) (hr : 0 < nrm.dot ref) :
    perpDir b1 b2 ref = nrm := by
  have hb1 : 0 < b1.dot b1 := by
    rcases lt_or_eq_of_le (show 0 ≤ b1.dot b1 by simp only [Vec3.dot]; nlinarith [sq_nonneg (b1 0), sq_nonneg (b1 1), sq_nonneg (b1 2)]) with h | h
    · exact h
    · exfalso
      have h0 : b1 0 = 0 ∧ b1 1 = 0 ∧ b1 2 = 0 := by
        simp only [Vec3.dot] at h
        refine ⟨?_, ?_, ?_⟩ <;> nlinarith [sq_nonneg (b1 0), sq_nonneg (b1 1), sq_nonneg (b1 2)]
      apply hd; simp only [Vec3.dot, h0.1, h0.2.1, h0.2.2]; ring
  have hb2 : 0 < b2.dot b2 := by
    rcases lt_or_eq_of_le (show 0 ≤ b2.dot b2 by simp only [Vec3.dot]; nlinarith [sq_nonneg (b2 0), sq_nonneg (b2 1), sq_nonneg (b2 2)]) with h | h
    · exact h
    · exfalso
      have h0 : b2 0 = 0 ∧ b2 1 = 0 ∧ b2 2 = 0 := by
        simp only [Vec3.dot] at h
        refine ⟨?_, ?_, ?_⟩ <;> nlinarith [sq_nonneg (b2 0), sq_nonneg (b2 1), sq_nonneg (b2 2)]
      apply hd; simp only [Vec3.dot, h0.1, h0.2.1, h0.2.2]; ring
  set s1 := Real.sqrt (b1.dot b1) with hs1
  set s2 := Real.sqrt (b2.dot b2) with hs2
  have p1 : 0 < s1 := Real.sqrt_pos.mpr hb1
  have p2 : 0 < s2 := Real.sqrt_pos.mpr hb2
  set C := b1.unit.cross b2.unit with hC
  have hCi : ∀ i, C i = (b1.cross b2) i / (s1 * s2) := by
    intro i
    rw [hC]
    fin_cases i <;> simp [Vec3.cross, Vec3.unit, ← hs1, ← hs2] <;> field_simp
  have hCn : ∀ w : Vec3, C.dot w = (b1.cross b2).dot w / (s1 * s2) := by
    intro w; simp only [Vec3.dot, hCi]; ring
  have h1 : C.dot b1 = 0 := by rw [hCn]; simp [Vec3.dot, Vec3.cross]; left; ring
  have h2 : C.dot b2 = 0 := by rw [hCn]; simp [Vec3.dot, Vec3.cross]; left; ring
  have hCC : C.dot C = (b1.dot b1 * b2.dot b2 - b1.dot b2 * b1.dot b2) / (s1 * s2) ^ 2 := by
    rw [← dot_cross_self]
    simp only [Vec3.dot, hCi]; ring
  have hCC0 : C.dot C ≠ 0 := by
    rw [hCC]; exact div_ne_zero hd (by positivity)
  have hCCpos : 0 < C.dot C := lt_of_le_of_ne (by simp only [Vec3.dot]; nlinarith [sq_nonneg (C 0), sq_nonneg (C 1), sq_nonneg (C 2)]) hCC0.symm
  set s := Real.sqrt (C.dot C) with hs
  have ps : 0 < s := Real.sqrt_pos.mpr hCCpos
  have hss : s * s = C.dot C := Real.mul_self_sqrt hCCpos.le
  set γ := C.unit.dot nrm with hγ
  have hU1 : C.unit.dot b1 = 0 := by
    have : C.unit.dot b1 = C.dot b1 / s := by simp only [Vec3.dot, Vec3.unit, ← hs]; simp only [Vec3.dot] at hs; rw [← hs]; ring
    rw [this, h1, zero_div]
  have hU2 : C.unit.dot b2 = 0 := by
    have : C.unit.dot b2 = C.dot b2 / s := by simp only [Vec3.dot, Vec3.unit, ← hs]; simp only [Vec3.dot] at hs; rw [← hs]; ring
    rw [this, h2, zero_div]
  have hUU : C.unit.dot C.unit = 1 := by
    have : C.unit.dot C.unit = C.dot C / (s * s) := by
      simp only [Vec3.dot, Vec3.unit, ← hs]; simp only [Vec3.dot] at hs; rw [← hs]; ring
    rw [this, hss, div_self hCC0]
  have hU : C.unit = fun i => nrm i * γ := by
    refine vec3_ext b1 b2 nrm _ _ hd hn1 hn2 hnn ?_ ?_ ?_
    · rw [hU1, dot_comm, dot_smul_right, dot_comm, hn1, zero_mul]
    · rw [hU2, dot_comm, dot_smul_right, dot_comm, hn2, zero_mul]
    · rw [dot_comm (fun i => nrm i * γ), dot_smul_right, hnn, one_mul]
  have hγγ : γ * γ = 1 := by
    have h := hUU
    rw [hU, dot_smul_right, dot_comm, dot_smul_right, hnn, one_mul] at h
    exact h
  have hdot : C.unit.dot ref = γ * nrm.dot ref := by
    rw [hU, dot_comm, dot_smul_right, dot_comm]; ring
  unfold perpDir
  simp only [← hC]
  rw [hdot]
  rcases mul_self_eq_one_iff.mp hγγ with h | h
  · funext i
    simp only [hU, h, one_mul, mul_one, sgn, if_pos hr]
  · funext i
    have hn : ¬ 0 < -1 * nrm.dot ref := by linarith
    have hn' : -1 * nrm.dot ref < 0 := by linarith
    simp only [hU, h, sgn, if_neg hn, if_pos hn']
    ring

/-- The reference wavevector: along the propagation vector if there is one, otherwise along the normal. -/
noncomputable def carrier (k0 : ℝ) (prop : Option Vec3) (nrm : Vec3) : Vec3 :=
  match prop with
  | some p => fun i => k0 * p.unit i
  | none => fun i => k0 * nrm i

/-- The tilt of the incident wave along a basis vector. -/
noncomputable def tiltAlong (k0 : ℝ) (prop : Option Vec3) (b : Vec3) : ℝ :=
  match prop with
  | some p => k0 * p.unit.dot b
  | none => 0

/-- **C56** (what the propagator means): let `nrm` be the unit normal of the plane of the array on the side of the
propagation vector (or of the offset). A plane wave with wavevector `K` of length `2π/λ`, travelling to that side, whose
phase advances by `(ki, kj)` per pixel along the two basis vectors (on top of the implied tilt along the propagation
vector), is multiplied by `exp(i offset·(K - K₀))`, where `K₀` is the reference wave along the propagation vector (or the
normal). This holds for all bases, also oblique ones, and for both signs of the offset. -/
theorem generalized_plane_wave (b1 b2 nrm : Vec3) (wl : ℝ) (hw : 0 < wl) (offset : Vec3) (prop : Option Vec3) (ki kj : ℝ)
    (hd : b1.dot b1 * b2.dot b2 - b1.dot b2 * b1.dot b2 ≠ 0)
    (hn1 : nrm.dot b1 = 0) (hn2 : nrm.dot b2 = 0) (hnn : nrm.dot nrm = 1) (hr : 0 < nrm.dot (prop.getD offset))
    (K : Vec3) (hK : K.dot K = (2 * Real.pi / wl) ^ 2) (hside : 0 ≤ K.dot nrm)
    (h1 : K.dot b1 = ki + tiltAlong (2 * Real.pi / wl) prop b1)
    (h2 : K.dot b2 = kj + tiltAlong (2 * Real.pi / wl) prop b2) :
    generalizedPropagator b1 b2 wl offset prop ki kj =
      Complex.exp (Complex.I * ((offset.dot fun i => K i - carrier (2 * Real.pi / wl) prop nrm i : ℝ) : ℂ)) := by
  set k0 := 2 * Real.pi / wl with hk0
  have hk : 0 < k0 := by positivity
  have hperp : perpDir b1 b2 (prop.getD offset) = nrm := perpDir_eq b1 b2 _ nrm hd hn1 hn2 hnn hr
  obtain ⟨d11, d12, d21, d22⟩ := dualBasis_dual b1 b2 hd
  have dn1 : (dualBasis b1 b2).1.dot nrm = 0 := by
    have : (dualBasis b1 b2).1.dot nrm = (b2.dot b2 * nrm.dot b1 - b1.dot b2 * nrm.dot b2) /
        (b1.dot b1 * b2.dot b2 - b1.dot b2 * b1.dot b2) := by
      simp only [dualBasis]
      generalize (b1.dot b1 * b2.dot b2 - b1.dot b2 * b1.dot b2) = d
      generalize b2.dot b2 = x; generalize b1.dot b2 = y
      simp only [Vec3.dot]; ring
    rw [this, hn1, hn2]; simp
  have dn2 : (dualBasis b1 b2).2.dot nrm = 0 := by
    have : (dualBasis b1 b2).2.dot nrm = (b1.dot b1 * nrm.dot b2 - b1.dot b2 * nrm.dot b1) /
        (b1.dot b1 * b2.dot b2 - b1.dot b2 * b1.dot b2) := by
      simp only [dualBasis]
      generalize (b1.dot b1 * b2.dot b2 - b1.dot b2 * b1.dot b2) = d
      generalize b1.dot b1 = x; generalize b1.dot b2 = y
      simp only [Vec3.dot]; ring
    rw [this, hn1, hn2]; simp
  have hn1' : b1.dot nrm = 0 := by rw [dot_comm]; exact hn1
  have hn2' : b2.dot nrm = 0 := by rw [dot_comm]; exact hn2
  -- the in-plane wavevector of the code
  set Q := inPlaneK b1 b2 wl nrm prop ki kj with hQ
  set R := refWave wl nrm prop with hR
  have lin : ∀ (x : Vec3), Vec3.dot (fun i => (dualBasis b1 b2).1 i * ki + (dualBasis b1 b2).2 i * kj) x =
      (dualBasis b1 b2).1.dot x * ki + (dualBasis b1 b2).2.dot x * kj := by
    intro x; simp only [Vec3.dot]; ring
  have hRx : ∀ x : Vec3, nrm.dot x = 0 → R.dot x = tiltAlong k0 prop x := by
    intro x hx
    cases prop with
    | none => simp [hR, refWave, tiltAlong, Vec3.dot]
    | some p =>
      have : R.dot x = k0 * (p.unit.dot x - nrm.dot x) := by
        simp only [hR, refWave, Vec3.dot, ← hk0]; ring
      rw [this, hx, sub_zero, tiltAlong]
  have hQx : ∀ x : Vec3, Q.dot x = (dualBasis b1 b2).1.dot x * ki + (dualBasis b1 b2).2.dot x * kj +
      (R.dot x - nrm.dot R * nrm.dot x) := by
    intro x
    cases prop with
    | none =>
      have hR0 : ∀ i, R i = 0 := fun i => rfl
      have : Q.dot x = Vec3.dot (fun i => (dualBasis b1 b2).1 i * ki + (dualBasis b1 b2).2 i * kj) x := rfl
      rw [this, lin]
      have h1 : R.dot x = 0 := by simp only [Vec3.dot, hR0]; ring
      have h2 : nrm.dot R = 0 := by simp only [Vec3.dot, hR0]; ring
      rw [h1, h2]; ring
    | some p =>
      have : Q = fun i => (dualBasis b1 b2).1 i * ki + (dualBasis b1 b2).2 i * kj + (R i - nrm.dot R * nrm i) := rfl
      rw [this]
      generalize nrm.dot R = c
      simp only [Vec3.dot]; ring
  have hQ1 : Q.dot b1 = K.dot b1 := by rw [hQx, d11, d21, hn1, hRx b1 hn1, h1]; ring
  have hQ2 : Q.dot b2 = K.dot b2 := by rw [hQx, d12, d22, hn2, hRx b2 hn2, h2]; ring
  have hQn : Q.dot nrm = 0 := by
    rw [hQx, dn1, dn2, hnn, dot_comm R nrm]; ring
  set α := K.dot nrm with hα
  have hKQ : K = fun i => Q i + nrm i * α := by
    refine vec3_ext b1 b2 nrm _ _ hd hn1 hn2 hnn ?_ ?_ ?_
    · have : Vec3.dot (fun i => Q i + nrm i * α) b1 = Q.dot b1 + α * nrm.dot b1 := by simp only [Vec3.dot]; ring
      rw [this, hQ1, hn1]; ring
    · have : Vec3.dot (fun i => Q i + nrm i * α) b2 = Q.dot b2 + α * nrm.dot b2 := by simp only [Vec3.dot]; ring
      rw [this, hQ2, hn2]; ring
    · have : Vec3.dot (fun i => Q i + nrm i * α) nrm = Q.dot nrm + α * nrm.dot nrm := by simp only [Vec3.dot]; ring
      rw [this, hQn, hnn, ← hα]; ring
  have hnormal : K.dot K = Q.dot Q + α ^ 2 := by
    have : Vec3.dot (fun i => Q i + nrm i * α) (fun i => Q i + nrm i * α) =
        Q.dot Q + 2 * α * Q.dot nrm + α ^ 2 * nrm.dot nrm := by simp only [Vec3.dot]; ring
    rw [hQn, hnn] at this
    rw [hKQ, this]; ring
  have hsq : csqrt (k0 ^ 2 - Q.dot Q) = (α : ℂ) := by
    have : k0 ^ 2 - Q.dot Q = α ^ 2 := by rw [← hK, hnormal]; ring
    rw [this, csqrt, if_pos (sq_nonneg α), Real.sqrt_sq hside]
  -- the phase is real
  have hR' : ∀ i, Q i + nrm i * (α - k0) - R i = K i - carrier k0 prop nrm i := by
    intro i
    rw [hKQ]
    cases prop with
    | none =>
      have : R i = 0 := rfl
      rw [this]; simp only [carrier]; ring
    | some p =>
      have : R i = k0 * (p.unit i - nrm i) := rfl
      rw [this]; simp only [carrier]; ring
  have hphase : (∑ i, (offset i : ℂ) * ((Q i : ℂ) + nrm i * ((α : ℂ) - (k0 : ℂ)) - R i)) =
      ((offset.dot fun i => K i - carrier k0 prop nrm i : ℝ) : ℂ) := by
    rw [Fin.sum_univ_three]
    simp only [Vec3.dot, ← hR']
    push_cast
    ring
  unfold generalizedPropagator
  simp only [hperp, ← hk0, ← hQ, ← hR]
  rw [koop_eq _ _ hk, hsq, hphase]
  cases prop with
  | none => rfl
  | some p =>
    simp only
    split_ifs with h
    · rw [Complex.conj_ofReal]
    · rfl

/-- Non-vacuity: an oblique basis in the plane `z = 0`, a wave at 45° along it, propagation along the normal. -/
example (k0 : ℝ) (hk : 0 < k0) : ∃ (b1 b2 nrm K : Vec3),
    b1.dot b1 * b2.dot b2 - b1.dot b2 * b1.dot b2 ≠ 0 ∧ b1.dot b2 ≠ 0 ∧ nrm.dot b1 = 0 ∧ nrm.dot b2 = 0 ∧
    nrm.dot nrm = 1 ∧ 0 < nrm.dot ![0, 0, 1] ∧ K.dot K = k0 ^ 2 ∧ 0 ≤ K.dot nrm ∧ K.dot b1 ≠ 0 := by
  refine ⟨![1, 0, 0], ![1, 1, 0], ![0, 0, 1], ![3 / 5 * k0, 0, 4 / 5 * k0], ?_, ?_, ?_, ?_, ?_, ?_, ?_, ?_, ?_⟩ <;>
    simp [Vec3.dot]
  · ring
  · exact hk.le
  · exact hk.ne'

end Cdtools
