/-
C85: what the aliasing prevention of `Multislice2DPtycho` (`models/multislice_2d_ptycho.py`) prevents.
-/
import Verif.Props.Multislice2D

set_option linter.unusedSectionVars false

namespace Cdtools
open Finset Matrix ZMod

variable {n m N k : ℕ} [NeZero n] [NeZero m]

/-! ### Specification -/

/-- The amplitude of a sampled wave at the frequency `(p, q)`, in cycles per field of view: what the far field shows `p` rows and
`q` columns from its center; zero outside the band that the sampling resolves. -/
noncomputable def band (w : Wave n m) (p q : ℤ) : ℂ :=
  if (-((n / 2 : ℕ) : ℤ) ≤ p ∧ p < n - ((n / 2 : ℕ) : ℤ)) ∧ (-((m / 2 : ℕ) : ℤ) ≤ q ∧ q < m - ((m / 2 : ℕ) : ℤ)) then
    farField w ((p + ((n / 2 : ℕ) : ℤ) : ℤ) : ZMod n) ((q + ((m / 2 : ℕ) : ℤ) : ℤ) : ZMod m)
  else 0

/-- The continuous wave with given amplitudes, `s` rows and `t` columns (not necessarily whole ones) from the center. -/
noncomputable def bandField (n m : ℕ) (F : ℤ → ℤ → ℂ) (s t : ℝ) : ℂ :=
  (∑' r : ℤ × ℤ, F r.1 r.2 * Complex.exp (2 * Real.pi * Complex.I * (r.1 * s / n + r.2 * t / m))) / Real.sqrt (n * m)

/-- The amplitudes of the product of two continuous waves (`bandField_mul`): no wrap-around of high frequencies. -/
noncomputable def bandMul (n m : ℕ) (F G : ℤ → ℤ → ℂ) (p q : ℤ) : ℂ :=
  (∑' r : ℤ × ℤ, F r.1 r.2 * G (p - r.1) (q - r.2)) / Real.sqrt (n * m)

/-- The amplitudes behind a list of slices with a propagation (factor `H`) between them. -/
noncomputable def bandPasses (H : ℤ → ℤ → ℂ) : List (Wave n m) → (ℤ → ℤ → ℂ) → ℤ → ℤ → ℂ
  | [], F => F
  | [o], F => bandMul n m F (band o)
  | o :: o' :: os, F => bandPasses H (o' :: os) fun p q => H p q * bandMul n m F (band o) p q

/-- The phase factor of free space over a distance `z` at the spatial frequency `(fx, fy)`. -/
noncomputable def freeSpace (lam z fx fy : ℝ) : ℂ :=
  let p := Complex.exp (Complex.I * (|z| : ℝ) *
    (csqrt ((2 * Real.pi / lam) ^ 2 - ((2 * Real.pi * fx) ^ 2 + (2 * Real.pi * fy) ^ 2)) - (2 * Real.pi / lam : ℝ)))
  if z < 0 then (starRingEnd ℂ) p else p

/-! ### The convolution theorem -/

theorem fft2_mul (u v : Wave n m) (x : ZMod n) (y : ZMod m) :
    fft2 (fun i j => u i j * v i j) x y = (∑ p, ∑ q, fft2 u p q * fft2 v (x - p) (y - q)) / (n * m) := by
  have hu : ∀ i j, u i j = (∑ p, ∑ q, stdAddChar (i * p) * stdAddChar (j * q) * fft2 u p q) / (n * m) := by
    intro i j
    have := congrFun (congrFun (ifft2_fft2 u) i) j
    rw [ifft2_eq] at this
    exact this.symm
  rw [fft2_eq]
  calc ∑ i, ∑ j, stdAddChar (-(i * x)) * stdAddChar (-(j * y)) * (u i j * v i j)
      = ∑ i, ∑ j, ∑ p, ∑ q, (fft2 u p q * (stdAddChar (-(i * (x - p))) * stdAddChar (-(j * (y - q))) * v i j)) / (n * m) := by
        refine sum_congr rfl fun i _ => sum_congr rfl fun j _ => ?_
        rw [hu i j, div_mul_eq_mul_div, mul_div_assoc', sum_mul, mul_sum, sum_div]
        refine sum_congr rfl fun p _ => ?_
        rw [sum_mul, mul_sum, sum_div]
        refine sum_congr rfl fun q _ => ?_
        rw [show -(i * (x - p)) = -(i * x) + i * p by ring, show -(j * (y - q)) = -(j * y) + j * q by ring,
          AddChar.map_add_eq_mul, AddChar.map_add_eq_mul]
        ring
    _ = ∑ p, ∑ q, ∑ i, ∑ j, (fft2 u p q * (stdAddChar (-(i * (x - p))) * stdAddChar (-(j * (y - q))) * v i j)) / (n * m) := by
        rw [show (∑ i, ∑ j, ∑ p, ∑ q, (fft2 u p q * (stdAddChar (-(i * (x - p))) * stdAddChar (-(j * (y - q))) * v i j)) / ((n : ℂ) * m))
            = ∑ i, ∑ p, ∑ j, ∑ q, (fft2 u p q * (stdAddChar (-(i * (x - p))) * stdAddChar (-(j * (y - q))) * v i j)) / ((n : ℂ) * m)
            from sum_congr rfl fun i _ => sum_comm]
        rw [sum_comm]
        refine sum_congr rfl fun p _ => ?_
        rw [show (∑ i, ∑ j, ∑ q, (fft2 u p q * (stdAddChar (-(i * (x - p))) * stdAddChar (-(j * (y - q))) * v i j)) / ((n : ℂ) * m))
            = ∑ i, ∑ q, ∑ j, (fft2 u p q * (stdAddChar (-(i * (x - p))) * stdAddChar (-(j * (y - q))) * v i j)) / ((n : ℂ) * m)
            from sum_congr rfl fun i _ => sum_comm]
        rw [sum_comm]
    _ = _ := by
        rw [sum_div]
        refine sum_congr rfl fun p _ => ?_
        rw [sum_div]
        refine sum_congr rfl fun q _ => ?_
        rw [fft2_eq v, mul_sum, sum_div]
        refine sum_congr rfl fun i _ => ?_
        rw [mul_sum, sum_div]

/-- The far field of a product is the cyclic convolution of the far fields. -/
theorem farField_mul (u v : Wave n m) (x : ZMod n) (y : ZMod m) :
    farField (fun i j => u i j * v i j) x y = (∑ p, ∑ q, farField u p q *
      farField v (x - p + ((n / 2 : ℕ) : ZMod n)) (y - q + ((m / 2 : ℕ) : ZMod m))) / Real.sqrt (n * m) := by
  unfold farField fftshift2
  have e : ifftshift2 (fun i j => u i j * v i j) = fun i j => ifftshift2 u i j * ifftshift2 v i j := rfl
  beta_reduce
  rw [e, fft2_mul]
  simp only [add_sub_cancel_right]
  have hs : (Real.sqrt (n * m) : ℂ) * Real.sqrt (n * m) = n * m := by
    rw [← Complex.ofReal_mul, Real.mul_self_sqrt (by positivity)]; push_cast; rfl
  rw [← Equiv.sum_comp (Equiv.subRight ((n / 2 : ℕ) : ZMod n))]
  congr 1
  rw [sum_div]
  refine sum_congr rfl fun p _ => ?_
  rw [← Equiv.sum_comp (Equiv.subRight ((m / 2 : ℕ) : ZMod m)), sum_div]
  refine sum_congr rfl fun q _ => ?_
  simp only [Equiv.subRight_apply]
  rw [show x - ((n / 2 : ℕ) : ZMod n) - (p - ((n / 2 : ℕ) : ZMod n)) = x - p by ring,
    show y - ((m / 2 : ℕ) : ZMod m) - (q - ((m / 2 : ℕ) : ZMod m)) = y - q by ring, div_mul_div_comm, hs]

theorem farField_nearField (p u : Wave n m) (x : ZMod n) (y : ZMod m) :
    farField (nearField p u) x y = p (x - ((n / 2 : ℕ) : ZMod n)) (y - ((m / 2 : ℕ) : ZMod m)) * farField u x y := by
  have h : ∀ w : Wave n m, ifftshift2 w = fun i j => w (i - (-((n / 2 : ℕ) : ZMod n))) (j - (-((m / 2 : ℕ) : ZMod m))) := by
    intro w; funext i j; simp [ifftshift2]
  unfold farField fftshift2
  beta_reduce
  rw [h, h, fft2_roll, fft2_roll]
  unfold nearField
  rw [fft2_ifft2]
  ring

/-- A sum over the residues is one over the integers of a period. -/
theorem sum_period (f : ZMod n → ℂ) (c : ℤ) : ∑ x, f x = ∑ p ∈ Ico (-c) (n - c), f ((p + c : ℤ) : ZMod n) := by
  refine sum_bij' (fun x _ => (x.val : ℤ) - c) (fun p _ => ((p + c : ℤ) : ZMod n)) ?_ ?_ ?_ ?_ ?_
  · intro x _
    have := x.val_lt
    rw [mem_Ico]; omega
  · intro p _; exact mem_univ _
  · intro x _
    simp
  · intro p hp
    rw [mem_Ico] at hp
    have : ((p + c : ℤ) : ZMod n) = (((p + c).toNat : ℕ) : ZMod n) := by
      rw [← Int.cast_natCast, Int.toNat_of_nonneg (by omega)]
    simp only [this]
    rw [ZMod.val_natCast_of_lt (by omega)]
    omega
  · intro x _
    simp

/-- The band of a wave of even size, zero outside. -/
theorem band_eq_zero (hn : Even n) (hm : Even m) (w : Wave n m) (p q : ℤ)
    (h : ¬ ((-(n : ℤ) ≤ 2 * p ∧ 2 * p < n) ∧ (-(m : ℤ) ≤ 2 * q ∧ 2 * q < m))) : band w p q = 0 := by
  obtain ⟨c, rfl⟩ := hn
  obtain ⟨d, rfl⟩ := hm
  unfold band
  exact if_neg fun h' => h (by omega)

theorem mod_cases (n : ℕ) [NeZero n] (d : ℤ) (h0 : -(3 * n : ℤ) < 2 * d) (h1 : 2 * d < 3 * n) :
    (((d + n : ℤ) : ZMod (2 * n)).val : ℤ) = d + n ∨
    ((((d + n : ℤ) : ZMod (2 * n)).val : ℤ) = d - n ∧ (n : ℤ) ≤ d) ∨
    ((((d + n : ℤ) : ZMod (2 * n)).val : ℤ) = d + 3 * n ∧ d < -n) := by
  rw [ZMod.val_intCast]
  push_cast
  have hpos := NeZero.pos n
  by_cases a : d < -n
  · refine Or.inr (Or.inr ⟨?_, a⟩)
    rw [← Int.add_emod_right, Int.emod_eq_of_lt (by omega) (by omega)]
    ring
  · by_cases b : (n : ℤ) ≤ d
    · refine Or.inr (Or.inl ⟨?_, b⟩)
      rw [← Int.sub_emod_right, Int.emod_eq_of_lt (by omega) (by omega)]
      ring
    · left
      exact Int.emod_eq_of_lt (by omega) (by omega)

/-- The far field of an upsampled wave, also at frequencies that wrap around once. -/
theorem farField_up (hn : Even n) (hm : Even m) (pm : Bool) (o : Wave n m) (d e : ℤ)
    (h0 : -(3 * n : ℤ) < 2 * d) (h1 : 2 * d < 3 * n) (h2 : -(3 * m : ℤ) < 2 * e) (h3 : 2 * e < 3 * m) :
    farField (fourierUpsample 2 pm o) ((d + n : ℤ) : ZMod (2 * n)) ((e + m : ℤ) : ZMod (2 * m)) =
      band o d e * (if pm then 2 else 1) := by
  have v0 := mod_cases n d h0 h1
  have v1 := mod_cases m e h2 h3
  unfold fourierUpsample
  rw [far_field_unitary.2.1]
  generalize hv : (((d + n : ℤ) : ZMod (2 * n)).val) = v at v0 ⊢
  generalize hw : (((e + m : ℤ) : ZMod (2 * m)).val) = w at v1 ⊢
  obtain ⟨c, hc⟩ := hn
  obtain ⟨c', hc'⟩ := hm
  have e0 : (2 - 1) * n / 2 = c := by omega
  have e1 : (2 - 1) * m / 2 = c' := by omega
  have e2 : n / 2 = c := by omega
  have e3 : m / 2 = c' := by omega
  simp only [e0, e1]
  unfold band
  rw [e2, e3]
  have npos := NeZero.pos n
  have mpos := NeZero.pos m
  have hiff : ((-(c : ℤ) ≤ d ∧ d < n - (c : ℤ)) ∧ (-(c' : ℤ) ≤ e ∧ e < m - (c' : ℤ))) ↔
      (c ≤ v ∧ v < c + n ∧ c' ≤ w ∧ w < c' + m) := by omega
  simp only [hiff]
  by_cases hcond : c ≤ v ∧ v < c + n ∧ c' ≤ w ∧ w < c' + m
  · rw [if_pos hcond, if_pos hcond]
    have a0 : d + (c : ℤ) = ((v - c : ℕ) : ℤ) := by omega
    have a1 : e + (c' : ℤ) = ((w - c' : ℕ) : ℤ) := by omega
    rw [a0, a1, Int.cast_natCast, Int.cast_natCast]
    simp
  · rw [if_neg hcond, if_neg hcond]
    simp

/-- A wave on the doubled grid times an upsampled slice, where nothing wraps around. -/
theorem farField_mul_up (hn : Even n) (hm : Even m) (U : Wave (2 * n) (2 * m)) (o : Wave n m) (p q : ℤ)
    (hU : ∀ p' q' : ℤ, band U p' q' = 0 ∨
      (-(3 * n : ℤ) < 2 * (p - p') ∧ 2 * (p - p') < 3 * n) ∧ (-(3 * m : ℤ) < 2 * (q - q') ∧ 2 * (q - q') < 3 * m)) :
    farField (fun i j => U i j * fourierUpsample 2 true o i j) ((p + n : ℤ) : ZMod (2 * n)) ((q + m : ℤ) : ZMod (2 * m)) =
      bandMul n m (band U) (band o) p q := by
  have e0 : (2 * n) / 2 = n := by omega
  have e1 : (2 * m) / 2 = m := by omega
  rw [farField_mul, sum_period _ (n : ℤ)]
  simp only [sum_period (n := 2 * m) _ (m : ℤ)]
  have hs := sqrt_ratio (n := n) (m := m) 2
  rw [hs]
  unfold bandMul
  have r0 : ((2 * n : ℕ) : ℤ) - n = n := by push_cast; ring
  have r1 : ((2 * m : ℕ) : ℤ) - m = m := by push_cast; ring
  rw [r0, r1]
  rw [tsum_eq_sum (s := Ico (-(n : ℤ)) n ×ˢ Ico (-(m : ℤ)) m), sum_product]
  · push_cast
    rw [← div_div]
    congr 1
    rw [eq_comm, eq_div_iff two_ne_zero, sum_mul]
    refine sum_congr rfl fun p' hp' => ?_
    rw [sum_mul]
    refine sum_congr rfl fun q' hq' => ?_
    rw [mem_Ico] at hp' hq'
    have hb : band U p' q' = farField U ((p' + n : ℤ) : ZMod (2 * n)) ((q' + m : ℤ) : ZMod (2 * m)) := by
      unfold band
      rw [e0, e1]
      exact if_pos (by push_cast; omega)
    rcases hU p' q' with h | h
    · rw [h] at hb ⊢
      push_cast at hb
      rw [← hb]
      simp
    · have hup := farField_up hn hm true o (p - p') (q - q') h.1.1 h.1.2 h.2.1 h.2.2
      rw [e0, e1, hb]
      have i0 : (((p - p') + n : ℤ) : ZMod (2 * n)) = (p : ZMod (2 * n)) + (n : ℤ) - (p' + (n : ℤ)) + (n : ℕ) := by
        push_cast; ring
      have i1 : (((q - q') + m : ℤ) : ZMod (2 * m)) = (q : ZMod (2 * m)) + (m : ℤ) - (q' + (m : ℤ)) + (m : ℕ) := by
        push_cast; ring
      rw [i0, i1] at hup
      push_cast at hup ⊢
      rw [hup]
      simp
      ring
  · intro r hr
    have : band U r.1 r.2 = 0 := by
      unfold band
      rw [e0, e1, if_neg]
      intro h
      apply hr
      rw [mem_product, mem_Ico, mem_Ico]
      push_cast at h
      omega
    rw [this, zero_mul]

theorem band_up (hn : Even n) (hm : Even m) (w : Wave n m) (p q : ℤ) :
    band (fourierUpsample 2 false w) p q = band w p q := by
  have e0 : (2 * n) / 2 = n := by omega
  have e1 : (2 * m) / 2 = m := by omega
  have npos := NeZero.pos n
  have mpos := NeZero.pos m
  by_cases h : (-(n : ℤ) ≤ p ∧ p < n) ∧ (-(m : ℤ) ≤ q ∧ q < m)
  · have := farField_up hn hm false w p q (by omega) (by omega) (by omega) (by omega)
    unfold band at this ⊢
    rw [e0, e1]
    refine (if_pos (by push_cast; omega)).trans ?_
    rw [this]
    simp
  · rw [band_eq_zero hn hm w p q (by omega)]
    unfold band
    rw [e0, e1]
    exact if_neg (by push_cast; omega)

theorem band_mul_up (hn : Even n) (hm : Even m) (U : Wave (2 * n) (2 * m)) (o : Wave n m) (p q : ℤ)
    (hp : (-(n : ℤ) ≤ p ∧ p < n) ∧ (-(m : ℤ) ≤ q ∧ q < m))
    (hU : ∀ p' q' : ℤ, band U p' q' = 0 ∨
      (-(3 * n : ℤ) < 2 * (p - p') ∧ 2 * (p - p') < 3 * n) ∧ (-(3 * m : ℤ) < 2 * (q - q') ∧ 2 * (q - q') < 3 * m)) :
    band (fun i j => U i j * fourierUpsample 2 true o i j) p q = bandMul n m (band U) (band o) p q := by
  have e0 : (2 * n) / 2 = n := by omega
  have e1 : (2 * m) / 2 = m := by omega
  rw [← farField_mul_up hn hm U o p q hU]
  unfold band
  rw [e0, e1]
  exact if_pos (by push_cast; omega)

theorem band_nearField (P U : Wave (2 * n) (2 * m)) (p q : ℤ) :
    band (nearField P U) p q = P (p : ZMod (2 * n)) (q : ZMod (2 * m)) * band U p q := by
  unfold band
  split_ifs
  · rw [farField_nearField]
    simp only [Int.cast_add, Int.cast_natCast, add_sub_cancel_right]
  · simp

theorem fftfreq_signed (p : ℤ) (h0 : -(n : ℤ) ≤ p) (h1 : p < n) : fftfreq (2 * n) (p : ZMod (2 * n)) = p / (2 * n) := by
  have npos := NeZero.pos n
  obtain ⟨q, hq, hz, h2, h3⟩ := fftfreq_spec (2 * n) (p : ZMod (2 * n))
  rw [hq]
  have : q = p := by
    rw [ZMod.intCast_eq_intCast_iff_dvd_sub] at hz
    obtain ⟨c, hc⟩ := hz
    push_cast at hc h2 h3
    have hc0 : c = 0 := by
      have a1 : p - q < 2 * n := by omega
      have a2 : -(2 * n : ℤ) < p - q := by omega
      rw [hc] at a1 a2
      have b1 : c < 1 := by
        by_contra hh
        have : 2 * (n : ℤ) * 1 ≤ 2 * n * c := mul_le_mul_of_nonneg_left (by omega) (by omega)
        omega
      have b2 : -1 < c := by
        by_contra hh
        have : 2 * (n : ℤ) * c ≤ 2 * n * (-1) := mul_le_mul_of_nonneg_left (by omega) (by omega)
        omega
      omega
    rw [hc0] at hc
    omega
  rw [this]
  push_cast
  rfl

/-- The propagator on the doubled grid at the frequencies it resolves. -/
theorem prop2_freeSpace (M : Multi2D n m N k) (h0 : 0 < M.spacing 0) (h1 : 0 < M.spacing 1) (hw : 0 < M.wavelength) (p q : ℤ)
    (hp : (-(n : ℤ) ≤ p ∧ p < n) ∧ (-(m : ℤ) ≤ q ∧ q < m)) :
    M.prop2 (p : ZMod (2 * n)) (q : ZMod (2 * m)) =
      freeSpace M.wavelength M.dz (p / (n * M.spacing 0)) (q / (m * M.spacing 1)) := by
  unfold Multi2D.prop2 angularSpectrumCall
  rw [angularSpectrum_eq _ _ _ _ (half_pos h0) (half_pos h1) hw]
  unfold freeSpace transverse2
  rw [fftfreq_signed p hp.1.1 hp.1.2, fftfreq_signed q hp.2.1 hp.2.2]
  have hn : (n : ℝ) ≠ 0 := Nat.cast_ne_zero.2 (NeZero.ne n)
  have hm : (m : ℝ) ≠ 0 := Nat.cast_ne_zero.2 (NeZero.ne m)
  have g0 : 2 * Real.pi * ((p : ℝ) / (2 * n)) / (M.spacing 0 / 2) = 2 * Real.pi * (p / (n * M.spacing 0)) := by
    field_simp
  have g1 : 2 * Real.pi * ((q : ℝ) / (2 * m)) / (M.spacing 1 / 2) = 2 * Real.pi * (q / (m * M.spacing 1)) := by
    field_simp
  rw [g0, g1]

theorem bandMul_congr (F F' G : ℤ → ℤ → ℂ) (p q : ℤ) (h : ∀ p' q', G (p - p') (q - q') = 0 ∨ F p' q' = F' p' q') :
    bandMul n m F G p q = bandMul n m F' G p q := by
  unfold bandMul
  congr 1
  refine tsum_congr fun r => ?_
  rcases h r.1 r.2 with h | h
  · rw [h, mul_zero, mul_zero]
  · rw [h]

/-- Up to two slices nothing wraps around into the detector. -/
theorem runPasses_band (hn : Even n) (hm : Even m) (tr : ℝ × ℝ) (P : Wave (2 * n) (2 * m)) (H : ℤ → ℤ → ℂ)
    (hH : ∀ p q : ℤ, (-(n : ℤ) ≤ p ∧ p < n) ∧ (-(m : ℤ) ≤ q ∧ q < m) → P (p : ZMod (2 * n)) (q : ZMod (2 * m)) = H p q)
    (os : List (Wave n m)) (hos : os.length ≤ 2) (w : Wave n m) (p q : ℤ)
    (hp : (-(n : ℤ) ≤ 2 * p ∧ 2 * p < n) ∧ (-(m : ℤ) ≤ 2 * q ∧ 2 * q < m)) :
    band (runPasses tr P (os.map fun o => (⟨false, fourierUpsample 2 true o⟩ : Pass (2 * n) (2 * m)))
      (fourierUpsample 2 false w)) p q = bandPasses H os (band w) p q := by
  have one : ∀ (o : Wave n m) (p q : ℤ), (-(n : ℤ) ≤ p ∧ p < n) ∧ (-(m : ℤ) ≤ q ∧ q < m) →
      band (fun i j => fourierUpsample 2 false w i j * fourierUpsample 2 true o i j) p q =
        bandMul n m (band w) (band o) p q := by
    intro o p q hp
    rw [band_mul_up hn hm _ _ p q hp]
    · congr 1
      funext p' q'
      exact band_up hn hm w p' q'
    · intro p' q'
      rw [band_up hn hm]
      by_cases h : (-(n : ℤ) ≤ 2 * p' ∧ 2 * p' < n) ∧ (-(m : ℤ) ≤ 2 * q' ∧ 2 * q' < m)
      · right; omega
      · left; exact band_eq_zero hn hm w p' q' h
  match os, hos with
  | [], _ => exact band_up hn hm w p q
  | [o], _ =>
    have : (fun i j => fourierUpsample 2 false w i j * fourierUpsample 2 true o i j) =
        runPasses tr P [⟨false, fourierUpsample 2 true o⟩] (fourierUpsample 2 false w) := by
      simp [runPasses, Pass.run]
    simp only [List.map_cons, List.map_nil, bandPasses]
    rw [← this]
    exact one o p q (by omega)
  | [o, o'], _ =>
    have e : runPasses tr P [⟨false, fourierUpsample 2 true o⟩, ⟨false, fourierUpsample 2 true o'⟩] (fourierUpsample 2 false w) =
        fun i j => nearField P (fun i j => fourierUpsample 2 false w i j * fourierUpsample 2 true o i j) i j *
          fourierUpsample 2 true o' i j := by
      simp [runPasses, Pass.run]
    simp only [List.map_cons, List.map_nil, bandPasses]
    rw [e, band_mul_up hn hm _ _ p q (by omega)]
    · refine bandMul_congr _ _ _ p q fun p' q' => ?_
      by_cases h : (-(n : ℤ) ≤ p' ∧ p' < n) ∧ (-(m : ℤ) ≤ q' ∧ q' < m)
      · right
        rw [band_nearField, hH p' q' h, one o p' q' h]
      · left
        exact band_eq_zero hn hm o' _ _ (by omega)
    · intro p' q'
      by_cases h : (-(n : ℤ) ≤ p' ∧ p' < n) ∧ (-(m : ℤ) ≤ q' ∧ q' < m)
      · right; omega
      · left
        unfold band
        have e0 : (2 * n) / 2 = n := by omega
        have e1 : (2 * m) / 2 = m := by omega
        rw [e0, e1]
        exact if_neg (by push_cast; omega)

/-- The slices are read at the rounded position and upsampled. -/
theorem pass2_windows (M : Multi2D n m N k) (hsub : M.subpixel = false) (sl : List (Img ℂ)) (tr : ℝ × ℝ) (s r : ℕ)
    (hs : roundHalfEven tr.1 = s) (hr : roundHalfEven tr.2 = r) (hin : ∀ o ∈ sl, s + n ≤ o.h ∧ r + m ≤ o.w) :
    sl.zipIdx.mapM (M.pass2 tr) = .ok ((sl.map fun o => sliceWindow (M.transmission o) s r).map fun o =>
      (⟨false, fourierUpsample 2 true o⟩ : Pass (2 * n) (2 * m))) := by
  have key : ∀ o ∈ sl.zipIdx, M.pass2 tr o =
      .ok (⟨false, fourierUpsample 2 true (sliceWindow (M.transmission o.1) s r)⟩ : Pass (2 * n) (2 * m)) := by
    intro o ho
    have hsh := M.transmission_shape o.1
    have := hin o.1 (List.fst_mem_of_mem_zipIdx ho)
    have hw : objWindow n m (M.transmission o.1) (s : ℤ) (r : ℤ) = .ok (sliceWindow (M.transmission o.1) s r) := by
      rw [objWindow_inside ⟨by omega, by rw [hsh.1]; omega⟩ ⟨by omega, by rw [hsh.2]; omega⟩]
      simp only [Int.toNat_natCast]
      rfl
    unfold Multi2D.pass2
    rw [if_neg (by simp [hsub]), hs, hr, hw]
    rfl
  rw [mapM_ok_map _ _ _ key, List.map_map]
  congr 1
  have : (fun o : Img ℂ × ℕ => (⟨false, fourierUpsample 2 true (sliceWindow (M.transmission o.1) s r)⟩ : Pass (2 * n) (2 * m))) =
      ((fun o : Wave n m => (⟨false, fourierUpsample 2 true o⟩ : Pass (2 * n) (2 * m))) ∘
        fun o => sliceWindow (M.transmission o) s r) ∘ Prod.fst := rfl
  rw [this, ← List.map_map, List.zipIdx_map_fst]

theorem detect2_band (hn : Even n) (hm : Even m) (M : Multi2D n m N k) (tr : ℝ × ℝ) (l : List (Pass (2 * n) (2 * m)))
    (p : Wave n m) (x : ZMod n) (y : ZMod m) :
    M.detect2 tr l p x y = band (runPasses tr M.prop2 l (fourierUpsample 2 false p))
      ((x.val : ℤ) - ((n / 2 : ℕ) : ℤ)) ((y.val : ℤ) - ((m / 2 : ℕ) : ℤ)) := by
  have hx := x.val_lt
  have hy := y.val_lt
  have e0 : (2 * n) / 2 = n := by omega
  have e1 : (2 * m) / 2 = m := by omega
  obtain ⟨c, hc⟩ := hn
  obtain ⟨d, hd⟩ := hm
  unfold band Multi2D.detect2
  rw [e0, e1]
  refine Eq.trans ?_ (if_pos (by push_cast; omega)).symm
  have a0 : (x.val : ℤ) - ((n / 2 : ℕ) : ℤ) + (n : ℤ) = ((n / 2 + x.val : ℕ) : ℤ) := by omega
  have a1 : (y.val : ℤ) - ((m / 2 : ℕ) : ℤ) + (m : ℤ) = ((m / 2 + y.val : ℕ) : ℤ) := by omega
  rw [a0, a1, Int.cast_natCast, Int.cast_natCast]

/-- **C85** (aliasing prevention, without subpixel shifts): for probes of even size and at most two slices, read inside at the
rounded position, the pattern shows, at every pixel `(x, y)`, the amplitude at the frequency `(x - n//2, y - m//2)` of the product of the continuous
waves, propagated by free space between the slices. No frequency wraps around. -/
theorem multi2D_no_aliasing (M : Multi2D n m N k) (W : Weights N k) (hW : M.weights = some W)
    (hp : M.preventAliasing = true) (hsub : M.subpixel = false) (sl : List (Img ℂ)) (hsl : M.slices = .ok sl)
    (htwo : sl.length ≤ 2) (hn : Even n) (hm : Even m) (h0 : 0 < M.spacing 0) (h1 : 0 < M.spacing 1) (hw : 0 < M.wavelength)
    (idx : Fin N) (t : Fin 3 → ℝ) (s r : ℕ) (hs : roundHalfEven (M.pixTrans idx t 0) = s)
    (hr : roundHalfEven (M.pixTrans idx t 1) = r) (hin : ∀ o ∈ sl, s + n ≤ o.h ∧ r + m ≤ o.w) :
    M.forward idx t = .ok (M.record fun x y => ∑ u, ‖bandPasses
      (fun p q => freeSpace M.wavelength M.dz (p / (n * M.spacing 0)) (q / (m * M.spacing 1)))
      (sl.map fun o => (sliceWindow (M.transmission o) s r : Wave n m)) (band (M.incident W idx u))
      ((x.val : ℤ) - ((n / 2 : ℕ) : ℤ)) ((y.val : ℤ) - ((m / 2 : ℕ) : ℤ))‖ ^ 2) := by
  rw [M.forward_doubled W hW hp sl hsl idx t _ (pass2_windows M hsub sl _ s r hs hr hin)]
  refine congrArg (fun I => Except.ok (M.record I)) (funext fun x => funext fun y => sum_congr rfl fun u _ => ?_)
  rw [detect2_band hn hm, runPasses_band hn hm]
  · intro p q hpq
    exact prop2_freeSpace M h0 h1 hw p q hpq
  · rw [List.length_map]; exact htwo
  · have hx := x.val_lt
    have hy := y.val_lt
    obtain ⟨c, hc⟩ := hn
    obtain ⟨d, hd⟩ := hm
    omega

/-! ### The specification is that of continuous waves -/

/-- The continuous wave of a sampled one agrees with it at the samples. -/
theorem bandField_samples (w : Wave n m) (i : ZMod n) (j : ZMod m) :
    bandField n m (band w) ((i.val : ℝ) - (n / 2 : ℕ)) ((j.val : ℝ) - (m / 2 : ℕ)) = w i j := by
  have hinv := congrFun (congrFun ((far_field_unitary (n := n) (m := m)).1 w) i) j
  unfold inverseFarField fftshift2 at hinv
  beta_reduce at hinv
  rw [ifft2_eq] at hinv
  have hs : (Real.sqrt (n * m) : ℂ) * Real.sqrt (n * m) = n * m := by
    rw [← Complex.ofReal_mul, Real.mul_self_sqrt (by positivity)]; push_cast; rfl
  have hne : (Real.sqrt (n * m) : ℂ) ≠ 0 := sqrt_size_ne
  unfold bandField
  rw [div_eq_iff hne]
  nth_rw 1 [← hinv]
  rw [mul_assoc (_ / _), hs, div_mul_cancel₀ _ (by rw [← hs]; exact mul_ne_zero hne hne)]
  rw [tsum_eq_sum (s := Ico (-((n / 2 : ℕ) : ℤ)) (n - ((n / 2 : ℕ) : ℤ)) ×ˢ Ico (-((m / 2 : ℕ) : ℤ)) (m - ((m / 2 : ℕ) : ℤ))), sum_product]
  · rw [← Equiv.sum_comp (Equiv.subRight ((n / 2 : ℕ) : ZMod n)), sum_period _ ((n / 2 : ℕ) : ℤ)]
    refine sum_congr rfl fun p hp => ?_
    rw [← Equiv.sum_comp (Equiv.subRight ((m / 2 : ℕ) : ZMod m)), sum_period _ ((m / 2 : ℕ) : ℤ)]
    refine sum_congr rfl fun q hq => ?_
    rw [mem_Ico] at hp hq
    have hb : band w p q = farField w ((p + ((n / 2 : ℕ) : ℤ) : ℤ) : ZMod n) ((q + ((m / 2 : ℕ) : ℤ) : ℤ) : ZMod m) := by
      unfold band
      exact if_pos ⟨hp, hq⟩
    rw [hb]
    simp only [Equiv.subRight_apply, ifftshift2, sub_add_cancel]
    have c0 : ∀ {n : ℕ} [NeZero n] (i : ZMod n) (p : ℤ), (stdAddChar ((i - ((n / 2 : ℕ) : ZMod n)) *
        (((p + ((n / 2 : ℕ) : ℤ) : ℤ) : ZMod n) - ((n / 2 : ℕ) : ZMod n))) : ℂ) =
        Complex.exp (2 * Real.pi * Complex.I * (((((i.val : ℝ) - (n / 2 : ℕ) : ℝ) : ℂ) * p) / n)) := by
      intro n _ i p
      generalize n / 2 = c
      rw [Int.cast_add, Int.cast_natCast, add_sub_cancel_right]
      have h := ZMod.toCircle_intCast (N := n) (((i.val : ℤ) - (c : ℤ)) * p)
      rw [stdAddChar_apply, show (i - (c : ZMod n)) * (p : ZMod n) =
        (((((i.val : ℤ) - (c : ℤ)) * p : ℤ)) : ZMod n) by
        rw [Int.cast_mul, Int.cast_sub, Int.cast_natCast, Int.cast_natCast]; simp, h]
      congr 1
      push_cast
      ring
    rw [c0, c0, ← Complex.exp_add, mul_comm]
    congr 2
    ring
  · intro r hr
    have : band w r.1 r.2 = 0 := by
      unfold band
      refine if_neg fun h => hr ?_
      rw [mem_product, mem_Ico, mem_Ico]
      exact h
    rw [this, zero_mul]

/-- `bandMul` gives the amplitudes of the product of continuous waves. -/
theorem bandField_mul (F G : ℤ → ℤ → ℂ) (hF : (Function.support fun r : ℤ × ℤ => F r.1 r.2).Finite)
    (hG : (Function.support fun r : ℤ × ℤ => G r.1 r.2).Finite) (s t : ℝ) :
    bandField n m (bandMul n m F G) s t = bandField n m F s t * bandField n m G s t := by
  set E : ℤ × ℤ → ℂ := fun r => Complex.exp (2 * Real.pi * Complex.I * (r.1 * s / n + r.2 * t / m)) with hE
  have hadd : ∀ r r' : ℤ × ℤ, E (r + r') = E r * E r' := by
    intro r r'
    simp only [hE]
    rw [← Complex.exp_add]
    congr 1
    rw [Prod.fst_add, Prod.snd_add]
    push_cast
    ring
  let f : ℤ × ℤ → ℂ := fun r => F r.1 r.2 * E r
  let g : ℤ × ℤ → ℂ := fun r => G r.1 r.2 * E r
  have hf : Summable f := by
    refine summable_of_hasFiniteSupport (hF.subset fun r hr => ?_)
    exact fun h => hr (by simp only [f]; rw [show F r.1 r.2 = 0 from h, zero_mul])
  have hg : Summable g := by
    refine summable_of_hasFiniteSupport (hG.subset fun r hr => ?_)
    exact fun h => hr (by simp only [g]; rw [show G r.1 r.2 = 0 from h, zero_mul])
  have hfg : Summable fun z : (ℤ × ℤ) × (ℤ × ℤ) => f z.1 * g z.2 := by
    refine summable_of_hasFiniteSupport ((hF.prod hG).subset fun z hz => ?_)
    rw [Function.mem_support] at hz
    refine ⟨fun h => hz ?_, fun h => hz ?_⟩
    · simp only [f]; rw [show F z.1.1 z.1.2 = 0 from h]; ring
    · simp only [g]; rw [show G z.2.1 z.2.2 = 0 from h]; ring
  have key : ∑' r : ℤ × ℤ, (∑' r' : ℤ × ℤ, F r'.1 r'.2 * G (r.1 - r'.1) (r.2 - r'.2)) * E r = (∑' r, f r) * ∑' r, g r := by
    rw [hf.tsum_mul_tsum hg hfg]
    let φ : (ℤ × ℤ) × (ℤ × ℤ) ≃ (ℤ × ℤ) × (ℤ × ℤ) :=
      { toFun := fun z => (z.2, z.1 - z.2), invFun := fun z => (z.1 + z.2, z.1),
        left_inv := fun z => by simp, right_inv := fun z => by simp }
    rw [← Equiv.tsum_eq φ]
    refine Eq.trans ?_ (Summable.tsum_prod (φ.summable_iff.2 hfg)).symm
    refine tsum_congr fun r => ?_
    rw [← tsum_mul_right]
    refine tsum_congr fun r' => ?_
    have := hadd r' (r - r')
    rw [add_sub_cancel] at this
    simp only [Function.comp, φ, f, g, Equiv.coe_fn_mk, Prod.fst_sub, Prod.snd_sub]
    rw [this]
    ring
  unfold bandField bandMul
  rw [div_mul_div_comm, ← key, ← div_div]
  congr 1
  rw [← tsum_div_const]
  refine tsum_congr fun r => ?_
  rw [div_mul_eq_mul_div]

/-! ### Three slices -/

/-- A wave of modulus one and of the single frequency `(-(n//2), 0)`. -/
noncomputable def ripple (n m : ℕ) [NeZero n] [NeZero m] : Wave n m :=
  inverseFarField fun x y => if x = 0 ∧ y = ((m / 2 : ℕ) : ZMod m) then (Real.sqrt (n * m) : ℂ) else 0

/-- A ripple in front of three slices with ripples, at position zero and distance zero, with aliasing prevention. -/
noncomputable def rippleModel (n m : ℕ) [NeZero n] [NeZero m] : Multi2D n m 1 1 where
  probe := fun _ => ripple n m
  probeNorm := 1
  support := fun _ _ => true
  weights := some (.perShot fun _ => 1)
  fourierProbe := false
  obj := .inl ⟨n, m, fun i j => ripple n m i j⟩
  nz := 3
  exponentiate := false
  phaseOnly := false
  subpixel := false
  preventAliasing := true
  wavelength := 1
  dz := 0
  bandlimit := none
  basis := !![0, -1; -1, 0; 0, 0]
  normal := ![0, 0, 1]
  minTranslation := ![0, 0]
  translationScale := 1
  offsets := none
  detectorSlice := none
  oversampling := 1
  background := ⟨n, m, fun _ _ => 0⟩
  saturation := none

theorem band_ripple (p q : ℤ) : band (ripple n m) p q =
    if p = -((n / 2 : ℕ) : ℤ) ∧ q = 0 then (Real.sqrt (n * m) : ℂ) else 0 := by
  have npos := NeZero.pos n
  have mpos := NeZero.pos m
  unfold band ripple
  rw [far_field_unitary.2.1]
  by_cases h : (-((n / 2 : ℕ) : ℤ) ≤ p ∧ p < n - ((n / 2 : ℕ) : ℤ)) ∧ (-((m / 2 : ℕ) : ℤ) ≤ q ∧ q < m - ((m / 2 : ℕ) : ℤ))
  · refine (if_pos h).trans ?_
    have a0 : (((p + ((n / 2 : ℕ) : ℤ) : ℤ) : ZMod n) = 0) ↔ p = -((n / 2 : ℕ) : ℤ) := by
      rw [ZMod.intCast_zmod_eq_zero_iff_dvd]
      constructor
      · intro hd
        have := Int.eq_zero_of_dvd_of_nonneg_of_lt (by omega) (by omega) hd
        omega
      · intro e; rw [e]; simp
    have a1 : (((q + ((m / 2 : ℕ) : ℤ) : ℤ) : ZMod m) = ((m / 2 : ℕ) : ZMod m)) ↔ q = 0 := by
      rw [Int.cast_add, Int.cast_natCast, add_eq_right]
      rw [ZMod.intCast_zmod_eq_zero_iff_dvd]
      constructor
      · rintro ⟨c, hc⟩
        have : c = 0 := by
          by_contra hne
          rcases lt_or_gt_of_ne hne with h' | h'
          · have : (m : ℤ) * c ≤ m * (-1) := mul_le_mul_of_nonneg_left (by omega) (by omega)
            omega
          · have : (m : ℤ) * 1 ≤ m * c := mul_le_mul_of_nonneg_left (by omega) (by omega)
            omega
        rw [hc, this, mul_zero]
      · intro e; rw [e]; simp
    simp only [a0, a1]
  · rw [if_neg h, if_neg]
    rintro ⟨rfl, rfl⟩
    omega

theorem farField_dots (u v : Wave n m) (x₁ x₂ : ZMod n) (y₁ y₂ : ZMod m) (a b : ℂ)
    (hu : farField u = fun x y => if x = x₁ ∧ y = y₁ then a else 0)
    (hv : farField v = fun x y => if x = x₂ ∧ y = y₂ then b else 0) :
    farField (fun i j => u i j * v i j) = fun x y =>
      if x = x₁ + x₂ - ((n / 2 : ℕ) : ZMod n) ∧ y = y₁ + y₂ - ((m / 2 : ℕ) : ZMod m) then a * b / Real.sqrt (n * m) else 0 := by
  funext x y
  rw [farField_mul, hu, hv]
  beta_reduce
  rw [sum_eq_single x₁ (fun p _ hp => sum_eq_zero fun q _ => by simp [hp]) (by simp),
    sum_eq_single y₁ (fun q _ hq => by simp [hq]) (by simp)]
  have a0 : (x - x₁ + ((n / 2 : ℕ) : ZMod n) = x₂) ↔ x = x₁ + x₂ - ((n / 2 : ℕ) : ZMod n) := by
    constructor <;> intro h
    · rw [← h]; ring
    · rw [h]; ring
  have a1 : (y - y₁ + ((m / 2 : ℕ) : ZMod m) = y₂) ↔ y = y₁ + y₂ - ((m / 2 : ℕ) : ZMod m) := by
    constructor <;> intro h
    · rw [← h]; ring
    · rw [h]; ring
  simp only [a0, a1, and_self, if_true]
  split_ifs
  · rfl
  · simp

theorem bandMul_dots (p₁ p₂ q₁ q₂ : ℤ) (a b : ℂ) :
    bandMul n m (fun p q => if p = p₁ ∧ q = q₁ then a else 0) (fun p q => if p = p₂ ∧ q = q₂ then b else 0) =
      fun p q => if p = p₁ + p₂ ∧ q = q₁ + q₂ then a * b / Real.sqrt (n * m) else 0 := by
  funext p q
  unfold bandMul
  rw [tsum_eq_single (p₁, q₁)]
  · have a0 : (p - p₁ = p₂) ↔ p = p₁ + p₂ := by omega
    have a1 : (q - q₁ = q₂) ↔ q = q₁ + q₂ := by omega
    simp only [a0, a1, and_self, if_true]
    split_ifs
    · rfl
    · simp
  · intro r hr
    beta_reduce
    rw [if_neg (fun h => hr (Prod.ext h.1 h.2)), zero_mul]

theorem farField_up_ripple (hn : Even n) (hm : Even m) (pm : Bool) :
    farField (fourierUpsample 2 pm (ripple n m)) = fun x y =>
      if x = ((n / 2 : ℕ) : ZMod (2 * n)) ∧ y = ((m : ℕ) : ZMod (2 * m)) then
        (Real.sqrt (n * m) : ℂ) * (if pm then 2 else 1) else 0 := by
  funext x y
  have hx := x.val_lt
  have hy := y.val_lt
  have npos := NeZero.pos n
  have mpos := NeZero.pos m
  have h := farField_up hn hm pm (ripple n m) ((x.val : ℤ) - n) ((y.val : ℤ) - m) (by omega) (by omega) (by omega) (by omega)
  rw [sub_add_cancel, sub_add_cancel, Int.cast_natCast, Int.cast_natCast, ZMod.natCast_zmod_val, ZMod.natCast_zmod_val,
    band_ripple] at h
  rw [h]
  obtain ⟨c, hc⟩ := hn
  have a0 : x = ((n / 2 : ℕ) : ZMod (2 * n)) ↔ (x.val : ℤ) - n = -((n / 2 : ℕ) : ℤ) := by
    rw [← (ZMod.val_injective (2 * n)).eq_iff, ZMod.val_natCast_of_lt (by omega)]
    omega
  have a1 : y = ((m : ℕ) : ZMod (2 * m)) ↔ (y.val : ℤ) - m = 0 := by
    rw [← (ZMod.val_injective (2 * m)).eq_iff, ZMod.val_natCast_of_lt (by omega)]
    omega
  simp only [a0, a1]
  split_ifs <;> simp

theorem ripple_pos : (rippleModel n m).pixTrans 0 0 = ![0, 0] := by
  unfold Multi2D.pixTrans
  simp only [rippleModel, translationsToPixel, Matrix.mulVec_zero]
  funext i; fin_cases i <;> simp

/-- **C85, violated part**: with three slices the aliasing prevention does not prevent aliasing. A ripple of the lowest frequency
`-n/2` that passes three slices with the same ripple has the frequency `-2n`, far outside the detector; the model records its whole
power `n m` in the center of the detector. -/
theorem multi2D_three_slices_violated (hn : Even n) (hm : Even m) :
    ∃ (sl : List (Img ℂ)) (I : ZMod n → ZMod m → ℝ), (rippleModel n m).slices = .ok sl ∧ sl.length = 3 ∧
      (rippleModel n m).forward 0 0 = .ok ((rippleModel n m).record I) ∧
      I ((n / 2 : ℕ) : ZMod n) ((m / 2 : ℕ) : ZMod m) = n * m ∧
      ∀ H, bandPasses H (sl.map fun o => (sliceWindow ((rippleModel n m).transmission o) 0 0 : Wave n m))
        (band ((rippleModel n m).incident (.perShot fun _ => 1) 0 0)) 0 0 = 0 := by
  have npos := NeZero.pos n
  have mpos := NeZero.pos m
  have hne : (Real.sqrt (n * m) : ℂ) ≠ 0 := sqrt_size_ne
  let o : Img ℂ := ⟨n, m, fun i j => ripple n m i j⟩
  have hwin : (sliceWindow ((rippleModel n m).transmission o) 0 0 : Wave n m) = ripple n m := by
    funext x y
    simp [sliceWindow, Multi2D.transmission, rippleModel, o]
  have hinc : (rippleModel n m).incident (.perShot fun _ => 1) 0 0 = ripple n m := by
    funext x y
    simp [Multi2D.incident, rippleModel, Multi2D.realSpace, shotProbes]
  have hr0 : roundHalfEven 0 = 0 := by simpa using roundHalfEven_int 0
  have hpos := ripple_pos (n := n) (m := m)
  have h2 := sqrt_ratio (n := n) (m := m) 2
  refine ⟨[o, o, o], _, rfl, rfl, (rippleModel n m).forward_doubled (.perShot fun _ => 1) rfl rfl [o, o, o] rfl 0 0 _
    (pass2_windows _ rfl _ _ 0 0 (by rw [hpos]; simpa using hr0) (by rw [hpos]; simpa using hr0) ?_), ?_, ?_⟩
  · intro o' ho'
    simp only [List.mem_cons, List.not_mem_nil, or_false, or_self] at ho'
    subst ho'
    simp [o]
  · have hprop : (rippleModel n m).prop2 = fun _ _ => 1 := by
      funext x y
      unfold Multi2D.prop2 angularSpectrumCall
      have hs : ∀ c, (rippleModel n m).spacing c = 1 := by
        intro c; fin_cases c <;> simp [Multi2D.spacing, rippleModel]
      rw [hs, hs, angularSpectrum_eq _ _ _ _ (by norm_num) (by norm_num) (by simp [rippleModel])]
      simp [rippleModel]
    have hnear : ∀ w : Wave (2 * n) (2 * m), nearField (fun _ _ => 1) w = w := by
      intro w
      unfold nearField
      simp only [one_mul]
      exact ifft2_fft2 w
    have f0 := farField_up_ripple hn hm false
    have f1 := farField_up_ripple hn hm true
    have g1 := farField_dots _ _ _ _ _ _ _ _ f0 f1
    have g2 := farField_dots _ _ _ _ _ _ _ _ g1 f1
    have g3 := farField_dots _ _ _ _ _ _ _ _ g2 f1
    have hone : ∀ u : Fin (Weights.perShot fun _ => 1 : Weights 1 1).rank, u = (0 : Fin 1) :=
      fun u => Subsingleton.elim (α := Fin 1) u 0
    rw [Fintype.sum_eq_single (0 : Fin 1) (fun u hu => (hu (hone u)).elim), hinc]
    unfold Multi2D.detect2
    rw [hprop]
    simp only [List.map_cons, List.map_nil, hwin, runPasses, Pass.run, Bool.false_eq_true, if_false, hnear]
    rw [ZMod.val_natCast_of_lt (by omega), ZMod.val_natCast_of_lt (by omega), g3]
    have e0 : (2 * n) / 2 = n := by omega
    have e1 : (2 * m) / 2 = m := by omega
    have i0 : ((n / 2 + n / 2 : ℕ) : ZMod (2 * n)) = ((n / 2 : ℕ) : ZMod (2 * n)) + ((n / 2 : ℕ) : ZMod (2 * n)) - (n : ZMod (2 * n)) + ((n / 2 : ℕ) : ZMod (2 * n)) -
        (n : ZMod (2 * n)) + ((n / 2 : ℕ) : ZMod (2 * n)) - (n : ZMod (2 * n)) := by
      have hz : ((2 * n : ℕ) : ZMod (2 * n)) = 0 := ZMod.natCast_self _
      obtain ⟨c, hc⟩ := hn
      have hd : n / 2 = c := by omega
      rw [hd]
      have hc2 : (n : ZMod (2 * n)) = (c : ZMod (2 * n)) + c := by
        have := congrArg (Nat.cast : ℕ → ZMod (2 * n)) hc
        rw [Nat.cast_add] at this
        exact this
      rw [Nat.cast_mul, hc2] at hz
      rw [Nat.cast_add, hc2]
      push_cast at hz
      linear_combination hz
    have i1 : ((m / 2 + m / 2 : ℕ) : ZMod (2 * m)) = (m : ZMod (2 * m)) + m - m + m - m + m - m := by
      obtain ⟨c, hc⟩ := hm
      have : m / 2 + m / 2 = m := by omega
      rw [this]; ring
    rw [e0, e1]
    beta_reduce
    rw [if_pos ⟨i0, i1⟩]
    rw [h2]
    have hA : (Real.sqrt (n * m) : ℂ) * Real.sqrt (n * m) = n * m := by
      rw [← Complex.ofReal_mul, Real.mul_self_sqrt (by positivity)]; push_cast; rfl
    have : (Real.sqrt (n * m) : ℂ) * (if (false : Bool) = true then 2 else 1) * (Real.sqrt (n * m) * (if true = true then 2 else 1)) /
        ((((2 : ℕ) : ℝ) * Real.sqrt (n * m) : ℝ) : ℂ) * (Real.sqrt (n * m) * (if true = true then 2 else 1)) /
        ((((2 : ℕ) : ℝ) * Real.sqrt (n * m) : ℝ) : ℂ) * (Real.sqrt (n * m) * (if true = true then 2 else 1)) /
        ((((2 : ℕ) : ℝ) * Real.sqrt (n * m) : ℝ) : ℂ) = Real.sqrt (n * m) := by
      push_cast
      simp only [if_pos, Bool.false_eq_true, reduceIte]
      field_simp
    rw [this, Complex.norm_real, Real.norm_eq_abs, sq_abs, Real.sq_sqrt (by positivity)]
  · intro H
    simp only [List.map_cons, List.map_nil, bandPasses]
    rw [hinc, hwin]
    have hb : band (ripple n m) = fun p q => if p = -((n / 2 : ℕ) : ℤ) ∧ q = 0 then (Real.sqrt (n * m) : ℂ) else 0 := by
      funext p q; exact band_ripple p q
    have hH : ∀ (p₁ q₁ : ℤ) (a : ℂ), (fun p q => H p q * (if p = p₁ ∧ q = q₁ then a else 0)) =
        fun p q => if p = p₁ ∧ q = q₁ then H p₁ q₁ * a else 0 := by
      intro p₁ q₁ a
      funext p q
      split_ifs with h
      · rw [h.1, h.2]
      · rw [mul_zero]
    rw [hb, bandMul_dots, hH, bandMul_dots, hH, bandMul_dots]
    obtain ⟨c, hc⟩ := hn
    exact if_neg (by omega)

/-- The toy model with two slices meets the hypotheses of `multi2D_no_aliasing`. -/
example : ∃ Q, (toyMulti2D true false).forward 0 0 = .ok Q := by
  have h0 := congrFun (toyMulti2D_pos true false) 0
  have h1 := congrFun (toyMulti2D_pos true false) 1
  have hr : roundHalfEven 0 = 0 := by simpa using roundHalfEven_int 0
  refine ⟨_, multi2D_no_aliasing _ _ rfl rfl rfl _ (toyMulti2D_slices _ _) (by simp) (by decide) (by decide)
    (by simp [Multi2D.spacing, toyMulti2D]) (by simp [Multi2D.spacing, toyMulti2D]) (by simp [toyMulti2D]) 0 0 0 0
    (by rw [h0]; simpa using hr) (by rw [h1]; simpa using hr) ?_⟩
  intro o ho
  simp only [List.mem_cons, List.not_mem_nil, or_false, or_self] at ho
  subst ho; simp

end Cdtools
