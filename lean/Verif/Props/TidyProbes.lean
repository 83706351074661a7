/-
**C62**: `FancyPtycho.tidy_probes` changes the representation of the light field, not the light field;
`get_probe_intensities` reports the power of every exposure.
-/
import Verif.Lemmas.FancyLinear

set_option linter.unusedSectionVars false

namespace Cdtools
open Finset Matrix

variable {n m a b N k : ℕ} [NeZero n] [NeZero m] [NeZero a] [NeZero b]

/-! ### Specification -/

/-- The inner product of two waves. -/
noncomputable def waveInner (v w : Wave n m) : ℂ := ∑ x, ∑ y, v x y * star (w x y)

/-- The power of an incoherent stack of modes. -/
noncomputable def stackPower (P : Fin k → Wave n m) : ℝ := ∑ i, power (P i)

/-- The light field of one exposure: the modes, as stored (before the support and the Fourier transform
of a Fourier-space probe). -/
noncomputable def Fancy.lightField (M : Fancy n m a b N k) (idx : Fin N) : Fin M.weights.rank → Wave n m :=
  shotProbes M.weights idx M.probe

/-! ### Proofs -/

/-- Flattened field of one exposure. -/
theorem flatten2_shot_matrices {r : ℕ} (W : Fin N → Matrix (Fin r) (Fin k) ℂ) (P : Fin k → Wave n m) (idx : Fin N) :
    flatten2 (shotProbes (.matrices r W) idx P) = W idx * flatten2 P := by
  funext i s
  exact (mul_apply (M := W idx) (N := flatten2 P) (i := i) (k := s)).symm

theorem flatten2_shot_perShot (w : Fin N → ℝ) (P : Fin k → Wave n m) (idx : Fin N) :
    flatten2 (shotProbes (.perShot w) idx P) = (w idx : ℂ) • flatten2 P := rfl

theorem coherence_smul {x l : ℕ} (c : ℂ) (P : Matrix (Fin l) (Fin x) ℂ) :
    mutualCoherence (c • P) = (star c * c) • mutualCoherence P := by
  funext u v
  simp only [mutualCoherence, Matrix.smul_apply, Pi.smul_apply, smul_eq_mul, star_mul', mul_sum]
  exact sum_congr rfl fun i _ => by ring

theorem coherence_mul {x l p : ℕ} (A : Matrix (Fin p) (Fin l) ℂ) (E : Matrix (Fin l) (Fin x) ℂ) :
    mutualCoherence (A * E) = Eᴴ * (Aᴴ * A) * E := by
  rw [mutualCoherence_eq, conjTranspose_mul]
  show _ = Eᴴ * (Aᴴ * A) * E
  simp only [Matrix.mul_assoc]

/-- Pulling the weights through the transformation of the basis to real space. -/
theorem Fancy.shot_basis (M : Fancy n m a b N k) (idx : Fin N) :
    shotProbes M.weights idx M.basisProbes = fun i => M.realSpace (M.lightField idx i) := by
  unfold Fancy.lightField
  have hl := M.isLinear_realSpace
  cases M.weights with
  | perShot w =>
    funext j
    have : shotProbes (.perShot w) idx M.probe j = (w idx : ℂ) • M.probe j := rfl
    rw [this, hl.map_smul]
    rfl
  | matrices r W =>
    funext i
    have : shotProbes (.matrices r W) idx M.probe i = fun x y => ∑ j ∈ univ, W idx i j * M.probe j x y := rfl
    rw [this, isLinear_sum hl]
    rfl

theorem listSum_ofFn {l : ℕ} (f : Fin l → (ℕ → ℕ → ℂ)) (i j : ℕ) :
    ((List.ofFn f).map fun ψ => ‖ψ i j‖ ^ 2).sum = ∑ u, ‖f u i j‖ ^ 2 := by
  rw [List.map_ofFn, List.sum_ofFn]; rfl

/-- The simulated pattern depends on the modes only through the mutual coherence of the light field. -/
theorem forward_of_coherence {k' : ℕ} (M : Fancy n m a b N k) (P : Fin k' → Wave n m) (W : Weights N k')
    (idx : Fin N) (t : Fin 3 → ℝ)
    (h : mutualCoherence (flatten2 (shotProbes W idx P)) = mutualCoherence (flatten2 (M.lightField idx))) :
    (M.withProbe P W).forward idx t = M.forward idx t := by
  have h1 := M.shot_basis idx
  have h2 := (M.withProbe P W).shot_basis idx
  unfold Fancy.forward
  rw [h1, h2]
  have hp : (M.withProbe P W).pixTrans idx t = M.pixTrans idx t := rfl
  have ht : (M.withProbe P W).transmission = M.transmission := rfl
  have hcond : ((M.withProbe P W).simulateTranslation = true ∧ (M.withProbe P W).fourierShifts = none) =
      (M.simulateTranslation = true ∧ M.fourierShifts = none) := rfl
  simp only [hp, ht, hcond]
  congr 2
  funext sel
  have hd : (M.withProbe P W).toDetector idx t sel = M.toDetector idx t sel := rfl
  have hr : (M.withProbe P W).realSpace = M.realSpace := rfl
  rw [hd, hr]
  have hs : sumModes a b (List.ofFn fun i => fun x y => M.toDetector idx t sel
        (M.realSpace ((M.withProbe P W).lightField idx i)) x y) =
      sumModes a b (List.ofFn fun i => fun x y => M.toDetector idx t sel (M.realSpace (M.lightField idx i)) x y) := by
    unfold sumModes
    congr 1
    funext x y
    rw [listSum_ofFn, listSum_ofFn]
    exact sum_modes_of_coherence (isLinear_comp (M.isLinear_toDetector idx t sel) M.isLinear_realSpace) h x y
  rw [hs]
  rfl

theorem power_eq_modePower (P : Fin k → Wave n m) (i : Fin k) : power (P i) = modePower (flatten2 P) i := by
  unfold power modePower flatten2
  exact (sum_flat fun x y => ‖P i x y‖ ^ 2).symm

theorem waveInner_eq (P : Fin k → Wave n m) (i j : Fin k) :
    waveInner (P i) (P j) = (flatten2 P * (flatten2 P)ᴴ) i j := by
  rw [mul_apply]
  exact (sum_flat fun x y => P i x y * star (P j x y)).symm

theorem sqrtIntensities_sq (P : Fin k → Wave n m) (i : Fin k) : sqrtIntensities P i ^ 2 = power (P i) :=
  Real.sq_sqrt (sum_nonneg fun _ _ => sum_nonneg fun _ _ => by positivity)

theorem power_eq_inner (w : Wave n m) : (power w : ℂ) = waveInner w w := by
  unfold power waveInner
  push_cast
  exact sum_congr rfl fun x _ => sum_congr rfl fun y _ => by rw [← Complex.mul_conj']; rfl

/-- Orthogonal rows with norms `σ`. -/
theorem gram_of_orthogonal (P : Fin k → Wave n m) (h : ∀ i j, i ≠ j → waveInner (P i) (P j) = 0) :
    flatten2 P * (flatten2 P)ᴴ = diagonal (fun i => ((sqrtIntensities P i : ℂ)) ^ 2) := by
  ext i j
  rw [← waveInner_eq, diagonal_apply]
  split_ifs with hij
  · subst hij
    rw [← power_eq_inner, ← sqrtIntensities_sq]
    push_cast; rfl
  · exact h i j hij

section Shot
variable (la : LinAlg) {r : ℕ} (P : Fin k → Wave n m) (W : Matrix (Fin r) (Fin k) ℂ)

/-- The per-exposure step keeps the coherence and orthogonalizes. -/
theorem tidyShot_correct (hP : ∀ i j, i ≠ j → waveInner (P i) (P j) = 0) (hσ : ∀ i, sqrtIntensities P i ≠ 0) :
    mutualCoherence (tidyShot la (sqrtIntensities P) W * flatten2 P) = mutualCoherence (W * flatten2 P) ∧
    ∀ i j, i ≠ j → ((tidyShot la (sqrtIntensities P) W * flatten2 P) *
      (tidyShot la (sqrtIntensities P) W * flatten2 P)ᴴ) i j = 0 := by
  set σ := sqrtIntensities P with hσd
  set D : Matrix (Fin k) (Fin k) ℂ := diagonal fun i => (σ i : ℂ) with hD
  set Di : Matrix (Fin k) (Fin k) ℂ := diagonal fun i => ((σ i : ℂ))⁻¹ with hDi
  have hne : ∀ i, (σ i : ℂ) ≠ 0 := fun i => by exact_mod_cast hσ i
  have hWD : (Matrix.of fun i j => W i j * (σ j : ℂ)) = W * D := by
    ext i j; rw [hD, mul_diagonal]; rfl
  have hs := la.svd_spec (W * D)
  set U := (la.svd (W * D)).1
  set S := (la.svd (W * D)).2.1
  set V := (la.svd (W * D)).2.2
  have hT : tidyShot la σ W = scaleRows S V * Di := by
    ext i j
    rw [hDi, mul_diagonal]
    simp only [tidyShot, hWD, Matrix.of_apply, scaleRows]
    rw [div_eq_mul_inv, mul_assoc]
  have hDDi : D * Di = 1 := by
    rw [hD, hDi, diagonal_mul_diagonal]
    simp [hne]
  have hg : flatten2 P * (flatten2 P)ᴴ = D * D := by
    rw [gram_of_orthogonal P hP, hD, diagonal_mul_diagonal]
    congr 1; funext i; rw [sq]
  have hDh : Diᴴ = Di := by
    rw [hDi, diagonal_conjTranspose]
    congr 1; funext i
    simp
  obtain ⟨h1, h2, h3, _⟩ := svd_modes hs
  -- the normalized modes
  set E := Di * flatten2 P with hE
  have hDE : D * E = flatten2 P := by rw [hE, ← Matrix.mul_assoc, hDDi, Matrix.one_mul]
  have hDiD : Di * D = 1 := by
    rw [hD, hDi, diagonal_mul_diagonal]
    simp [hne]
  have hEE : E * Eᴴ = 1 := by
    rw [hE, conjTranspose_mul, hDh, Matrix.mul_assoc, ← Matrix.mul_assoc (flatten2 P), hg,
      Matrix.mul_assoc D, hDDi, Matrix.mul_one, hDiD]
  have hTP : tidyShot la σ W * flatten2 P = scaleRows S V * E := by rw [hT, Matrix.mul_assoc]
  have hWP : W * flatten2 P = (W * D) * E := by rw [Matrix.mul_assoc, hDE]
  refine ⟨?_, fun i j hij => ?_⟩
  · have h2' : (scaleRows S V)ᴴ * scaleRows S V = (W * D)ᴴ * (W * D) := by
      have := h2
      rwa [mutualCoherence_eq, mutualCoherence_eq] at this
    rw [hTP, hWP, coherence_mul, coherence_mul, h2']
  · rw [hTP, conjTranspose_mul, Matrix.mul_assoc, ← Matrix.mul_assoc E, hEE, Matrix.one_mul, mul_apply]
    exact h3 i j hij

end Shot

theorem catWeights_apply {r : ℕ} (W : Fin N → Matrix (Fin r) (Fin k) ℂ) (idx : Fin N) (i : Fin r) (j : Fin k) :
    catWeights W (finProdFinEquiv (idx, i)) j = W idx i j := by
  unfold catWeights
  rw [Matrix.of_apply, Equiv.symm_apply_apply]

/-- What `tidy_probes` does to the basis. -/
theorem tidyBasis_correct (la : LinAlg) {r : ℕ} (hN : 0 < N) (P : Fin k → Wave n m)
    (W : Fin N → Matrix (Fin r) (Fin k) ℂ) :
    (∀ i j, i ≠ j → waveInner ((tidyBasis la P W).1 i) ((tidyBasis la P W).1 j) = 0) ∧
    (∀ idx, (tidyBasis la P W).2 idx * flatten2 (tidyBasis la P W).1 = W idx * flatten2 P) ∧
    (∀ i j, i ≤ j → power ((tidyBasis la P W).1 j) ≤ power ((tidyBasis la P W).1 i)) ∧
    (N * stackPower (tidyBasis la P W).1 = ∑ idx, stackPower (shotProbes (.matrices r W) idx P)) := by
  have ho := orthogonalize_probes_weights_correct la (flatten2 P) (catWeights W)
  set o := orthogonalizeProbesW la (flatten2 P) (catWeights W) with hod
  have hsN : (Real.sqrt N : ℂ) ≠ 0 := by
    have : Real.sqrt N ≠ 0 := Real.sqrt_ne_zero'.2 (by exact_mod_cast hN)
    exact_mod_cast this
  have hc : star (1 / (Real.sqrt N : ℂ)) = 1 / (Real.sqrt N : ℂ) := by simp
  have hq1 : flatten2 (tidyBasis la P W).1 = (1 / (Real.sqrt N : ℂ)) • o.1 :=
    flatten2_unflatten2 (n := n) (m := m) ((1 / (Real.sqrt N : ℂ)) • o.1)
  have hcc : (1 / (Real.sqrt N : ℂ)) * (1 / (Real.sqrt N : ℂ)) = 1 / N := by
    rw [div_mul_div_comm, one_mul]
    congr 1
    have : Real.sqrt N * Real.sqrt N = N := Real.mul_self_sqrt (by positivity)
    exact_mod_cast this
  have hpow : ∀ i, power ((tidyBasis la P W).1 i) = modePower o.1 i / N := by
    intro i
    rw [power_eq_modePower, hq1]
    unfold modePower
    rw [sum_div]
    refine sum_congr rfl fun s _ => ?_
    rw [Matrix.smul_apply, norm_smul, mul_pow]
    have : ‖(1 / (Real.sqrt N : ℂ))‖ ^ 2 = 1 / N := by
      rw [norm_div, norm_one, Complex.norm_real, Real.norm_eq_abs, abs_of_nonneg (Real.sqrt_nonneg _), div_pow,
        one_pow, Real.sq_sqrt (by positivity)]
    rw [this]; ring
  refine ⟨fun i j hij => ?_, fun idx => ?_, fun i j hij => ?_, ?_⟩
  · rw [waveInner_eq, hq1, mul_apply]
    have := ho.orthogonal i j hij
    have h2 : ∀ s, ((1 / (Real.sqrt N : ℂ)) • o.1) i s * ((1 / (Real.sqrt N : ℂ)) • o.1)ᴴ s j =
        ((1 / (Real.sqrt N : ℂ)) * star (1 / (Real.sqrt N : ℂ))) * (o.1 i s * star (o.1 j s)) := by
      intro s
      simp only [conjTranspose_apply, Matrix.smul_apply, smul_eq_mul, star_mul']
      ring
    simp only [h2]
    rw [← mul_sum, this, mul_zero]
  · funext i s
    rw [hq1, mul_apply]
    have h := ho.reexpressed (finProdFinEquiv (idx, i)) s
    have h2 : ∀ j, (tidyBasis la P W).2 idx i j * ((1 / (Real.sqrt N : ℂ)) • o.1) j s =
        o.2 (finProdFinEquiv (idx, i)) j * o.1 j s := by
      intro j
      have : (tidyBasis la P W).2 idx i j = (Real.sqrt N : ℂ) * o.2 (finProdFinEquiv (idx, i)) j := rfl
      rw [this, Matrix.smul_apply, smul_eq_mul]
      field_simp
    rw [sum_congr rfl fun j _ => h2 j, h, mul_apply, mul_apply]
    exact sum_congr rfl fun j _ => by rw [catWeights_apply]
  · rw [hpow, hpow]
    exact div_le_div_of_nonneg_right (ho.sorted i j hij) (by positivity)
  · unfold stackPower
    rw [sum_congr rfl fun i _ => hpow i, ← sum_div, mul_div_cancel₀ _ (by exact_mod_cast hN.ne'), ho.power,
      ← Equiv.sum_comp finProdFinEquiv, Fintype.sum_prod_type]
    refine sum_congr rfl fun idx _ => ?_
    have : ∀ i : Fin r, power (shotProbes (.matrices r W) idx P i) =
        modePower (catWeights W * flatten2 P) (finProdFinEquiv (idx, i)) := by
      intro i
      rw [power_eq_modePower (shotProbes (.matrices r W) idx P) i, flatten2_shot_matrices]
      unfold modePower
      refine sum_congr rfl fun s _ => ?_
      rw [mul_apply, mul_apply]
      simp only [catWeights_apply]
    exact (sum_congr rfl fun i _ => this i).symm

/-- `tidy_probes` keeps the coherence of every exposure. -/
theorem tidy_coherence (la : LinAlg) (M : Fancy n m a b N k) (M' : Σ k', Fancy n m a b N k')
    (h : M.tidy la = some M') (idx : Fin N) :
    ∃ (k' : ℕ) (P : Fin k' → Wave n m) (W : Weights N k'), M' = ⟨k', M.withProbe P W⟩ ∧
      mutualCoherence (flatten2 (shotProbes W idx P)) = mutualCoherence (flatten2 (M.lightField idx)) ∧
      (∀ i j, i ≠ j → waveInner (P i) (P j) = 0) ∧
      (∀ i j, i ≤ j → power (P j) ≤ power (P i)) ∧
      (∀ i j, i ≠ j → waveInner (shotProbes W idx P i) (shotProbes W idx P j) = 0) := by
  have hN : 0 < N := Fin.pos idx
  unfold Fancy.tidy at h
  unfold Fancy.lightField
  split at h
  · rename_i w hw
    obtain rfl := Option.some.inj h
    have ho := orthogonalize_probes_correct la (flatten2 M.probe)
    have hf : flatten2 (tidySimple la M.probe) = (orthogonalizeProbes la (flatten2 M.probe)).1 :=
      flatten2_unflatten2 _
    have hin : ∀ i j, i ≠ j → waveInner (tidySimple la M.probe i) (tidySimple la M.probe j) = 0 := by
      intro i j hij
      rw [waveInner_eq, hf, mul_apply]
      exact ho.orthogonal i j hij
    refine ⟨_, tidySimple la M.probe, .perShot w, rfl, ?_, hin, fun i j hij => ?_, fun i j hij => ?_⟩
    · rw [hw, flatten2_shot_perShot, flatten2_shot_perShot, coherence_smul, coherence_smul, hf]
      congr 1
      funext u v
      exact ho.coherence u v
    · rw [power_eq_modePower, power_eq_modePower, hf]
      exact ho.sorted i j hij
    · have : waveInner (shotProbes (.perShot w) idx (tidySimple la M.probe) i)
          (shotProbes (.perShot w) idx (tidySimple la M.probe) j) =
          ((w idx : ℂ) * star (w idx : ℂ)) * waveInner (tidySimple la M.probe i) (tidySimple la M.probe j) := by
        unfold waveInner
        simp only [mul_sum]
        refine sum_congr rfl fun x _ => sum_congr rfl fun y _ => ?_
        simp only [shotProbes, star_mul']
        ring
      rw [this, hin i j hij, mul_zero]
  · rename_i r W hW
    unfold tidyMatrices at h
    simp only at h
    split_ifs at h with hσ
    · obtain rfl := Option.some.inj h
      obtain ⟨h1, h2, h3, -⟩ := tidyBasis_correct la hN M.probe W
      obtain ⟨h4, h5⟩ := tidyShot_correct la (tidyBasis la M.probe W).1 ((tidyBasis la M.probe W).2 idx) h1 hσ
      refine ⟨_, (tidyBasis la M.probe W).1, .matrices _ fun i =>
        tidyShot la (sqrtIntensities (tidyBasis la M.probe W).1) ((tidyBasis la M.probe W).2 i), rfl, ?_, h1, h3,
        fun i j hij => ?_⟩
      · rw [hW, flatten2_shot_matrices, flatten2_shot_matrices, h4, h2]
      · rw [waveInner_eq, flatten2_shot_matrices]
        exact h5 i j hij
    · simp at h

/-- **C62**: `tidy_probes` does not change any simulated pattern (nor whether the simulation fails), for
every model, weight scheme, exposure and translation. -/
theorem tidy_probes_patterns (la : LinAlg) (M : Fancy n m a b N k) (M' : Σ k', Fancy n m a b N k')
    (h : M.tidy la = some M') (idx : Fin N) (t : Fin 3 → ℝ) : M'.2.forward idx t = M.forward idx t := by
  obtain ⟨k', P, W, rfl, hc, -⟩ := tidy_coherence la M M' h idx
  exact forward_of_coherence M P W idx t hc

/-- **C62**: after `tidy_probes` the basis modes are pairwise orthogonal and sorted by decreasing power, and
the modes of every exposure are pairwise orthogonal. -/
theorem tidy_probes_orthogonal (la : LinAlg) (M : Fancy n m a b N k) (M' : Σ k', Fancy n m a b N k')
    (h : M.tidy la = some M') (idx : Fin N) :
    (∀ i j, i ≠ j → waveInner (M'.2.probe i) (M'.2.probe j) = 0) ∧
    (∀ i j, i ≤ j → power (M'.2.probe j) ≤ power (M'.2.probe i)) ∧
    (∀ i j, i ≠ j → waveInner (M'.2.lightField idx i) (M'.2.lightField idx j) = 0) := by
  obtain ⟨k', P, W, rfl, -, h1, h2, h3⟩ := tidy_coherence la M M' h idx
  exact ⟨h1, h2, h3⟩

/-- **C62**: the power of the light field of every exposure is kept. -/
theorem tidy_probes_power (la : LinAlg) (M : Fancy n m a b N k) (M' : Σ k', Fancy n m a b N k')
    (h : M.tidy la = some M') (idx : Fin N) : stackPower (M'.2.lightField idx) = stackPower (M.lightField idx) := by
  obtain ⟨k', P, W, rfl, hc, -⟩ := tidy_coherence la M M' h idx
  have := total_power_of_coherence hc
  unfold stackPower
  simp only [power_eq_modePower]
  exact this

/-- **C62** (weight matrices): after `tidy_probes` the power of the basis is the mean power of the
exposures. -/
theorem tidy_probes_mean_power (la : LinAlg) (M : Fancy n m a b N k) (M' : Σ k', Fancy n m a b N k')
    (h : M.tidy la = some M') (hN : 0 < N) (hW : ∀ w, M.weights ≠ .perShot w) :
    stackPower M'.2.probe = (∑ idx, stackPower (M'.2.lightField idx)) / N := by
  have hp : ∀ idx, stackPower (M'.2.lightField idx) = stackPower (M.lightField idx) := tidy_probes_power la M M' h
  simp only [hp]
  unfold Fancy.tidy at h
  unfold Fancy.lightField
  split at h
  · rename_i w hw; exact absurd hw (hW w)
  · rename_i r W hW
    unfold tidyMatrices at h
    simp only at h
    split_ifs at h with hσ
    · obtain rfl := Option.some.inj h
      obtain ⟨-, -, -, h4⟩ := tidyBasis_correct la hN M.probe W
      have hN' : (N : ℝ) ≠ 0 := by exact_mod_cast hN.ne'
      rw [eq_div_iff hN', mul_comm, hW]
      exact h4
    · simp at h

/-- **C62** (`get_probe_intensities`): for every exposure and both weight schemes, the reported number is
the power of the exposure relative to the power of the basis. -/
theorem probe_intensities_correct (P : Fin k → Wave n m) (W : Weights N k) (i : Fin N) (hP : stackPower P ≠ 0) :
    probeIntensities P W i = stackPower (shotProbes W i P) / stackPower P := by
  cases W with
  | perShot w =>
    rw [eq_div_iff hP]
    unfold probeIntensities stackPower power
    simp only [mul_sum]
    refine sum_congr rfl fun j _ => sum_congr rfl fun x _ => sum_congr rfl fun y _ => ?_
    simp only [shotProbes]
    rw [norm_mul, mul_pow, Complex.norm_real, Real.norm_eq_abs, sq_abs]
  | matrices r V =>
    have hG : (Matrix.of fun u v => ∑ x, ∑ y, P u x y * (starRingEnd ℂ) (P v x y)) =
        flatten2 P * (flatten2 P)ᴴ := by
      ext u v
      rw [← waveInner_eq]
      rfl
    have htr : ∀ {l : ℕ} (Q : Fin l → Wave n m), trace (flatten2 Q * (flatten2 Q)ᴴ) = (stackPower Q : ℂ) := by
      intro l Q
      unfold trace stackPower
      push_cast
      refine sum_congr rfl fun u _ => ?_
      rw [diag_apply, ← waveInner_eq, ← power_eq_inner]
    unfold probeIntensities
    simp only [hG]
    have h2 : V i * (flatten2 P * (flatten2 P)ᴴ) * (V i)ᴴ =
        flatten2 (shotProbes (.matrices r V) i P) * (flatten2 (shotProbes (.matrices r V) i P))ᴴ := by
      rw [flatten2_shot_matrices, conjTranspose_mul]
      simp only [Matrix.mul_assoc]
    rw [h2, htr, htr, ← Complex.ofReal_div, Complex.ofReal_re]

/-- **C62** (weight matrices): after `tidy_probes` the probe intensities average to one. -/
theorem tidy_probes_mean_intensity (la : LinAlg) (M : Fancy n m a b N k) (M' : Σ k', Fancy n m a b N k')
    (h : M.tidy la = some M') (hN : 0 < N) (hW : ∀ w, M.weights ≠ .perShot w)
    (hlight : ∃ idx, stackPower (M.lightField idx) ≠ 0) :
    (∑ idx, probeIntensities M'.2.probe M'.2.weights idx) / N = 1 := by
  have hmean := tidy_probes_mean_power la M M' h hN hW
  have hN' : (N : ℝ) ≠ 0 := by exact_mod_cast hN.ne'
  have hnn : ∀ {l : ℕ} (Q : Fin l → Wave n m), 0 ≤ stackPower Q := fun Q =>
    sum_nonneg fun _ _ => sum_nonneg fun _ _ => sum_nonneg fun _ _ => by positivity
  have hpos : 0 < ∑ idx, stackPower (M'.2.lightField idx) := by
    obtain ⟨idx, hidx⟩ := hlight
    refine lt_of_lt_of_le (lt_of_le_of_ne (hnn (M'.2.lightField idx)) ?_)
      (single_le_sum (f := fun i => stackPower (M'.2.lightField i)) (fun i _ => hnn (M'.2.lightField i)) (mem_univ idx))
    rw [tidy_probes_power la M M' h]
    exact hidx.symm
  have hne : stackPower M'.2.probe ≠ 0 := by
    rw [hmean]; positivity
  simp only [probe_intensities_correct _ _ _ hne]
  rw [← sum_div]
  have : ∑ i, stackPower (shotProbes M'.2.weights i M'.2.probe) = N * stackPower M'.2.probe := by
    rw [hmean, mul_div_cancel₀ _ hN']; rfl
  rw [this]
  field_simp

/-! ### When it fails -/

theorem svd_rank {p q l : ℕ} {A : Matrix (Fin p) (Fin q) ℂ} {U : Matrix (Fin p) (Fin l) ℂ} {S : Fin l → ℝ}
    {V : Matrix (Fin l) (Fin q) ℂ} (h : IsSVD A U S V) :
    A.rank = Fintype.card {i // (S i : ℂ) ≠ 0} := by
  classical
  rw [← rank_diagonal]
  apply le_antisymm
  · rw [h.eq]
    exact le_trans (rank_mul_le_left _ _) (rank_mul_le_right _ _)
  · have : diagonal (fun i => (S i : ℂ)) = Uᴴ * A * Vᴴ := by
      rw [h.eq, Matrix.mul_assoc U, ← Matrix.mul_assoc Uᴴ, h.left, Matrix.one_mul, Matrix.mul_assoc, h.right,
        Matrix.mul_one]
    rw [this]
    exact le_trans (rank_mul_le_left _ _) (rank_mul_le_right _ _)

/-- **C62** (violated): `tidy_probes` divides by zero exactly when the light field of the whole experiment
does not have as many independent modes as the new basis has entries. -/
theorem tidy_probes_fails_iff (la : LinAlg) {r : ℕ} (hN : 0 < N) (P : Fin k → Wave n m)
    (W : Fin N → Matrix (Fin r) (Fin k) ℂ) :
    tidyMatrices la P W = none ↔ (catWeights W * flatten2 P).rank < min (min (N * r) k) (min (n * m) k) := by
  have hs := (product_svd_correct la (catWeights W) (flatten2 P)).1
  have hmp := (svd_modes hs).2.2.2
  have hN' : (N : ℝ) ≠ 0 := by exact_mod_cast hN.ne'
  have hσ : ∀ i, sqrtIntensities (tidyBasis la P W).1 i = 0 ↔
      ((productSvd la (catWeights W) (flatten2 P)).2.1 i : ℂ) = 0 := by
    intro i
    have h1 : sqrtIntensities (tidyBasis la P W).1 i ^ 2 =
        (1 / N) * (productSvd la (catWeights W) (flatten2 P)).2.1 i ^ 2 := by
      rw [sqrtIntensities_sq, power_eq_modePower]
      have hq1 : flatten2 (tidyBasis la P W).1 = (1 / (Real.sqrt N : ℂ)) •
          scaleRows (productSvd la (catWeights W) (flatten2 P)).2.1 (productSvd la (catWeights W) (flatten2 P)).2.2 :=
        flatten2_unflatten2 (n := n) (m := m) ((1 / (Real.sqrt N : ℂ)) • _)
      rw [hq1, ← hmp i]
      unfold modePower
      rw [mul_sum]
      refine sum_congr rfl fun s _ => ?_
      rw [Matrix.smul_apply, norm_smul, mul_pow]
      congr 1
      rw [norm_div, norm_one, Complex.norm_real, Real.norm_eq_abs, abs_of_nonneg (Real.sqrt_nonneg _), div_pow,
        one_pow, Real.sq_sqrt (by positivity)]
    rw [← sq_eq_zero_iff, h1, Complex.ofReal_eq_zero]
    simp [hN']
  rw [svd_rank hs]
  unfold tidyMatrices
  simp only
  split_ifs with hz
  · simp only [reduceCtorEq, false_iff, not_lt]
    have : Fintype.card {i // ((productSvd la (catWeights W) (flatten2 P)).2.1 i : ℂ) ≠ 0} =
        Fintype.card (Fin (min (min (N * r) k) (min (n * m) k))) :=
      Fintype.card_congr (Equiv.subtypeUnivEquiv fun i => (hσ i).not.1 (hz i))
    rw [this, Fintype.card_fin]
  · simp only [true_iff]
    push Not at hz
    obtain ⟨i, hi⟩ := hz
    have : Fintype.card {i // ((productSvd la (catWeights W) (flatten2 P)).2.1 i : ℂ) ≠ 0} <
        Fintype.card (Fin (min (min (N * r) k) (min (n * m) k))) :=
      Fintype.card_subtype_lt (x := i) (not_not.2 ((hσ i).1 hi))
    rwa [Fintype.card_fin] at this

/-- **C62** (violated): for a fresh model with fewer density-matrix modes than probe modes
(`0 < dm_rank < n_modes`), at least two exposures and no fewer pixels than modes, `tidy_probes` fails. -/
theorem tidy_probes_fresh_violated (la : LinAlg) (d : ℕ) (hd : 0 < d) (hdk : d < k) (hN : 2 ≤ N) (hk : k ≤ n * m)
    (P : Fin k → Wave n m) (W : Weights N k) (hW : initialWeights N k (some d) = .ok W) :
    ∃ V, W = .matrices d V ∧ tidyMatrices la P V = none := by
  unfold initialWeights at hW
  simp only at hW
  rw [if_pos (by omega), if_neg (by omega), if_neg (by omega), if_neg (by omega)] at hW
  simp only [Except.ok.injEq] at hW
  rw [Int.toNat_natCast] at hW
  refine ⟨_, hW.symm, ?_⟩
  rw [tidy_probes_fails_iff la (by omega)]
  refine lt_of_le_of_lt (b := d) ?_ ?_
  · refine le_trans (rank_mul_le_left _ _) ?_
    have hf : catWeights (N := N) (r := d) (k := k) (fun _ => Matrix.of fun i j => if i.val = j.val then 1 else 0) =
        (Matrix.of fun (i : Fin (N * d)) (u : Fin d) => if (finProdFinEquiv.symm i).2 = u then (1 : ℂ) else 0) *
        (Matrix.of fun (u : Fin d) (j : Fin k) => if u.val = j.val then (1 : ℂ) else 0) := by
      ext i j
      rw [mul_apply]
      simp only [catWeights, Matrix.of_apply, ite_mul, one_mul, zero_mul]
      rw [Finset.sum_ite_eq]
      simp
    rw [hf]
    refine le_trans (rank_mul_le_left _ _) ?_
    have := rank_le_width (R := ℂ) (m := N * d) (n := d) (Matrix.of fun i u => if (finProdFinEquiv.symm i).2 = u then (1 : ℂ) else 0)
    exact this
  · have : 2 * d ≤ N * d := Nat.mul_le_mul_right d hN
    omega

end Cdtools
