import Verif.Spec.Reconstructor
import Verif.Lemmas.Chunks

namespace Cdtools

set_option linter.unusedSectionVars false

variable {Θ I P S R : Type} [NormedAddCommGroup Θ] [NormedSpace ℝ Θ]

theorem Physics.DataAdditive.chunkLoss_append {ph : Physics Θ I P S R} (h : ph.DataAdditive)
    {i i' : List I} {p p' : List P} (hl : i.length = p.length) (hl' : i'.length = p'.length) :
    ph.chunkLoss (i ++ i') (p ++ p') = fun θ => ph.chunkLoss i p θ + ph.chunkLoss i' p' θ := by
  funext θ
  unfold Physics.chunkLoss
  rw [h.forward_append, h.loss_append _ _ _ _ (by rw [h.forward_length, hl])
    (by rw [h.forward_length, hl'])]

theorem Physics.DataAdditive.chunkLoss_nil {ph : Physics Θ I P S R} (h : ph.DataAdditive) :
    ph.chunkLoss [] [] = fun _ => 0 := by
  funext θ
  have := congrFun (h.chunkLoss_append (i := []) (i' := []) (p := []) (p' := []) rfl rfl) θ
  simp only [List.append_nil] at this
  linarith

theorem Physics.DataAdditive.differentiableAt {ph : Physics Θ I P S R} (h : ph.DataAdditive)
    {θ : Θ} : ∀ {i : List I} {p : List P}, i.length = p.length →
      (∀ e ∈ i.zip p, DifferentiableAt ℝ (ph.oneLoss e.1 e.2) θ) →
      DifferentiableAt ℝ (ph.chunkLoss i p) θ
  | [], [], _, _ => by rw [h.chunkLoss_nil]; exact differentiableAt_const _
  | a :: i, b :: p, hl, hd => by
      have e : ph.chunkLoss (a :: i) (b :: p) =
          fun θ => ph.chunkLoss [a] [b] θ + ph.chunkLoss i p θ :=
        h.chunkLoss_append (i := [a]) (p := [b]) rfl (by simpa using hl)
      rw [e]
      refine DifferentiableAt.add (hd (a, b) (by simp)) ?_
      exact h.differentiableAt (by simpa using hl) fun e he => hd e (by simp [he])

theorem Physics.DataAdditive.accumChunks_eq {ph : Physics Θ I P S R} (h : ph.DataAdditive)
    (hf : ph.FaultFree) {θ : Θ} : ∀ (cs : List (List I × List P)) (acc : Option ℝ × (Θ →L[ℝ] ℝ)),
      (∀ c ∈ cs, c.1.length = c.2.length) →
      (∀ c ∈ cs, DifferentiableAt ℝ (ph.chunkLoss c.1 c.2) θ) →
      ph.accumChunks θ cs acc = .ok
        (if cs = [] then acc.1 else
          some (acc.1.getD 0 + ph.chunkLoss (cs.map (·.1)).flatten (cs.map (·.2)).flatten θ),
         acc.2 + fderiv ℝ (ph.chunkLoss (cs.map (·.1)).flatten (cs.map (·.2)).flatten) θ)
      ∧ DifferentiableAt ℝ (ph.chunkLoss (cs.map (·.1)).flatten (cs.map (·.2)).flatten) θ
      ∧ (cs.map (·.1)).flatten.length = (cs.map (·.2)).flatten.length
  | [], acc, _, _ => by
      simp only [Physics.accumChunks, List.map_nil, List.flatten_nil, h.chunkLoss_nil, if_true]
      refine ⟨?_, differentiableAt_const _, rfl⟩
      rw [fderiv_fun_const]; simp
  | (i, p) :: cs, acc, hl, hd => by
      obtain ⟨ih1, ih2, ih3⟩ := h.accumChunks_eq hf cs
        (addLoss acc.1 (ph.chunkLoss i p θ), acc.2 + fderiv ℝ (ph.chunkLoss i p) θ)
        (fun c hc => hl c (by simp [hc])) (fun c hc => hd c (by simp [hc]))
      have hl0 : i.length = p.length := hl (i, p) (by simp)
      have hd0 : DifferentiableAt ℝ (ph.chunkLoss i p) θ := hd (i, p) (by simp)
      have e := h.chunkLoss_append hl0 ih3
      simp only [List.map_cons, List.flatten_cons]
      refine ⟨?_, ?_, by simp [hl0, ih3]⟩
      · simp only [Physics.accumChunks, hf θ i p]
        rw [ih1]
        congr 2
        · simp only [addLoss, reduceCtorEq, if_false, Option.getD_some]
          split
          · next hnil =>
            subst hnil
            rw [e]; simp [h.chunkLoss_nil]
          · rw [e, add_assoc]
        · rw [e, fderiv_fun_add hd0 ih2, add_assoc]
      · rw [e]; exact hd0.add ih2

theorem zip_pyChunks_maps {α β : Type} {n w : ℕ} (xs : List α) (ys : List β) :
    (((pyChunks n w xs).zip (pyChunks n w ys)).map (·.1) = pyChunks n w xs) ∧
    (((pyChunks n w xs).zip (pyChunks n w ys)).map (·.2) = pyChunks n w ys) := by
  constructor
  · exact List.map_fst_zip (by rw [pyChunks_length, pyChunks_length])
  · exact List.map_snd_zip (by rw [pyChunks_length, pyChunks_length])

theorem zip_pyChunks_mem {α β : Type} {n w : ℕ} (xs : List α) (ys : List β)
    {c : List α × List β} (hc : c ∈ (pyChunks n w xs).zip (pyChunks n w ys)) :
    ∃ i ∈ pyRange0 n w, c = (pySlice xs i (i + w), pySlice ys i (i + w)) := by
  unfold pyChunks at hc
  rw [List.zip_map'] at hc
  simp only [List.mem_map] at hc
  obtain ⟨i, hi, rfl⟩ := hc
  exact ⟨i, hi, rfl⟩

theorem minibatchChunks_pos {cw : ℤ} (h : 1 ≤ cw) (b : Minibatch I P) :
    minibatchChunks cw b = .ok ((pyChunks b.inputs.length cw.toNat b.inputs).zip
            (pyChunks b.inputs.length cw.toNat b.patterns)) := by
  unfold minibatchChunks
  rw [if_neg (by omega), if_neg (by omega)]

theorem closure_eq {ph : Physics Θ I P S R} (h : ph.DataAdditive) (hf : ph.FaultFree)
    (cw : ℤ) (hcw : 1 ≤ cw) (reg : Option R) (b : Minibatch I P) (hb : b.WF) (θ : Θ)
    (hd : ph.DiffAt b θ) :
    ph.closure cw reg b θ =
      .ok (some (ph.fullLoss b θ), fderiv ℝ (ph.fullLoss b) θ + ph.regGrad reg θ) := by
  have hw : 1 ≤ cw.toNat := by omega
  unfold Physics.closure
  rw [minibatchChunks_pos hcw]
  simp only
  set cs := (pyChunks b.inputs.length cw.toNat b.inputs).zip
            (pyChunks b.inputs.length cw.toNat b.patterns) with hcs
  have hmem : ∀ c ∈ cs, c.1.length = c.2.length ∧
      ∀ e ∈ c.1.zip c.2, e ∈ b.inputs.zip b.patterns := by
    intro c hc
    obtain ⟨i, _, rfl⟩ := zip_pyChunks_mem _ _ hc
    refine ⟨by simp [pySlice, hb.2], ?_⟩
    intro e he
    simp only [pySlice] at he
    rw [List.zip_eq_zipWith, ← List.drop_zipWith, ← List.take_zipWith, ← List.zip_eq_zipWith] at he
    exact List.mem_of_mem_take (List.mem_of_mem_drop he)
  obtain ⟨h1, -, -⟩ := h.accumChunks_eq hf cs (none, 0) (fun c hc => (hmem c hc).1)
    (fun c hc => h.differentiableAt (hmem c hc).1 fun e he => hd e ((hmem c hc).2 e he))
  have hne : cs ≠ [] := by
    intro hnil
    have : cs.map (·.1) = pyChunks b.inputs.length cw.toNat b.inputs := (zip_pyChunks_maps _ _).1
    rw [hnil] at this
    have h2 := pyChunks_flatten b.inputs.length cw.toNat hw b.inputs le_rfl
    rw [← this] at h2
    exact hb.1 (by simpa using h2.symm)
  rw [h1, if_neg hne, (zip_pyChunks_maps _ _).1, (zip_pyChunks_maps _ _).2,
    pyChunks_flatten _ _ hw _ le_rfl, pyChunks_flatten _ _ hw _ (by rw [hb.2])]
  simp only [Option.getD_none, zero_add]
  rfl

theorem OptProg.run_congr {Ω G : Type} {cl cl' : Θ → Except PyExc (Option ℝ × G)}
    (h : ∀ θ, cl θ = cl' θ) (p : OptProg Θ Ω G) : p.run cl = p.run cl' := by
  have : cl = cl' := funext h
  rw [this]

end Cdtools
