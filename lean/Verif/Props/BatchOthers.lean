/- Property theorems C116: batches of exposures in MultislicePtycho, Bragg2DPtycho and SimplePtycho. -/
import Verif.Model.BatchOthers
import Verif.Props.Batch
import Verif.Props.Multislice
import Verif.Props.Bragg
import Verif.Props.Simple

set_option linter.unusedSectionVars false

namespace Cdtools
open Finset Matrix

variable {n m a b N k : ℕ} [NeZero n] [NeZero m] [NeZero a] [NeZero b]

/-! ### Stacks of wave fields with any leading axes -/

/-- `A` is a stack of wave fields with the leading axes `lead`. -/
def RepW (A : Tensor ℂ) (lead : List ℕ) (f : List ℕ → Wave n m) : Prop :=
  A.shape = lead ++ [n, m] ∧ ∀ i, List.Forall₂ (· < ·) i lead → ∀ x < n, ∀ y < m, A.get (i ++ [x, y]) = f i x y

theorem Rep4.toW {A : Tensor ℂ} {S r : ℕ} {f : ℕ → ℕ → Wave n m} (h : Rep4 A S r f) : RepW A [S, r] fun i => f (i.getD 0 0) (i.getD 1 0) := by
  refine ⟨h.1, fun i hi x hx y hy => ?_⟩
  obtain _ | ⟨hs, _ | ⟨hj, hn⟩⟩ := hi
  cases hn
  exact h.2 _ hs _ hj x hx y hy

theorem RepW.to4 {A : Tensor ℂ} {S r : ℕ} {f : List ℕ → Wave n m} (h : RepW A [S, r] f) : Rep4 A S r fun s j => f [s, j] :=
  ⟨h.1, fun s hs j hj x hx y hy => h.2 [s, j] (.cons hs (.cons hj .nil)) x hx y hy⟩

theorem Rep3.toW {A : Tensor ℂ} {r : ℕ} {f : ℕ → Wave n m} (h : Rep3 A r f) : RepW A [r] fun i => f (i.getD 0 0) := by
  refine ⟨h.1, fun i hi x hx y hy => ?_⟩
  obtain _ | ⟨hj, hn⟩ := hi
  cases hn
  exact h.2 _ hj x hx y hy

theorem RepW.to3 {A : Tensor ℂ} {r : ℕ} {f : List ℕ → Wave n m} (h : RepW A [r] f) : Rep3 A r fun j => f [j] :=
  ⟨h.1, fun j hj x hx y hy => h.2 [j] (.cons hj .nil) x hx y hy⟩

theorem zipWith_inside {i lead : List ℕ} (h : List.Forall₂ (· < ·) i lead) : List.zipWith (fun d x => if d = 1 then 0 else x) lead i = i := by
  induction h with
  | nil => rfl
  | cons h _ ih => rw [List.zipWith_cons_cons, ih, bcIdx h]

theorem RepW.planes {A : Tensor ℂ} {lead : List ℕ} {f : List ℕ → Wave n m} (h : RepW A lead f) (G : (ℕ → ℕ → ℂ) → ℕ → ℕ → ℂ) (F : Wave n m → Wave a b)
    (hG : ∀ g : ℕ → ℕ → ℂ, ∀ w : Wave n m, (∀ x < n, ∀ y < m, g x y = w x y) → ∀ x < a, ∀ y < b, G g x y = F w x y) :
    ∃ A', A.planes n m a b G = .ok A' ∧ RepW A' lead fun i => F (f i) := by
  obtain ⟨hs, hv⟩ := h
  have hlen : A.shape.length - 2 = lead.length := by rw [hs]; simp
  unfold Tensor.planes
  simp only [hlen]
  refine ⟨_, if_pos (by rw [hs]; simp), by simp [hs], fun i hi x hx y hy => ?_⟩
  have hl := hi.length_eq
  have e0 : (i ++ [x, y]).getD i.length 0 = x := by simp [List.getD]
  have e1 : (i ++ [x, y]).getD (i.length + 1) 0 = y := by simp [List.getD]
  simp only [← hl, List.take_left, e0, e1]
  exact hG _ (f i) (fun u hu v hv' => hv i hi u hu v hv') x hx y hy

theorem onWave_eq (F : Wave n m → Wave a b) (g : ℕ → ℕ → ℂ) (w : Wave n m) (h : ∀ x < n, ∀ y < m, g x y = w x y) (x y : ℕ) : onWave F g x y = F w x y := by
  unfold onWave
  congr 2
  funext u v
  rw [h _ (ZMod.val_lt u) _ (ZMod.val_lt v), ZMod.natCast_zmod_val, ZMod.natCast_zmod_val]

/-- `near_field` of a stack. -/
theorem RepW.near {A P : Tensor ℂ} {lead : List ℕ} {f : List ℕ → Wave n m} (h : RepW A lead f) (p : Wave n m) (hP : P.shape = [n, m])
    (hp : ∀ x < n, ∀ y < m, P.get [x, y] = p x y) : ∃ A', nearFieldAll n m P A = .ok A' ∧ RepW A' lead fun i => nearField p (f i) := by
  unfold nearFieldAll
  obtain ⟨A1, q1, r1⟩ := h.planes (onWave fun u : Wave n m => fft2 u) (fun u => fft2 u) (fun g w hg x _ y _ => onWave_eq _ g w hg x y)
  rw [q1]
  simp only [Except.bind]
  have hb : broadcastShapes [n, m] (lead ++ [n, m]) = some (lead ++ [n, m]) := by
    simp [broadcastShapes, bcRev]
  have h2 : ∃ A2, P.bop (· * ·) A1 = .ok A2 ∧ RepW A2 lead fun i x y => p x y * fft2 (f i) x y := by
    unfold Tensor.bop
    rw [hP, r1.1]
    simp only [hb]
    refine ⟨_, rfl, rfl, fun i hi x hx y hy => ?_⟩
    show P.bget (i ++ [x, y]) * A1.bget (i ++ [x, y]) = _
    have hl := hi.length_eq
    unfold Tensor.bget
    rw [hP, r1.1]
    have e1 : (i ++ [x, y]).drop ((i ++ [x, y]).length - [n, m].length) = [x, y] := by simp
    have e2 : (i ++ [x, y]).drop ((i ++ [x, y]).length - (lead ++ [n, m]).length) = i ++ [x, y] := by simp [hl]
    rw [e1, e2, List.zipWith_append hl.symm, zipWith_inside hi]
    simp only [List.zipWith_cons_cons, List.zipWith_nil_left, bcIdx hx, bcIdx hy]
    rw [hp x hx y hy, r1.2 i hi x hx y hy]
  obtain ⟨A2, q2, r2⟩ := h2
  rw [q2]
  exact r2.planes (onWave fun u : Wave n m => ifft2 u) (fun u => ifft2 u) (fun g w hg x _ y _ => onWave_eq _ g w hg x y)

/-! ### MultislicePtycho -/

/-- The detector of a model: pixels remain after binning, and the background has their shape. -/
structure PixelsFit (os a b : ℕ) (background : Img ℝ) : Prop where
  rows : 0 < binned os a
  cols : 0 < binned os b
  background : background.h = binned os a ∧ background.w = binned os b

/-- The `FancyPtycho` model with the probes and the detector of `M`. -/
noncomputable def Multislice.companion (M : Multislice n m a b N k) : Fancy n m a b N k where
  probe := M.probe
  probeNorm := M.probeNorm
  support := M.support
  weights := M.effectiveWeights
  fourierProbe := M.fourierProbe
  obj := ⟨0, 0, fun _ _ => 0⟩
  exponentiate := false
  phaseOnly := false
  nearField := false
  propagator := fun _ _ => 1
  objBasis := M.objBasis
  detBasis := M.detBasis
  normal := M.normal
  minTranslation := M.minTranslation
  translationScale := M.translationScale
  offsets := M.offsets
  fourierShifts := none
  simulateTranslation := false
  oversampling := M.oversampling
  background := M.background
  qe := none
  saturation := M.saturation

theorem Multislice.companion_fits (M : Multislice n m a b N k) (h : PixelsFit M.oversampling a b M.background) : DetectorFits M.companion :=
  ⟨h.rows, h.cols, h.background, fun _ hq => nomatch hq⟩

theorem Multislice.inForce_weights (M : Multislice n m a b N k) : inForce M.weights = M.effectiveWeights := by
  unfold inForce Multislice.effectiveWeights
  cases M.weights <;> rfl

theorem rows2_many (l : List (BatchItem N)) (ex : ℕ → BatchItem N) (hex : ∀ s < l.length, l[s]? = some (ex s)) (g : BatchItem N → Fin 2 → ℝ) :
    ∀ s < l.length, ((Batch.many l).rows [2] fun e i => comp2 (g e) i).get [s, 0] = g (ex s) 0 ∧
      ((Batch.many l).rows [2] fun e i => comp2 (g e) i).get [s, 1] = g (ex s) 1 := by
  intro s hs
  constructor
  · show ((l[s]?).map fun e : BatchItem N => comp2 (g e) [0]).getD 0 = _
    rw [hex s hs]; rfl
  · show ((l[s]?).map fun e : BatchItem N => comp2 (g e) [1]).getD 0 = _
    rw [hex s hs]; rfl

theorem multislice_ramped_many (M : Multislice n m a b N k) (l : List (BatchItem N)) (ex : ℕ → BatchItem N)
    (hex : ∀ s < l.length, l[s]? = some (ex s)) {P : Tensor ℂ} {r : ℕ} {f : ℕ → ℕ → Wave n m} (hP : Rep4 P l.length r f) :
    ∃ P', M.batchRamped (.many l) P = .ok P' ∧ Rep4 P' l.length r fun s j x y => f s j x y * M.ramp (ex s).2 x y := by
  unfold Multislice.batchRamped
  cases hs : M.simulateTranslation with
  | false =>
    refine ⟨P, rfl, hP.1, fun s hs' j hj x hx y hy => ?_⟩
    rw [hP.2 s hs' j hj x hx y hy]
    unfold Multislice.ramp
    simp [hs]
  | true =>
    have hd := rows2_many l ex hex fun e => translationsToPixel M.detBasis M.normal e.2
    simp only [if_true]
    set d := (Batch.many l).rows [2] fun e i => comp2 (translationsToPixel M.detBasis M.normal e.2) i with hdd
    have sd : d.shape = [l.length, 2] := rfl
    clear_value d
    unfold rampWaves
    rw [if_neg (by rw [sd]; simp)]
    obtain ⟨P', q, r'⟩ := hP.bop (C := Tensor.newAxis 2 ⟨[d.shape.headD 0, n, m], fun i =>
        Complex.exp (Complex.I * (d.get [i.getD 0 0, 0] * (2 * Real.pi * ((((i.getD 1 0 : ℕ) : ZMod n).val : ℂ) / ((n : ℂ) - 1)) * M.oversampling) +
          d.get [i.getD 0 0, 1] * (2 * Real.pi * ((((i.getD 2 0 : ℕ) : ZMod m).val : ℂ) / ((m : ℂ) - 1)) * M.oversampling)))⟩)
      (fun s => M.ramp (ex s).2) (by rw [sd]; rfl) (fun s hs' x hx y hy => by
        show Complex.exp (Complex.I * (d.get [s, 0] * (2 * Real.pi * ((((x : ℕ) : ZMod n).val : ℂ) / ((n : ℂ) - 1)) * M.oversampling) +
          d.get [s, 1] * (2 * Real.pi * ((((y : ℕ) : ZMod m).val : ℂ) / ((m : ℂ) - 1)) * M.oversampling))) = _
        unfold Multislice.ramp
        rw [hs, (hd s hs').1, (hd s hs').2]
        simp only [if_true]) (· * ·)
    exact ⟨P', q, r'⟩

/-- The loop over the slices on a batch. -/
theorem batchSlices_many (M : Multislice n m a b N k) (hP : M.propagator.h = a ∧ M.propagator.w = b) (l : List (BatchItem N)) (hl : 0 < l.length)
    (ex : ℕ → BatchItem N) (hex : ∀ s < l.length, l[s]? = some (ex s)) :
    ∀ (L : List (Img ℂ)) (_ : ∀ o ∈ L, SameWindows (M.transmission o) a b l.length (fun s => M.pixTrans (ex s).1 (ex s).2) a b)
      {P : Tensor ℂ} {r : ℕ} {f : ℕ → ℕ → Wave a b} (_ : Rep4 P l.length r f),
    ∃ P', L.foldlM (fun w o =>
        (sinc2D a b true false w (M.transmission o).tensor ((Batch.many l).rows [2] fun e i => comp2 (M.pixTrans e.1 e.2) i)).bind fun w =>
          nearFieldAll a b M.propagator.tensor w) P = .ok P' ∧
      Rep4 P' l.length r fun s j => passSlices (M.pixTrans (ex s).1 (ex s).2 0, M.pixTrans (ex s).1 (ex s).2 1) M.prop
        (L.map fun o => seen (M.transmission o) a b (M.pixTrans (ex s).1 (ex s).2) a b) (f s j) := by
  intro L
  induction L with
  | nil => exact fun _ P r f h => ⟨P, rfl, h⟩
  | cons o L ih =>
    intro hw P r f h
    have hr := rows2_many l ex hex fun e => M.pixTrans e.1 e.2
    obtain ⟨P1, q1, r1⟩ := sinc2D_many hl h (M.transmission o) ((Batch.many l).rows [2] fun e i => comp2 (M.pixTrans e.1 e.2) i)
      (fun s => M.pixTrans (ex s).1 (ex s).2) rfl (fun s hs => (hr s hs).1) (fun s hs => (hr s hs).2) (Or.inl rfl) (Or.inl rfl)
      (hw o List.mem_cons_self) false
    obtain ⟨P2, q2, r2⟩ := r1.toW.near (P := M.propagator.tensor) M.prop (by simp [Img.tensor, hP]) (fun x hx y hy => by
      show M.propagator.px x y = _
      unfold Multislice.prop
      rw [ZMod.val_natCast_of_lt hx, ZMod.val_natCast_of_lt hy])
    obtain ⟨P3, q3, r3⟩ := ih (fun o' ho => hw o' (List.mem_cons_of_mem _ ho)) r2.to4
    refine ⟨P3, ?_, r3⟩
    rw [List.foldlM_cons, q1]
    show (nearFieldAll a b M.propagator.tensor P1).bind _ = _
    rw [q2]
    exact q3

/-- The pattern of exposure `e` when it sees the windows `ws` of the slices. -/
noncomputable def Multislice.patternOf (M : Multislice n m a b N k) (e : BatchItem N) (ws : List (Wave a b)) : Img ℝ :=
  M.companion.recorded fun x y => ∑ u, ‖farField (passSlices (M.pixTrans e.1 e.2 0, M.pixTrans e.1 e.2 1) M.prop ws
    (M.incident e.1 e.2 u)) (x : ZMod a) (y : ZMod b)‖ ^ 2

/-- The windows of the slices at exposure `e`. -/
noncomputable def Multislice.seenBy (M : Multislice n m a b N k) (e : BatchItem N) : List (Wave a b) :=
  M.slices.map fun o => seen (M.transmission o) a b (M.pixTrans e.1 e.2) a b

theorem objWindow_seen (O : Img ℂ) (q : Fin 2 → ℝ) (sel : Wave a b) (h : objWindow a b O ⌊q 0⌋ ⌊q 1⌋ = .ok sel) :
    SameWindows O a b 1 (fun _ => q) a b ∧ sel = seen O a b q a b := by
  unfold objWindow at h
  simp only at h
  split_ifs at h with hfit
  · refine ⟨⟨fun _ _ => hfit.1, fun _ _ => hfit.2⟩, ?_⟩
    rw [← Except.ok.inj h]
    funext x y
    unfold seen
    rw [bcIdx (ZMod.val_lt x), bcIdx (ZMod.val_lt y)]

theorem mapM_seen (T : Img ℂ → Img ℂ) (q : Fin 2 → ℝ) : ∀ (L : List (Img ℂ)) (ws : List (Wave a b)),
    (L.mapM fun o => objWindow a b (T o) ⌊q 0⌋ ⌊q 1⌋) = .ok ws →
      (∀ o ∈ L, SameWindows (T o) a b 1 (fun _ => q) a b) ∧ ws = L.map fun o => seen (T o) a b q a b := by
  intro L
  induction L with
  | nil =>
    intro ws h
    exact ⟨fun _ ho => absurd ho (by simp), (Except.ok.inj h).symm⟩
  | cons o L ih =>
    intro ws h
    rw [List.mapM_cons] at h
    cases h1 : objWindow a b (T o) ⌊q 0⌋ ⌊q 1⌋ with
    | error e => rw [h1] at h; exact (nomatch h)
    | ok sel =>
      rw [h1] at h
      cases h2 : L.mapM fun o => objWindow a b (T o) ⌊q 0⌋ ⌊q 1⌋ with
      | error e => simp only [h2] at h; exact (nomatch h)
      | ok ws' =>
        simp only [h2] at h
        have hw : ws = sel :: ws' := (Except.ok.inj h).symm
        obtain ⟨i1, i2⟩ := ih ws' h2
        obtain ⟨j1, j2⟩ := objWindow_seen (T o) q sel h1
        refine ⟨fun o' ho => ?_, by rw [hw, i2, j2]; rfl⟩
        rcases List.mem_cons.1 ho with rfl | ho
        · exact j1
        · exact i1 o' ho

theorem multislice_patternOf (M : Multislice n m a b N k) (e : BatchItem N) (Q : Img ℝ) (hQ : M.forward e.1 e.2 = .ok Q) :
    (∀ o ∈ M.slices, SameWindows (M.transmission o) a b 1 (fun _ => M.pixTrans e.1 e.2) a b) ∧
      (M.slices ≠ [] → M.propagator.h = a ∧ M.propagator.w = b) ∧ Q = M.patternOf e (M.seenBy e) := by
  unfold Multislice.forward at hQ
  simp only at hQ
  cases hw : M.slices.mapM fun o => objWindow a b (M.transmission o) ⌊M.pixTrans e.1 e.2 0⌋ ⌊M.pixTrans e.1 e.2 1⌋ with
  | error _ => rw [hw] at hQ; exact (nomatch hQ)
  | ok ws =>
    simp only [hw] at hQ
    obtain ⟨h1, h2⟩ := mapM_seen M.transmission (M.pixTrans e.1 e.2) M.slices ws hw
    split_ifs at hQ with hp
    refine ⟨h1, fun hne => by_contra fun hn => hp ⟨hne, hn⟩, ?_⟩
    rw [← Except.ok.inj hQ]
    unfold Multislice.patternOf Multislice.seenBy Fancy.recorded sumModes
    rw [← h2]
    simp only [List.map_ofFn, List.sum_ofFn, Function.comp]
    rfl

/-- **C116** (MultislicePtycho, batches). -/
theorem multislice_batch_forward (M : Multislice n m a b N k) (hfit : PixelsFit M.oversampling a b M.background)
    (l : List (Fin N × (Fin 3 → ℝ))) (hl : l ≠ []) (Q : ℕ → Img ℝ) (hQ : ∀ s (hs : s < l.length), M.forward l[s].1 l[s].2 = .ok (Q s)) :
    ∃ T, M.batchForward (.many l) = .ok T ∧ T.shape = [l.length, M.background.h, M.background.w] ∧
      ∀ s < l.length, (Q s).h = M.background.h ∧ (Q s).w = M.background.w ∧
        ∀ i < M.background.h, ∀ j < M.background.w, T.get [s, i, j] = (Q s).px i j := by
  have hpos : 0 < l.length := List.length_pos_iff.2 hl
  have hf : ∀ s (hs : s < l.length), _ := fun s hs => multislice_patternOf M l[s] (Q s) (hQ s hs)
  set ex : ℕ → BatchItem N := fun s => (l[s]?).getD l[0] with hexd
  have hexv : ∀ s (hs : s < l.length), ex s = l[s] := fun s hs => by simp [hexd, hs]
  have hex : ∀ s < l.length, l[s]? = some (ex s) := fun s hs => by rw [hexv s hs]; simp [hs]
  have hF := M.companion_fits hfit
  obtain ⟨P1, q1, r1⟩ := batchProbes_many M.companion M.weights l ex hex
  rw [M.inForce_weights] at r1
  obtain ⟨P2, q2, r2⟩ := multislice_ramped_many M l ex hex r1
  obtain ⟨P3, q3, r3⟩ := r2.planes (padProbe (n := n) (m := m) a b)
  have h4 : ∃ P4, M.batchSlices (.many l) (P3.map fun z => (M.probeNorm : ℂ) * z) = .ok P4 ∧
      Rep4 P4 l.length M.effectiveWeights.rank fun s j => passSlices (M.pixTrans (ex s).1 (ex s).2 0, M.pixTrans (ex s).1 (ex s).2 1) M.prop
        (M.seenBy (ex s)) fun x y => (M.probeNorm : ℂ) * padProbe (n := n) (m := m) a b
          (fun x y => modeOf M.companion M.effectiveWeights (ex s) j x y * M.ramp (ex s).2 x y) x y := by
    by_cases hne : M.slices = []
    · unfold Multislice.batchSlices Multislice.seenBy
      rw [hne]
      exact ⟨_, rfl, r3.map _⟩
    · exact batchSlices_many M ((hf 0 hpos).2.1 hne) l hpos ex hex M.slices (fun o ho =>
        ⟨fun s hs => by rw [hexv s hs]; exact ((hf s hs).1 o ho).rows 0 one_pos,
          fun s hs => by rw [hexv s hs]; exact ((hf s hs).1 o ho).cols 0 one_pos⟩) (r3.map _)
  obtain ⟨P4, q4, r4⟩ := h4
  obtain ⟨P5, q5, r5⟩ := r4.planes fun w : Wave a b => farField w
  obtain ⟨T, q6, r6⟩ := batchMeasurement_many M.companion hF r5
  refine ⟨T, ?_, ?_, fun s hs => ?_⟩
  · unfold Multislice.batchForward Multislice.batchInteraction
    have q1' : batchProbesOf (fun j => M.realSpace (M.probe j)) M.weights (.many l) = .ok P1 := q1
    rw [q1']
    simp only [Except.bind]
    rw [q2]
    simp only
    rw [q3]
    simp only
    rw [q4]
    simp only
    rw [q5]
    exact q6
  · rw [r6.1, hfit.background.1, hfit.background.2]
    rfl
  · have e := (hf s hs).2.2
    have hsh := recorded_shape M.companion fun x y => ∑ u, ‖farField (passSlices (M.pixTrans l[s].1 l[s].2 0, M.pixTrans l[s].1 l[s].2 1) M.prop
      (M.seenBy l[s]) (M.incident l[s].1 l[s].2 u)) (x : ZMod a) (y : ZMod b)‖ ^ 2
    rw [hfit.background.1, hfit.background.2, e]
    refine ⟨hsh.1, hsh.2, fun i hi j hj => ?_⟩
    rw [r6.2 s hs i hi j hj]
    beta_reduce
    rw [hexv s hs]
    unfold Multislice.patternOf
    congr 2
    funext x y
    rw [Finset.sum_range]
    refine sum_congr rfl fun u _ => ?_
    unfold modeOf Multislice.incident
    rw [dif_pos u.2]
    rfl

/-! ### One exposure -/

/-- **C116** (MultislicePtycho, one exposure): with weights and without phase ramps, the index and translation of one exposure give its pattern. -/
theorem multislice_single_forward (M : Multislice n m a b N k) (W : Weights N k) (hW : M.weights = some W) (hsim : M.simulateTranslation = false)
    (hfit : PixelsFit M.oversampling a b M.background) (e : Fin N × (Fin 3 → ℝ)) (Q : Img ℝ) (hQ : M.forward e.1 e.2 = .ok Q) :
    ∃ T, M.batchForward (.one e) = .ok T ∧ T.shape = [M.background.h, M.background.w] ∧ Q.h = M.background.h ∧ Q.w = M.background.w ∧
      ∀ i < M.background.h, ∀ j < M.background.w, T.get [i, j] = Q.px i j := by
  obtain ⟨hw, hp, he⟩ := multislice_patternOf M e Q hQ
  have hWe : M.effectiveWeights = W := by unfold Multislice.effectiveWeights; rw [hW]
  have hF := M.companion_fits hfit
  obtain ⟨P1, q1, r1⟩ := batchProbes_one M.companion M.effectiveWeights e
  have q2 : M.batchRamped (.one e) P1 = .ok P1 := by unfold Multislice.batchRamped; rw [hsim]; simp
  obtain ⟨P3, q3, r3⟩ := r1.planes (padProbe (n := n) (m := m) a b)
  have h4 : ∀ (L : List (Img ℂ)) (_ : ∀ o ∈ L, o ∈ M.slices) {P : Tensor ℂ} {r : ℕ} {f : ℕ → Wave a b} (_ : Rep3 P r f),
      ∃ P', L.foldlM (fun w o =>
        (sinc2D a b true false w (M.transmission o).tensor ((Batch.one e).rows [2] fun e i => comp2 (M.pixTrans e.1 e.2) i)).bind fun w =>
          nearFieldAll a b M.propagator.tensor w) P = .ok P' ∧
      Rep3 P' r fun j => passSlices (M.pixTrans e.1 e.2 0, M.pixTrans e.1 e.2 1) M.prop
        (L.map fun o => seen (M.transmission o) a b (M.pixTrans e.1 e.2) a b) (f j) := by
    intro L
    induction L with
    | nil => exact fun _ P r f h => ⟨P, rfl, h⟩
    | cons o L ih =>
      intro hL P r f h
      have ho := hL o List.mem_cons_self
      have hP := hp (List.ne_nil_of_mem ho)
      obtain ⟨P1, q1, r1⟩ := sinc2D_one h (M.transmission o) ((Batch.one e).rows [2] fun e i => comp2 (M.pixTrans e.1 e.2) i)
        (M.pixTrans e.1 e.2) rfl rfl rfl (Or.inl rfl) (Or.inl rfl) (hw o ho) false
      obtain ⟨P2, q2, r2⟩ := r1.toW.near (P := M.propagator.tensor) M.prop (by simp [Img.tensor, hP]) (fun x hx y hy => by
        show M.propagator.px x y = _
        unfold Multislice.prop
        rw [ZMod.val_natCast_of_lt hx, ZMod.val_natCast_of_lt hy])
      obtain ⟨P3, q3, r3⟩ := ih (fun o' ho => hL o' (List.mem_cons_of_mem _ ho)) r2.to3
      refine ⟨P3, ?_, r3⟩
      rw [List.foldlM_cons, q1]
      show (nearFieldAll a b M.propagator.tensor P1).bind _ = _
      rw [q2]
      exact q3
  obtain ⟨P4, q4, r4⟩ := h4 M.slices (fun _ ho => ho) (r3.map fun z => (M.probeNorm : ℂ) * z)
  obtain ⟨P5, q5, r5⟩ := r4.planes fun w : Wave a b => farField w
  obtain ⟨T, q6, r6⟩ := batchMeasurement_one M.companion hF r5
  have hsh := recorded_shape M.companion fun x y => ∑ u, ‖farField (passSlices (M.pixTrans e.1 e.2 0, M.pixTrans e.1 e.2 1) M.prop
      (M.seenBy e) (M.incident e.1 e.2 u)) (x : ZMod a) (y : ZMod b)‖ ^ 2
  refine ⟨T, ?_, ?_, ?_⟩
  · unfold Multislice.batchForward Multislice.batchInteraction
    have q1' : batchProbesOf (fun j => M.realSpace (M.probe j)) M.weights (.one e) = .ok P1 := by rw [hW, ← hWe]; exact q1
    rw [q1']
    simp only [Except.bind]
    rw [q2]
    simp only
    rw [q3]
    simp only
    unfold Multislice.batchSlices
    rw [q4]
    simp only
    rw [q5]
    exact q6
  · rw [r6.1, hfit.background.1, hfit.background.2]
    rfl
  · rw [hfit.background.1, hfit.background.2, he]
    refine ⟨hsh.1, hsh.2, fun i hi j hj => ?_⟩
    rw [r6.2 i hi j hj]
    beta_reduce
    unfold Multislice.patternOf
    congr 2
    funext x y
    rw [Finset.sum_range]
    refine sum_congr rfl fun u _ => ?_
    have hr : ∀ p : Wave n m, (fun x y => p x y * M.ramp e.2 x y : Wave n m) = p := by
      intro p
      funext x y
      unfold Multislice.ramp
      rw [hsim]
      simp
    unfold modeOf Multislice.incident
    beta_reduce
    rw [dif_pos u.2, hr]
    rfl

/-- **C116 fails** for one exposure of a MultislicePtycho model without weights, or one that simulates the motion of the probe. -/
theorem multislice_single_violated (M : Multislice n m a b N k) (e : Fin N × (Fin 3 → ℝ)) :
    (M.weights = none → M.batchForward (.one e) = .error .typeError) ∧
    (M.weights ≠ none → M.simulateTranslation = true → M.batchForward (.one e) = .error .indexError) := by
  constructor
  · intro h
    unfold Multislice.batchForward Multislice.batchInteraction
    rw [h]
    rfl
  · intro h hs
    obtain ⟨W, hW⟩ := Option.ne_none_iff_exists'.1 h
    obtain ⟨P1, q1, -⟩ := batchProbes_one M.companion W e
    have q1' : batchProbesOf (fun j => M.realSpace (M.probe j)) (some W) (.one e) = .ok P1 := q1
    unfold Multislice.batchForward Multislice.batchInteraction
    rw [hW, q1']
    simp only [Except.bind]
    unfold Multislice.batchRamped
    rw [hs]
    rfl

/-! ### Bragg2DPtycho -/

theorem RepW.bopR {A P : Tensor ℂ} {lead : List ℕ} {f : List ℕ → Wave n m} (h : RepW A lead f) (p : Wave n m) (hP : P.shape = [n, m])
    (hp : ∀ x < n, ∀ y < m, P.get [x, y] = p x y) : ∃ A', A.bop (· * ·) P = .ok A' ∧ RepW A' lead fun i x y => f i x y * p x y := by
  have hb : broadcastShapes (lead ++ [n, m]) [n, m] = some (lead ++ [n, m]) := by
    have : ∀ L : List ℕ, bcRev L [] = some L := by intro L; cases L <;> rfl
    simp [broadcastShapes, bcRev, this]
  unfold Tensor.bop
  rw [hP, h.1]
  simp only [hb]
  refine ⟨_, rfl, rfl, fun i hi x hx y hy => ?_⟩
  show A.bget (i ++ [x, y]) * P.bget (i ++ [x, y]) = _
  have hl := hi.length_eq
  unfold Tensor.bget
  rw [hP, h.1]
  have e1 : (i ++ [x, y]).drop ((i ++ [x, y]).length - [n, m].length) = [x, y] := by simp
  have e2 : (i ++ [x, y]).drop ((i ++ [x, y]).length - (lead ++ [n, m]).length) = i ++ [x, y] := by simp [hl]
  rw [e1, e2, List.zipWith_append hl.symm, zipWith_inside hi]
  simp only [List.zipWith_cons_cons, List.zipWith_nil_left, bcIdx hx, bcIdx hy]
  rw [hp x hx y hy, h.2 i hi x hx y hy]

theorem recorded_congr (M : Fancy n m a b N k) (I I' : ℕ → ℕ → ℝ) (h : ∀ x < a, ∀ y < b, I x y = I' x y) (i j : ℕ)
    (hi : i < binned M.oversampling a) (hj : j < binned M.oversampling b) : (M.recorded I).px i j = (M.recorded I').px i j := by
  have hb : (binPixels M.oversampling (⟨a, b, I⟩ : Img ℝ)).px i j = (binPixels M.oversampling (⟨a, b, I'⟩ : Img ℝ)).px i j := by
    unfold binPixels
    unfold binned at hi hj
    split_ifs with ho
    · exact avgPool_congr _ I I' h i j (by simpa [ho] using hi) (by simpa [ho] using hj)
    · exact h i (by simpa [ho] using hi) j (by simpa [ho] using hj)
  unfold Fancy.recorded measQuadratic
  cases M.qe <;> cases M.saturation <;> simp [saturate, Img.zip, Img.map, readOut, cutSlice, hb]

/-- The `FancyPtycho` model with the probes and the detector of `M`. -/
noncomputable def Bragg.companion (M : Bragg n m a b N k) (W : Fin N → ℝ) : Fancy n m a b N k where
  probe := M.probe
  probeNorm := M.probeNorm
  support := fun _ _ => true
  weights := .perShot W
  fourierProbe := false
  obj := M.obj
  exponentiate := false
  phaseOnly := false
  nearField := false
  propagator := fun _ _ => 1
  objBasis := M.objBasis
  detBasis := M.objBasis
  normal := 0
  minTranslation := M.minTranslation
  translationScale := M.translationScale
  offsets := M.offsets
  fourierShifts := none
  simulateTranslation := false
  oversampling := M.oversampling
  background := M.background
  qe := none
  saturation := M.saturation

theorem Bragg.companion_probes (M : Bragg n m a b N k) (W : Fin N → ℝ) : (M.companion W).basisProbes = M.probe := by
  funext j x y
  unfold Fancy.basisProbes Bragg.companion
  simp

/-- The support as an array. -/
noncomputable def Bragg.supportWave (M : Bragg n m a b N k) : Wave n m := fun x y => if M.support x y then 1 else 0

/-- The probe of an exposure in the plane of the scan. -/
noncomputable def Bragg.incoming (M : Bragg n m a b N k) (W : Fin N → ℝ) (e : BatchItem N) (j : ℕ) : Wave n m := fun x y =>
  modeOf (M.companion W) (.perShot W) e j x y * M.supportWave x y

theorem bragg_probes_many (M : Bragg n m a b N k) (W : Fin N → ℝ) (hW : M.weights = some W) (l : List (BatchItem N)) (ex : ℕ → BatchItem N)
    (hex : ∀ s < l.length, l[s]? = some (ex s)) :
    ∃ P, M.batchProbes (.many l) = .ok P ∧ Rep4 P l.length k fun s j => M.incoming W (ex s) j := by
  obtain ⟨P1, q1, r1⟩ := batchProbes_many (M.companion W) (some (.perShot W)) l ex hex
  obtain ⟨P2, q2, r2⟩ := r1.toW.bopR (P := ⟨[n, m], fun i => if M.support (i.getD 0 0 : ZMod n) (i.getD 1 0 : ZMod m) then 1 else 0⟩)
    M.supportWave rfl (fun x _ y _ => rfl)
  unfold Fancy.batchProbes at q1
  rw [M.companion_probes] at q1
  refine ⟨P2, ?_, r2.to4⟩
  unfold Bragg.batchProbes
  rw [hW]
  simp only
  unfold batchProbesOf at q1
  simp only at q1
  rw [q1]
  exact q2

theorem bragg_probes_one (M : Bragg n m a b N k) (W : Fin N → ℝ) (hW : M.weights = some W) (e : BatchItem N) :
    ∃ P, M.batchProbes (.one e) = .ok P ∧ Rep3 P k fun j => M.incoming W e j := by
  obtain ⟨P1, q1, r1⟩ := batchProbes_one (M.companion W) (.perShot W) e
  obtain ⟨P2, q2, r2⟩ := r1.toW.bopR (P := ⟨[n, m], fun i => if M.support (i.getD 0 0 : ZMod n) (i.getD 1 0 : ZMod m) then 1 else 0⟩)
    M.supportWave rfl (fun x _ y _ => rfl)
  unfold Fancy.batchProbes at q1
  rw [M.companion_probes] at q1
  refine ⟨P2, ?_, r2.to3⟩
  unfold Bragg.batchProbes
  rw [hW]
  simp only
  unfold batchProbesOf at q1
  simp only at q1
  rw [q1]
  exact q2

/-- The probe of an exposure on the sample. -/
noncomputable def Bragg.onSample (M : Bragg n m a b N k) (d : ℝ) (w : Wave n m) : Wave n m :=
  if M.propagateProbe then nearField (M.propagator d) w else w

theorem bragg_propagated_many (M : Bragg n m a b N k) (l : List (BatchItem N)) (ex : ℕ → BatchItem N) (hex : ∀ s < l.length, l[s]? = some (ex s))
    {P : Tensor ℂ} {r : ℕ} {f : ℕ → ℕ → Wave n m} (hP : Rep4 P l.length r f) :
    ∃ P', M.batchPropagated (.many l) P = .ok P' ∧ Rep4 P' l.length r fun s j => M.onSample (M.distance (ex s).2) (f s j) := by
  unfold Bragg.batchPropagated Bragg.onSample
  cases M.propagateProbe with
  | false => exact ⟨P, rfl, hP⟩
  | true =>
    simp only [if_true]
    have hS : P.shape.headD 0 = l.length := by rw [hP.1]; rfl
    rw [hS]
    have sp : (M.batchDistances (.many l)).shape = [l.length, 1] := rfl
    have vp : ∀ s < l.length, (M.batchDistances (.many l)).get [s, 0] = M.distance (ex s).2 := by
      intro s hs
      show ((l[s]?).map fun e : BatchItem N => M.distance e.2).getD 0 = _
      rw [hex s hs]; rfl
    generalize M.batchDistances (.many l) = props at sp vp ⊢
    have key : ∀ t ≤ l.length, ∃ A, (List.range t).foldlM (M.propagateRow props) P = .ok A ∧
        Rep4 A l.length r fun s j => if s < t then nearField (M.propagator (M.distance (ex s).2)) (f s j) else f s j := by
      intro t
      induction t with
      | zero => exact fun _ => ⟨P, rfl, by simpa using hP⟩
      | succ t ih =>
        intro ht
        obtain ⟨A, qA, rA⟩ := ih (by omega)
        have hrow : Rep3 (A.row t) r (f t) := by
          refine ⟨by simp [Tensor.row, rA.1], fun j hj x hx y hy => ?_⟩
          have := rA.2 t (by omega) j hj x hx y hy
          simp only [lt_irrefl, if_false] at this
          exact this
        obtain ⟨C, qC, rC⟩ := hrow.toW.near (P := ⟨[n, m], fun i => M.propagator ((props.row t).get (if props.shape.length = 1 then [] else [0]))
          (i.getD 0 0 : ZMod n) (i.getD 1 0 : ZMod m)⟩) (M.propagator (M.distance (ex t).2)) rfl (fun x _ y _ => by
            rw [sp]
            show M.propagator (props.get [t, 0]) _ _ = _
            rw [vp t (by omega)]
            rfl)
        refine ⟨A.setRow t C, ?_, rA.1, fun s hs j hj x hx y hy => ?_⟩
        · rw [List.range_succ, List.foldlM_append, qA]
          have : M.propagateRow props A t = .ok (A.setRow t C) := by
            unfold Bragg.propagateRow
            rw [if_neg (by rw [sp]; simp; omega)]
            simp only
            rw [qC]
            rfl
          show (M.propagateRow props A t).bind _ = _
          rw [this]
          rfl
        · show (if s = t then C.get [j, x, y] else A.get [s, j, x, y]) = _
          by_cases hst : s = t
          · subst hst
            rw [if_pos rfl, rC.to3.2 j hj x hx y hy]
            simp
          · rw [if_neg hst, rA.2 s hs j hj x hx y hy]
            have : s < t + 1 ↔ s < t := by omega
            simp only [this]
    obtain ⟨A, qA, rA⟩ := key l.length le_rfl
    refine ⟨A, qA, rA.1, fun s hs j hj x hx y hy => ?_⟩
    rw [rA.2 s hs j hj x hx y hy]
    simp [hs]

/-- The pattern of exposure `e` when the object it sees is `sel`. -/
noncomputable def Bragg.patternOf (M : Bragg n m a b N k) (W : Fin N → ℝ) (e : BatchItem N) (sel : Wave a b) : Img ℝ :=
  (M.companion W).recorded fun x y => ∑ j, ‖M.toDetector (M.exitWave W e.1 e.2 sel (M.probe j)) x y‖ ^ 2

theorem bragg_patternOf (M : Bragg n m a b N k) (e : BatchItem N) (Q : Img ℝ) (hQ : M.forward e.1 e.2 = .ok Q) :
    ∃ W, M.weights = some W ∧ SameWindows M.obj a b 1 (fun _ => M.pixTrans e.1 e.2) a b ∧
      Q = M.patternOf W e (seen M.obj a b (M.pixTrans e.1 e.2) a b) := by
  cases hW : M.weights with
  | none => unfold Bragg.forward at hQ; rw [hW] at hQ; exact (nomatch hQ)
  | some W =>
    rw [M.forward_eq W hW] at hQ
    cases hw : objWindow a b M.obj ⌊M.pixTrans e.1 e.2 0⌋ ⌊M.pixTrans e.1 e.2 1⌋ with
    | error _ => rw [hw] at hQ; exact (nomatch hQ)
    | ok sel =>
      rw [hw] at hQ
      obtain ⟨h1, h2⟩ := objWindow_seen M.obj (M.pixTrans e.1 e.2) sel hw
      refine ⟨W, rfl, h1, ?_⟩
      rw [← Except.ok.inj hQ, h2]
      rfl

theorem incoming_exit (M : Bragg n m a b N k) (W : Fin N → ℝ) (e : BatchItem N) (sel : Wave a b) (j : Fin k) :
    (fun x y => (M.probeNorm : ℂ) * sincApply false (M.pixTrans e.1 e.2 0, M.pixTrans e.1 e.2 1) sel
      (padProbe a b (M.onSample (M.distance e.2) (M.incoming W e j))) x y : Wave a b) = M.exitWave W e.1 e.2 sel (M.probe j) := by
  have h : M.incoming W e j = fun x y => W e.1 * M.probe j x y * (if M.support x y then 1 else 0) := by
    funext x y
    unfold Bragg.incoming modeOf
    rw [dif_pos (show j.val < (Weights.perShot W : Weights N k).rank from j.2), M.companion_probes]
    rfl
  rw [h]
  rfl

theorem bragg_detector {A : Tensor ℂ} {lead : List ℕ} {f : List ℕ → Wave a b} (M : Bragg n m a b N k) (h : RepW A lead f) :
    ∃ A', (A.planes a b a b fun g x y => M.toDetector (fun u v => g u.val v.val) x y) = .ok A' ∧
      RepW A' lead fun i => (fun x y => M.toDetector (f i) x.val y.val : Wave a b) := by
  refine h.planes _ (fun w x y => M.toDetector w x.val y.val) fun g w hg x hx y hy => ?_
  beta_reduce
  rw [ZMod.val_natCast_of_lt hx, ZMod.val_natCast_of_lt hy]
  congr 1
  funext u v
  rw [hg _ (ZMod.val_lt u) _ (ZMod.val_lt v), ZMod.natCast_zmod_val, ZMod.natCast_zmod_val]

/-- **C116** (Bragg2DPtycho, batches). -/
theorem bragg_batch_forward (M : Bragg n m a b N k) (hfit : PixelsFit M.oversampling a b M.background)
    (l : List (Fin N × (Fin 3 → ℝ))) (hl : l ≠ []) (Q : ℕ → Img ℝ) (hQ : ∀ s (hs : s < l.length), M.forward l[s].1 l[s].2 = .ok (Q s)) :
    ∃ T, M.batchForward (.many l) = .ok T ∧ T.shape = [l.length, M.background.h, M.background.w] ∧
      ∀ s < l.length, (Q s).h = M.background.h ∧ (Q s).w = M.background.w ∧
        ∀ i < M.background.h, ∀ j < M.background.w, T.get [s, i, j] = (Q s).px i j := by
  have hpos : 0 < l.length := List.length_pos_iff.2 hl
  obtain ⟨W, hW, -⟩ := bragg_patternOf M l[0] (Q 0) (hQ 0 hpos)
  have hf : ∀ s (hs : s < l.length), SameWindows M.obj a b 1 (fun _ => M.pixTrans l[s].1 l[s].2) a b ∧
      Q s = M.patternOf W l[s] (seen M.obj a b (M.pixTrans l[s].1 l[s].2) a b) := by
    intro s hs
    obtain ⟨W', hW', h⟩ := bragg_patternOf M l[s] (Q s) (hQ s hs)
    obtain rfl : W' = W := by rw [hW] at hW'; exact (Option.some.inj hW').symm
    exact h
  set ex : ℕ → BatchItem N := fun s => (l[s]?).getD l[0] with hexd
  have hexv : ∀ s (hs : s < l.length), ex s = l[s] := fun s hs => by simp [hexd, hs]
  have hex : ∀ s < l.length, l[s]? = some (ex s) := fun s hs => by rw [hexv s hs]; simp [hs]
  have hF : DetectorFits (M.companion W) := ⟨hfit.rows, hfit.cols, hfit.background, fun _ hq => nomatch hq⟩
  obtain ⟨P1, q1, r1⟩ := bragg_probes_many M W hW l ex hex
  obtain ⟨P2, q2, r2⟩ := bragg_propagated_many M l ex hex r1
  obtain ⟨P3, q3, r3⟩ := r2.planes (padProbe (n := n) (m := m) a b)
  have hr := rows2_many l ex hex fun e => M.pixTrans e.1 e.2
  obtain ⟨P4, q4, r4⟩ := sinc2D_many hpos r3 M.obj ((Batch.many l).rows [2] fun e i => comp2 (M.pixTrans e.1 e.2) i)
    (fun s => M.pixTrans (ex s).1 (ex s).2) rfl (fun s hs => (hr s hs).1) (fun s hs => (hr s hs).2) (Or.inl rfl) (Or.inl rfl)
    ⟨fun s hs => by rw [hexv s hs]; exact (hf s hs).1.rows 0 one_pos, fun s hs => by rw [hexv s hs]; exact (hf s hs).1.cols 0 one_pos⟩ false
  obtain ⟨P5, q5, r5⟩ := bragg_detector M (r4.map fun z => (M.probeNorm : ℂ) * z).toW
  obtain ⟨T, q6, r6⟩ := batchMeasurement_many (M.companion W) hF r5.to4
  refine ⟨T, ?_, ?_, fun s hs => ?_⟩
  · unfold Bragg.batchForward Bragg.batchInteraction
    rw [q1]
    simp only [Except.bind]
    rw [q2]
    simp only
    rw [q3]
    simp only
    rw [q4]
    simp only [Except.map]
    rw [q5]
    exact q6
  · rw [r6.1, hfit.background.1, hfit.background.2]
    rfl
  · rw [(hf s hs).2]
    have hsh := recorded_shape (M.companion W) fun x y => ∑ j, ‖M.toDetector (M.exitWave W l[s].1 l[s].2
      (seen M.obj a b (M.pixTrans l[s].1 l[s].2) a b) (M.probe j)) x y‖ ^ 2
    rw [hfit.background.1, hfit.background.2]
    refine ⟨hsh.1, hsh.2, fun i hi j hj => ?_⟩
    rw [r6.2 s hs i hi j hj]
    refine recorded_congr _ _ _ (fun x hx y hy => ?_) i j hi hj
    rw [Finset.sum_range]
    refine sum_congr rfl fun u _ => ?_
    simp only [List.getD_cons_zero, List.getD_cons_succ, ZMod.val_natCast_of_lt hx, ZMod.val_natCast_of_lt hy]
    rw [hexv s hs, incoming_exit]

theorem bragg_propagated_one (M : Bragg n m a b N k) (e : BatchItem N) {P : Tensor ℂ} {f : ℕ → Wave n m} (hP : Rep3 P k f)
    (h : M.propagateProbe = false ∨ k ≤ 1) :
    ∃ P', M.batchPropagated (.one e) P = .ok P' ∧ Rep3 P' k fun j => M.onSample (M.distance e.2) (f j) := by
  unfold Bragg.batchPropagated Bragg.onSample
  cases hp : M.propagateProbe with
  | false => exact ⟨P, rfl, hP⟩
  | true =>
    simp only [if_true]
    have hS : P.shape.headD 0 = k := by rw [hP.1]; rfl
    rw [hS]
    have hk : k ≤ 1 := h.resolve_left (by rw [hp]; simp)
    rcases Nat.le_one_iff_eq_zero_or_eq_one.1 hk with h0 | h1
    · subst h0
      exact ⟨P, rfl, hP.1, fun j hj => absurd hj (by simp)⟩
    · have hrow : RepW (P.row 0) [] fun _ => f 0 := by
        refine ⟨by simp [Tensor.row, hP.1], fun i hi x hx y hy => ?_⟩
        cases hi
        exact hP.2 0 (by omega) x hx y hy
      obtain ⟨C, qC, rC⟩ := hrow.near (P := ⟨[n, m], fun i => M.propagator (M.distance e.2)
          (i.getD 0 0 : ZMod n) (i.getD 1 0 : ZMod m)⟩) (M.propagator (M.distance e.2)) rfl (fun x _ y _ => rfl)
      refine ⟨P.setRow 0 C, ?_, hP.1, fun j hj x hx y hy => ?_⟩
      · have hk1 : List.range k = [0] := by rw [h1]; rfl
        rw [hk1]
        have : M.propagateRow (M.batchDistances (.one e)) P 0 = .ok (P.setRow 0 C) := by
          unfold Bragg.propagateRow
          rw [if_neg (by simp [Bragg.batchDistances])]
          exact (congrArg (Except.map (P.setRow 0)) qC)
        show (M.propagateRow (M.batchDistances (.one e)) P 0).bind _ = _
        rw [this]
        rfl
      · obtain rfl : j = 0 := by omega
        show (if (0 : ℕ) = 0 then C.get [x, y] else P.get [0, x, y]) = _
        rw [if_pos rfl]
        exact rC.2 [] .nil x hx y hy

/-- **C116** (Bragg2DPtycho, one exposure): if the probe is not propagated or has a single mode, the index and translation of one exposure give its
pattern. -/
theorem bragg_single_forward (M : Bragg n m a b N k) (hfit : PixelsFit M.oversampling a b M.background) (h : M.propagateProbe = false ∨ k ≤ 1)
    (e : Fin N × (Fin 3 → ℝ)) (Q : Img ℝ) (hQ : M.forward e.1 e.2 = .ok Q) :
    ∃ T, M.batchForward (.one e) = .ok T ∧ T.shape = [M.background.h, M.background.w] ∧ Q.h = M.background.h ∧ Q.w = M.background.w ∧
      ∀ i < M.background.h, ∀ j < M.background.w, T.get [i, j] = Q.px i j := by
  obtain ⟨W, hW, hw, he⟩ := bragg_patternOf M e Q hQ
  have hF : DetectorFits (M.companion W) := ⟨hfit.rows, hfit.cols, hfit.background, fun _ hq => nomatch hq⟩
  obtain ⟨P1, q1, r1⟩ := bragg_probes_one M W hW e
  obtain ⟨P2, q2, r2⟩ := bragg_propagated_one M e r1 h
  obtain ⟨P3, q3, r3⟩ := r2.planes (padProbe (n := n) (m := m) a b)
  obtain ⟨P4, q4, r4⟩ := sinc2D_one r3 M.obj ((Batch.one e).rows [2] fun e i => comp2 (M.pixTrans e.1 e.2) i)
    (M.pixTrans e.1 e.2) rfl rfl rfl (Or.inl rfl) (Or.inl rfl) hw false
  obtain ⟨P5, q5, r5⟩ := bragg_detector M (r4.map fun z => (M.probeNorm : ℂ) * z).toW
  obtain ⟨T, q6, r6⟩ := batchMeasurement_one (M.companion W) hF r5.to3
  have hsh := recorded_shape (M.companion W) fun x y => ∑ j, ‖M.toDetector (M.exitWave W e.1 e.2
      (seen M.obj a b (M.pixTrans e.1 e.2) a b) (M.probe j)) x y‖ ^ 2
  refine ⟨T, ?_, ?_, ?_⟩
  · unfold Bragg.batchForward Bragg.batchInteraction
    rw [q1]
    simp only [Except.bind]
    rw [q2]
    simp only
    rw [q3]
    simp only
    rw [q4]
    simp only [Except.map]
    rw [q5]
    exact q6
  · rw [r6.1, hfit.background.1, hfit.background.2]
    rfl
  · rw [he, hfit.background.1, hfit.background.2]
    refine ⟨hsh.1, hsh.2, fun i hi j hj => ?_⟩
    rw [r6.2 i hi j hj]
    refine recorded_congr _ _ _ (fun x hx y hy => ?_) i j hi hj
    rw [Finset.sum_range]
    refine sum_congr rfl fun u _ => ?_
    simp only [List.getD_cons_zero, ZMod.val_natCast_of_lt hx, ZMod.val_natCast_of_lt hy]
    rw [incoming_exit]

/-- **C116 fails** for one exposure of a Bragg2DPtycho model that propagates a probe of several modes: the loop over the exposures runs over the modes,
which have no distances (IndexError). -/
theorem bragg_single_modes_violated (M : Bragg n m a b N k) (W : Fin N → ℝ) (hW : M.weights = some W) (hp : M.propagateProbe = true) (hk : 2 ≤ k)
    (e : Fin N × (Fin 3 → ℝ)) : M.batchForward (.one e) = .error .indexError := by
  obtain ⟨P, q1, r1⟩ := bragg_probes_one M W hW e
  have hS : P.shape.headD 0 = k := by rw [r1.1]; rfl
  have hrow : RepW (P.row 0) [] fun _ => M.incoming W e 0 := by
    refine ⟨by simp [Tensor.row, r1.1], fun i hi x hx y hy => ?_⟩
    cases hi
    exact r1.2 0 (by omega) x hx y hy
  obtain ⟨C, qC, -⟩ := hrow.near (P := ⟨[n, m], fun i => M.propagator (M.distance e.2)
      (i.getD 0 0 : ZMod n) (i.getD 1 0 : ZMod m)⟩) (M.propagator (M.distance e.2)) rfl (fun x _ y _ => rfl)
  have s0 : M.propagateRow (M.batchDistances (.one e)) P 0 = .ok (P.setRow 0 C) := by
    unfold Bragg.propagateRow
    rw [if_neg (by simp [Bragg.batchDistances])]
    exact (congrArg (Except.map (P.setRow 0)) qC)
  have s1 : ∀ A, M.propagateRow (M.batchDistances (.one e)) A 1 = .error .indexError := fun A => if_pos (by simp [Bragg.batchDistances])
  have q2 : M.batchPropagated (.one e) P = .error .indexError := by
    unfold Bragg.batchPropagated
    rw [hp, hS]
    obtain ⟨j, rfl⟩ : ∃ j, k = j + 2 := ⟨k - 2, by omega⟩
    rw [if_pos rfl, List.range_succ_eq_map, List.range_succ_eq_map]
    rw [List.map_cons, List.foldlM_cons, s0]
    change List.foldlM (M.propagateRow (M.batchDistances (.one e))) (P.setRow 0 C) (1 :: List.map Nat.succ (List.map Nat.succ (List.range j))) = _
    rw [List.foldlM_cons, s1]
    rfl
  unfold Bragg.batchForward Bragg.batchInteraction
  rw [q1]
  simp only [Except.bind]
  rw [q2]

/-- **C116 fails** for Bragg2DPtycho models without weights, for one exposure and for many. -/
theorem bragg_batch_without_weights_violated (M : Bragg n m a b N k) (hW : M.weights = none) (B : Batch N) :
    M.batchForward B = .error .typeError := by
  unfold Bragg.batchForward Bragg.batchInteraction Bragg.batchProbes
  rw [hW]
  rfl

/-! ### SimplePtycho -/

/-- The object at the rounded position. -/
noncomputable def seenRound (O : Img ℂ) (n m : ℕ) (q : Fin 2 → ℝ) : Wave n m := fun x y =>
  O.px ((sliceExtent O.h (roundHalfEven (q 0)) (roundHalfEven (q 0) + n)).1 + x.val)
    ((sliceExtent O.w (roundHalfEven (q 1)) (roundHalfEven (q 1) + m)).1 + y.val)

theorem round2D_stack (probe : Wave n m) (O : Img ℂ) (T : Tensor ℝ) (S : ℕ) (hS : 0 < S) (p : ℕ → Fin 2 → ℝ)
    (hp : ∀ s < S, T.get [s, 0] = p s 0 ∧ T.get [s, 1] = p s 1)
    (hw : ∀ s < S, (sliceExtent O.h (roundHalfEven (p s 0)) (roundHalfEven (p s 0) + n)).2 = n ∧
      (sliceExtent O.w (roundHalfEven (p s 1)) (roundHalfEven (p s 1) + m)).2 = m) :
    ∃ A sel, Tensor.stack ((List.range S).map fun s => O.tensor.window n m (roundHalfEven (T.get [s, 0])) (roundHalfEven (T.get [s, 1]))) = .ok sel ∧
      Tensor.bop (· * ·) (⟨[n, m], fun i => probe (i.getD 0 0 : ZMod n) (i.getD 1 0 : ZMod m)⟩ : Tensor ℂ) sel = .ok A ∧
      Rep3 A S fun s x y => probe x y * seenRound O n m (p s) x y := by
  obtain ⟨sel, es, ss, vs⟩ := stack_range S hS (fun s => O.tensor.window n m (roundHalfEven (T.get [s, 0])) (roundHalfEven (T.get [s, 1]))) [n, m]
    (fun s hs => by
      rw [(hp s hs).1, (hp s hs).2]
      simp only [Tensor.window, Img.tensor, List.length_cons, List.length_nil]
      show [(sliceExtent O.h (roundHalfEven (p s 0)) (roundHalfEven (p s 0) + n)).2, (sliceExtent O.w (roundHalfEven (p s 1))
        (roundHalfEven (p s 1) + m)).2] = _
      rw [(hw s hs).1, (hw s hs).2])
  have hb : broadcastShapes [n, m] [S, n, m] = some [S, n, m] := by simp [broadcastShapes, bcRev]
  have key : ∃ A, Tensor.bop (· * ·) (⟨[n, m], fun i => probe (i.getD 0 0 : ZMod n) (i.getD 1 0 : ZMod m)⟩ : Tensor ℂ) sel = .ok A ∧
      Rep3 A S fun s x y => probe x y * seenRound O n m (p s) x y := by
    unfold Tensor.bop
    rw [ss]
    simp only [hb]
    refine ⟨_, rfl, rfl, fun s hs x hx y hy => ?_⟩
    show Tensor.bget _ [s, x, y] * Tensor.bget _ [s, x, y] = _
    unfold Tensor.bget
    rw [ss]
    simp only [List.length_cons, List.length_nil, Nat.reduceAdd, Nat.reduceSub, Nat.sub_self, List.drop_zero, List.drop_succ_cons,
      List.zipWith_cons_cons, List.zipWith_nil_left, bcIdx hs, bcIdx hx, bcIdx hy, List.getD_cons_zero, List.getD_cons_succ]
    rw [vs s hs]
    simp only [Tensor.window, Img.tensor, List.length_cons, List.length_nil]
    show _ * O.px _ _ = _
    unfold seenRound
    rw [(hp s hs).1, (hp s hs).2, ZMod.val_natCast_of_lt hx, ZMod.val_natCast_of_lt hy]
    rfl
  obtain ⟨A, q, r⟩ := key
  exact ⟨A, sel, es, q, r⟩

theorem simple_patternOf (M : Simple n m) (t : Fin 3 → ℝ) (Q : Img ℝ) (hQ : M.forward t = .ok Q) :
    ((sliceExtent M.obj.h (roundHalfEven (M.pixTrans t 0)) (roundHalfEven (M.pixTrans t 0) + n)).2 = n ∧
      (sliceExtent M.obj.w (roundHalfEven (M.pixTrans t 1)) (roundHalfEven (M.pixTrans t 1) + m)).2 = m) ∧ Q.h = n ∧ Q.w = m ∧
    ∀ i j, Q.px i j = ‖farField (fun x y => (M.probeNorm : ℂ) * M.probe x y * seenRound M.obj n m (M.pixTrans t) x y : Wave n m) i j‖ ^ 2 + 1e-7 := by
  unfold Simple.forward roundExit objWindow at hQ
  simp only at hQ
  split_ifs at hQ with h
  · refine ⟨h, ?_⟩
    rw [← Except.ok.inj hQ]
    exact ⟨rfl, rfl, fun i j => rfl⟩
  · exact (nomatch hQ)

theorem simple_read {A : Tensor ℂ} {lead : List ℕ} {f : List ℕ → Wave n m} (h : RepW A lead f) :
    ∃ T : Tensor ℝ, ((A.planes n m n m (onWave fun w : Wave n m => farField w)).map fun w => w.map fun z => ‖z‖ ^ 2 + 1e-7) = .ok T ∧
      T.shape = lead ++ [n, m] ∧ ∀ i, List.Forall₂ (· < ·) i lead → ∀ x < n, ∀ y < m, T.get (i ++ [x, y]) = ‖farField (f i) x y‖ ^ 2 + 1e-7 := by
  obtain ⟨A1, q1, r1⟩ := h.planes (onWave fun u : Wave n m => farField u) (fun u => farField u) (fun g w hg x _ y _ => onWave_eq _ g w hg x y)
  rw [q1]
  refine ⟨_, rfl, r1.1, fun i hi x hx y hy => ?_⟩
  show ‖A1.get (i ++ [x, y])‖ ^ 2 + 1e-7 = _
  rw [r1.2 i hi x hx y hy]

/-- **C116** (SimplePtycho): a list of exposures gives the stack of their patterns, and one exposure its pattern. -/
theorem simple_batch_forward (M : Simple n m) (l : List (Fin N × (Fin 3 → ℝ))) (hl : l ≠ []) (Q : ℕ → Img ℝ)
    (hQ : ∀ s (hs : s < l.length), M.forward l[s].2 = .ok (Q s)) :
    (∃ T, M.batchForward (.many l) = .ok T ∧ T.shape = [l.length, n, m] ∧
      ∀ s < l.length, (Q s).h = n ∧ (Q s).w = m ∧ ∀ i < n, ∀ j < m, T.get [s, i, j] = (Q s).px i j) ∧
    ∀ s (hs : s < l.length), ∃ T, M.batchForward (.one l[s]) = .ok T ∧ T.shape = [n, m] ∧ ∀ i < n, ∀ j < m, T.get [i, j] = (Q s).px i j := by
  have hpos : 0 < l.length := List.length_pos_iff.2 hl
  have hf : ∀ s (hs : s < l.length), _ := fun s hs => simple_patternOf M l[s].2 (Q s) (hQ s hs)
  constructor
  · set ex : ℕ → BatchItem N := fun s => (l[s]?).getD l[0] with hexd
    have hexv : ∀ s (hs : s < l.length), ex s = l[s] := fun s hs => by simp [hexd, hs]
    have hex : ∀ s < l.length, l[s]? = some (ex s) := fun s hs => by rw [hexv s hs]; simp [hs]
    have hr := rows2_many l ex hex fun e => M.pixTrans e.2
    obtain ⟨A, sel, q1, q2, r⟩ := round2D_stack (fun x y => (M.probeNorm : ℂ) * M.probe x y) M.obj
      ((Batch.many l).rows [2] fun e i => comp2 (M.pixTrans e.2) i) l.length hpos (fun s => M.pixTrans (ex s).2) hr
      (fun s hs => by beta_reduce; rw [hexv s hs]; exact (hf s hs).1)
    obtain ⟨T, q3, s3, v3⟩ := simple_read r.toW
    refine ⟨T, ?_, s3, fun s hs => ⟨(hf s hs).2.1, (hf s hs).2.2.1, fun i hi j hj => ?_⟩⟩
    · unfold Simple.batchForward round2D
      simp only [show decide (((Batch.many l).rows [2] fun e i => comp2 (M.pixTrans e.2) i).shape.length = 1) = false from rfl, Bool.false_eq_true, if_false]
      rw [show (((Batch.many l).rows [2] fun e i => comp2 (M.pixTrans e.2) i).shape.headD 0) = l.length from rfl, q1]
      simp only [Except.bind]
      rw [q2]
      exact q3
    · rw [(hf s hs).2.2.2 i j, ← hexv s hs]
      exact v3 [s] (.cons hs .nil) i hi j hj
  · intro s hs
    obtain ⟨A, sel, q1, q2, r⟩ := round2D_stack (fun x y => (M.probeNorm : ℂ) * M.probe x y) M.obj
      (((Batch.one l[s]).rows [2] fun e i => comp2 (M.pixTrans e.2) i).newAxis 1) 1 one_pos (fun _ => M.pixTrans l[s].2)
      (fun s' hs' => by obtain rfl : s' = 0 := by omega
                        exact ⟨rfl, rfl⟩)
      (fun _ _ => (hf s hs).1)
    have r' : RepW A.first [] fun _ => (fun x y => (M.probeNorm : ℂ) * M.probe x y * seenRound M.obj n m (M.pixTrans l[s].2) x y : Wave n m) := by
      refine ⟨by simp [Tensor.first, r.1], fun i hi x hx y hy => ?_⟩
      cases hi
      exact r.2 0 one_pos x hx y hy
    obtain ⟨T, q3, s3, v3⟩ := simple_read r'
    refine ⟨T, ?_, s3, fun i hi j hj => ?_⟩
    · unfold Simple.batchForward round2D
      simp only [show decide (((Batch.one l[s]).rows [2] fun e i => comp2 (M.pixTrans e.2) i).shape.length = 1) = true from rfl, if_true]
      rw [show ((((Batch.one l[s]).rows [2] fun e i => comp2 (M.pixTrans e.2) i).newAxis 1).shape.headD 0) = 1 from rfl, q1]
      simp only [Except.bind]
      rw [q2]
      exact q3
    · rw [(hf s hs).2.2.2 i j]
      exact v3 [] .nil i hi j hj

/-! ### Models that meet the hypotheses -/

/-- A MultislicePtycho model of three slices: a batch that visits one exposure twice, and (with explicit weights) the exposure alone. -/
example : ∃ Q, (∀ s (hs : s < [((0 : Fin 1), (0 : Fin 3 → ℝ)), (0, 0)].length),
      (toyMultislice [clearSlice, clearSlice, toySlice]).forward [((0 : Fin 1), (0 : Fin 3 → ℝ)), (0, 0)][s].1 [((0 : Fin 1), (0 : Fin 3 → ℝ)), (0, 0)][s].2 = .ok Q) ∧
    PixelsFit (toyMultislice []).oversampling 2 1 (toyMultislice []).background ∧
    ({ toyMultislice [clearSlice, clearSlice, toySlice] with weights := some (.perShot fun _ => 1) } : Multislice 2 1 2 1 1 1).forward 0 0 = .ok Q := by
  have h := toy_forward 2
  refine ⟨_, fun s hs => ?_, ⟨by decide, by decide, by decide, by decide⟩, h⟩
  match s, hs with
  | 0, _ => exact h
  | 1, _ => exact h

/-- A tilted sample out of focus, with a propagated probe of one mode. -/
example : ∃ Q, (∀ s (hs : s < [((0 : Fin 1), (![-1, -2, 0] : Fin 3 → ℝ)), (0, ![-1, -2, 0])].length),
      toyBragg.forward [((0 : Fin 1), (![-1, -2, 0] : Fin 3 → ℝ)), (0, ![-1, -2, 0])][s].1 [((0 : Fin 1), (![-1, -2, 0] : Fin 3 → ℝ)), (0, ![-1, -2, 0])][s].2 = .ok Q) ∧
    PixelsFit toyBragg.oversampling 2 2 toyBragg.background ∧ toyBragg.propagateProbe = true ∧ toyBragg.weights ≠ none := by
  have hT : Transverse toyBragg.objBasis ![0, 0, 1] := by
    unfold Transverse
    simp [toyBragg, Vec3.dot, Vec3.cross, col]
  have hu := (project_translations_meet_sample toyBragg.objBasis hT ![-1, -2, 0]).2 ![2, 1] 1 (by
    funext i
    fin_cases i <;> simp [toyBragg, mulVec, dotProduct])
  have hp : toyBragg.pixTrans 0 ![-1, -2, 0] = ![((2 : ℕ) : ℝ), ((1 : ℕ) : ℝ)] := by
    have e : toyBragg.pixTrans 0 ![-1, -2, 0] = (projectToSample toyBragg.objBasis ![-1, -2, 0]).1 - 0 := rfl
    rw [e, ← hu.1]; simp
  have h := bragg_forward_integer toyBragg (fun _ => 3) rfl 0 ![-1, -2, 0] 2 1 hp (by decide)
  generalize (toyBragg.record _) = Q at h
  refine ⟨Q, fun s hs => ?_, ⟨by decide, by decide, by decide, by decide⟩, rfl, by simp [toyBragg]⟩
  match s, hs with
  | 0, _ => exact h
  | 1, _ => exact h

/-- A SimplePtycho model at pixel position (1, 0) of a 3 × 1 object. -/
example : ∃ Q, ∀ s (hs : s < [((0 : Fin 1), (0 : Fin 3 → ℝ)), (0, 0)].length),
    (⟨fun _ _ => 1, 2, ⟨3, 1, fun i _ => i⟩, !![0, -1; -1, 0; 0, 0], ![-1, 0]⟩ : Simple 2 1).forward [((0 : Fin 1), (0 : Fin 3 → ℝ)), (0, 0)][s].2 = .ok Q := by
  set M : Simple 2 1 := ⟨fun _ _ => 1, 2, ⟨3, 1, fun i _ => i⟩, !![0, -1; -1, 0; 0, 0], ![-1, 0]⟩ with hM
  have hp : M.pixTrans 0 = ![((1 : ℤ) : ℝ), ((0 : ℤ) : ℝ)] := by
    unfold Simple.pixTrans
    simp only [hM, translationsToPixel, Matrix.mulVec_zero]
    funext i; fin_cases i <;> simp
  have h := simple_forward M 0 1 0 (by rw [hp]; exact roundHalfEven_int 1) (by rw [hp]; exact roundHalfEven_int 0)
    ⟨by simp [hM], by simp [hM]⟩
  rcases hq : M.forward 0 with _ | Q
  · rw [hq] at h; cases h
  refine ⟨Q, fun s hs => ?_⟩
  match s, hs with
  | 0, _ => exact hq
  | 1, _ => exact hq

end Cdtools
