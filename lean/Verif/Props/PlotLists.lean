/-
C108: the plots of `inspect()` show what their titles say.
-/
import Verif.Model.PlotLists
import Verif.Props.Inspect
import Verif.Props.Propagators
import Verif.Props.Measurements
import Verif.Props.Entropy
import Verif.Lemmas.FancyLinear
import Mathlib.Analysis.SpecialFunctions.Complex.Arg

set_option linter.unusedSectionVars false

namespace Cdtools
open Finset Matrix ZMod

/-! ### Layout -/

/-- The subplots fill a grid of `rows × cols`, each place once. -/
def Tiles (rows cols : ℕ) (slots : List (ℕ × ℕ)) : Prop :=
  slots.Nodup ∧ ∀ p : ℕ × ℕ, p ∈ slots ↔ p.1 < rows ∧ p.2 < cols

theorem tiles_iff (rows cols : ℕ) (slots : List (ℕ × ℕ)) (h : slots.Nodup)
    (h' : slots.Perm (List.product (List.range rows) (List.range cols))) : Tiles rows cols slots := by
  refine ⟨h, fun p => ?_⟩
  rw [h'.mem_iff]
  constructor
  · intro hp
    have := List.pair_mem_product.mp hp
    exact ⟨List.mem_range.mp this.1, List.mem_range.mp this.2⟩
  · intro hp
    exact List.pair_mem_product.mpr ⟨List.mem_range.mpr hp.1, List.mem_range.mpr hp.2⟩

/-- **C108** (layout). In every state of the model the plots drawn in each panel fill the grid of the panel, no two of them in
the same place: 'Main Results' 2 × 2, 'Advanced Monitoring' 2 × 3, 'Unstable Probe Refinement Details' (for weight matrices)
1 × 2, 'RPI Results' 1 × 3. -/
theorem panels_tile (expo : Bool) (dim : ℕ) (hd : 2 ≤ dim) :
    Tiles 2 2 (((fancyMain expo).filter (·.enabled)).map (·.slot)) ∧
    Tiles 2 3 ((fancyAdvanced.filter (·.enabled)).map (·.slot)) ∧
    Tiles 1 2 (((fancyUnstable dim).filter (·.enabled)).map (·.slot)) ∧
    Tiles 1 3 (((rpiPanel expo).filter (·.enabled)).map (·.slot)) := by
  have h : decide (2 ≤ dim) = true := by simpa using hd
  refine ⟨?_, ?_, ?_, ?_⟩
  · cases expo <;> exact tiles_iff _ _ _ (by decide) (by decide)
  · exact tiles_iff _ _ _ (by decide) (by decide)
  · unfold fancyUnstable
    rw [h]
    exact tiles_iff _ _ _ (by decide) (by decide)
  · cases expo <;> exact tiles_iff _ _ _ (by decide) (by decide)

/-- The titles of the plots of a list whose condition holds. -/
def titlesWanted (l : List Inspect.Plot) : List String :=
  (l.filter fun p => match Inspect.evalCond p.condition with
    | .ok b => b
    | .error _ => false).map (·.title)

/-- **C108** (windows). `FancyPtycho`: all plots that are to be drawn have titles of their own, so that `inspect` gives each of
them a window of its own; and no condition raises. -/
theorem fancy_titles_distinct (expo qe : Bool) (dim : ℕ) (out : Outcomes) :
    (titlesWanted (Inspect.flatten (fancyPanels expo dim out) ++ fancyPlots qe dim out)).Nodup ∧
    (∀ p ∈ Inspect.flatten (fancyPanels expo dim out) ++ fancyPlots qe dim out,
      ∃ b, Inspect.evalCond p.condition = .ok b) := by
  have hd : decide (2 ≤ dim) = true ∨ decide (2 ≤ dim) = false := by cases decide (2 ≤ dim) <;> simp
  constructor
  · simp only [Inspect.flatten, fancyPanels, fancyPlots, toPlots, fancyMain, fancyAdvanced, fancyUnstable, List.flatMap_cons,
      List.flatMap_nil, List.zipIdx_cons, List.zipIdx_nil, List.map_cons, List.map_nil, Option.map_some, Option.map_none,
      List.append_nil, List.cons_append, List.nil_append]
    rcases hd with hd | hd <;> rw [hd] <;> cases expo <;> cases qe <;> simp [titlesWanted, Inspect.evalCond]
  · intro p hp
    simp only [Inspect.flatten, fancyPanels, fancyPlots, toPlots, fancyMain, fancyAdvanced, fancyUnstable, List.flatMap_cons,
      List.flatMap_nil, List.zipIdx_cons, List.zipIdx_nil, List.map_cons, List.map_nil, Option.map_some, Option.map_none,
      List.append_nil, List.cons_append, List.nil_append, List.mem_cons, List.not_mem_nil, or_false] at hp
    rcases hp with rfl | rfl | rfl | rfl | rfl | rfl | rfl | rfl | rfl | rfl | rfl | rfl | rfl | rfl | rfl | rfl | rfl | rfl <;>
      exact ⟨_, rfl⟩

/-- **C108** (which plots). `FancyPtycho` draws object phase and amplitude exactly if the object is not exponentiated, real and imaginary part
exactly if it is, the quantum efficiency mask exactly if there is one, and the five views of weight matrices exactly if there are some. -/
theorem fancy_plots_wanted (expo qe : Bool) (dim : ℕ) (out : Outcomes) :
    let w := titlesWanted (Inspect.flatten (fancyPanels expo dim out) ++ fancyPlots qe dim out)
    ("Object Phase" ∈ w ↔ expo = false) ∧ ("Object Amplitude" ∈ w ↔ expo = false) ∧
    ("Real Part of T" ∈ w ↔ expo = true) ∧ ("Imaginary Part of T" ∈ w ↔ expo = true) ∧
    ("Quantum Efficiency Mask" ∈ w ↔ qe = true) ∧
    (∀ t ∈ ["% of Power in Top Mode", "Mean Weight Matrix Amplitudes", "Per-Exposure Probe Intensity", "Per-Exposure Probe Amplitudes",
      "Per-Exposure Probe Phases"], t ∈ w ↔ 2 ≤ dim) ∧
    (∀ t ∈ ["Probe Modes, Colorized", "Probe Modes, Amplitude", "Probe Modes, Fourier Colorized", "Probe Modes, Fourier Amplitude",
      "Illumination Intensity", "Detector Background", "Corrected Translations", "Loss History"], t ∈ w) := by
  intro w
  have hd : (decide (2 ≤ dim) = true ∧ 2 ≤ dim) ∨ (decide (2 ≤ dim) = false ∧ ¬ 2 ≤ dim) := by
    by_cases h : 2 ≤ dim
    · exact .inl ⟨by simpa using h, h⟩
    · exact .inr ⟨by simpa using h, h⟩
  simp only [w, Inspect.flatten, fancyPanels, fancyPlots, toPlots, fancyMain, fancyAdvanced, fancyUnstable, List.flatMap_cons,
    List.flatMap_nil, List.zipIdx_cons, List.zipIdx_nil, List.map_cons, List.map_nil, Option.map_some, Option.map_none,
    List.append_nil, List.cons_append, List.nil_append]
  rcases hd with ⟨hd, h2⟩ | ⟨hd, h2⟩ <;> rw [hd] <;> cases expo <;> cases qe <;> simp [titlesWanted, Inspect.evalCond, h2]

/-- **C108** (which plots). `MultislicePtycho` with weights draws amplitude and phase of the slices and of their product exactly if the object is not
exponentiated, real and imaginary part of the slices and of their sum exactly if it is, and the views of weight matrices exactly if there are some. -/
theorem multislice_plots_wanted (d : ℕ) (expo : Bool) (out : Outcomes) :
    let w := titlesWanted (multislicePlots (some d) expo out)
    (∀ t ∈ ["Object Amplitude", "Object Phase", "Object Product Amplitude", "Object Product Phase"], t ∈ w ↔ expo = false) ∧
    (∀ t ∈ ["Object (T) Imaginary Part", "Object (T) Real Part", "Object (T) Sum Imaginary Part", "Object (T) Sum Real Part"], t ∈ w ↔ expo = true) ∧
    (∀ t ∈ ["", "Average Weight Matrix Amplitudes", "% of Power in Top Mode"], t ∈ w ↔ 2 ≤ d) ∧
    (∀ t ∈ ["Basis Probe Fourier Space Amplitudes", "Basis Probe Fourier Space Phases", "Basis Probe Real Space Amplitudes",
      "Basis Probe Real Space Phases", "Corrected Translations", "Background"], t ∈ w) := by
  intro w
  have hd : (decide (2 ≤ d) = true ∧ 2 ≤ d) ∨ (decide (2 ≤ d) = false ∧ ¬ 2 ≤ d) := by
    by_cases h : 2 ≤ d
    · exact .inl ⟨by simpa using h, h⟩
    · exact .inr ⟨by simpa using h, h⟩
  simp only [w, multislicePlots, multisliceTitles, weightsCondition, List.zipIdx_cons, List.zipIdx_nil, List.map_cons, List.map_nil]
  rcases hd with ⟨hd, h2⟩ | ⟨hd, h2⟩ <;> rw [hd] <;> cases expo <;> simp [titlesWanted, Inspect.evalCond, h2]

/-- The plots of a `FancyPtycho` model are numbered one by one: what one of them does does not depend on what another one does. -/
theorem fancy_outcomes (expo qe : Bool) (dim : ℕ) (out : Outcomes) :
    (Inspect.flatten (fancyPanels expo dim out) ++ fancyPlots qe dim out).map (fun p => (p.first, p.second)) = (List.range 18).map out := rfl

/-- **C108, violated part.** `MultislicePtycho` with weight matrices: the three views of the probes of each exposure (their
intensities, amplitudes and phases) have the same, empty title, so that they are drawn on one figure, one over the other. -/
theorem multislice_titles_violated (d : ℕ) (hd : 2 ≤ d) (expo : Bool) (out : Outcomes) (c : Inspect.Call) (mi : Option ℚ)
    (now done : ℚ) (hl : 1 ≤ c.plotLevel) (ho : ∀ i, ∃ k, (out i).1 = .drew k) :
    let r := Inspect.inspect c false mi now done [] (multislicePlots (some d) expo out) Inspect.initial
    r.2.2 = none → (r.2.1.map (·.1)).count "" = 3 := by
  intro r hr
  have hs : ¬ Inspect.Skipped Inspect.initial mi now := by
    rw [← Inspect.skip_iff]
    cases mi <;> simp [Inspect.skipNow, Inspect.initial]
  have h := (Inspect.inspect_shows c mi now done [] (multislicePlots (some d) expo out) Inspect.initial hs hr).1
  have hd' : decide (2 ≤ d) = true := by simpa using hd
  have hlv : Inspect.levelOk c none := by unfold Inspect.levelOk; simpa using hl
  have hv : ∀ t, Inspect.Visible c Inspect.initial t := fun t => .inl rfl
  have hdr : ∀ (p : Inspect.Plot) (i : ℕ), p.first = (out i).1 → Inspect.Draws c p := by
    intro p i hp
    obtain ⟨k, hk⟩ := ho i
    exact .inl ⟨k, by rw [hp, hk]⟩
  have key : (r.2.1.map (·.1)).count "" = 3 := by
    rw [show r.2.1 = _ from h]
    clear h hr
    simp only [List.flatMap_nil, List.nil_append, multislicePlots, multisliceTitles, weightsCondition, hd', List.zipIdx_cons,
      List.zipIdx_nil, List.map_cons, List.map_nil]
    have w : ∀ (t : String) (x : Option Inspect.CondRes) (i : ℕ),
        (Inspect.Wanted c none x ∧ Inspect.Visible c Inspect.initial t ∧
          Inspect.Draws c ⟨t, none, x, (out i).1, (out i).2⟩) ↔ Inspect.evalCond x = .ok true := by
      intro t x i
      exact ⟨fun h => h.1.2, fun h => ⟨⟨hlv, h⟩, hv t, hdr _ i rfl⟩⟩
    simp only [List.filter_cons, List.filter_nil, decide_eq_true_eq, w]
    cases expo <;> simp [Inspect.evalCond]
  exact key

/-- Such an inspection that raises nothing. -/
example : (Inspect.inspect ⟨0, 1, false, false⟩ false none 0 1 [] (multislicePlots (some 3) false fun _ => (.drew 0, .drew 0))
    Inspect.initial).2.2 = none := by
  simp [Inspect.inspect, Inspect.skipNow, Inspect.flatten, multislicePlots, multisliceTitles, weightsCondition,
    Inspect.individual, Inspect.levelOk, Inspect.evalCond, Inspect.tryDraw, Inspect.isClosed, Inspect.initial, Inspect.setFig]

/-- **C108, violated part.** A `MultislicePtycho` model without weights (`weights=None`, the default of the constructor) cannot
be inspected: the first condition raises, and nothing is drawn. -/
theorem multislice_no_weights_violated (expo : Bool) (out : Outcomes) (c : Inspect.Call) (now done : ℚ)
    (hl : 1 ≤ c.plotLevel) (s : Inspect.State) (mode : Bool) :
    let r := Inspect.inspect c mode none now done [] (multislicePlots none expo out) s
    r.2.2 = some .other ∧ r.2.1 = [] ∧ r.1 = s := by
  have hlv : Inspect.levelOk c none := by unfold Inspect.levelOk; simpa using hl
  have h : Inspect.individual c (multislicePlots none expo out) s = (s, [], [], some .other) := by
    simp only [multislicePlots, multisliceTitles, weightsCondition, List.zipIdx_cons, List.zipIdx_nil, List.map_cons,
      List.map_nil]
    unfold Inspect.individual
    rw [if_neg (not_not.2 hlv)]
    rfl
  intro r
  have hr : r = (s, [], some .other) := by
    show Inspect.inspect c mode none now done [] (multislicePlots none expo out) s = _
    unfold Inspect.inspect
    simp only [Inspect.skipNow, Bool.false_eq_true, if_false]
    cases mode
    · simp [Inspect.flatten, h]
    · simp [Inspect.panels, h]
  rw [hr]
  exact ⟨rfl, rfl, rfl⟩

/-! ### Probes -/

variable {n m a b N k : ℕ} [NeZero n] [NeZero m] [NeZero a] [NeZero b]

/-- **C108** (probes of `FancyPtycho`). For both representations of the probe, the Fourier space plot shows the far field of
what the real space plot shows; and if the probe vanishes outside its support (the constructor makes it so), the real space plot
shows the wave that illuminates the sample in the simulation, up to the norm of the probe. -/
theorem fancy_probe_plots (M : Fancy n m a b N k) (j : Fin k) :
    M.plotFourier j = farField (M.plotRealSpace j) ∧
    ((∀ x y, M.support x y = false → M.probe j x y = 0) → M.plotRealSpace j = M.basisProbes j) := by
  constructor
  · unfold Fancy.plotFourier Fancy.plotRealSpace
    cases M.fourierProbe
    · rfl
    · exact ((far_field_unitary).2.1 _).symm
  · intro hs
    have e : (fun x y => M.probe j x y * (if M.support x y then 1 else 0) : Wave n m) = M.probe j := by
      funext x y
      by_cases h : M.support x y = true
      · simp [h]
      · simp [h, hs x y (by simpa using h)]
    unfold Fancy.plotRealSpace Fancy.basisProbes
    simp only [e]
    cases M.fourierProbe <;> rfl

/-- `inverse_far_field` is `far_field` reflected about the zero frequency. -/
theorem inverseFarField_reflect (p : Wave n m) (x : ZMod n) (y : ZMod m) :
    inverseFarField p x y =
      farField p (2 * ((n / 2 : ℕ) : ZMod n) - x) (2 * ((m / 2 : ℕ) : ZMod m) - y) := by
  unfold inverseFarField farField fftshift2
  beta_reduce
  generalize ((n / 2 : ℕ) : ZMod n) = c
  generalize ((m / 2 : ℕ) : ZMod m) = d
  rw [ifft2_eq, fft2_eq]
  have hs : ∀ (i : ZMod n) (j : ZMod m), stdAddChar (-(i * (2 * c - x - c))) * stdAddChar (-(j * (2 * d - y - d))) =
      (stdAddChar ((x - c) * i) * stdAddChar ((y - d) * j) : ℂ) := by
    intro i j
    congr 2 <;> ring
  simp only [hs]
  have hn : ((Real.sqrt (n * m) : ℝ) : ℂ) ≠ 0 := sqrt_size_ne
  have hq : ((n : ℂ) * m) = (Real.sqrt (n * m) : ℂ) * (Real.sqrt (n * m) : ℂ) := by
    rw [← Complex.ofReal_mul, Real.mul_self_sqrt (by positivity)]
    push_cast
    rfl
  rw [hq]
  field_simp

/-- **C108, violated part.** `MultislicePtycho`, `Multislice2DPtycho` (for a real space probe) and `Bragg2DPtycho`: the plots
called 'Fourier space' show the far field turned by 180° about the zero frequency. For `MultislicePtycho` and
`Multislice2DPtycho` the plot of the same physical probe, stored in Fourier space, is not turned. -/
theorem fourier_plots_violated (M : Multislice n m a b N k) (M' : Multi2D n m N k) (B : Bragg n m a b N k) (j : Fin k)
    (x : ZMod n) (y : ZMod m) :
    let x' := 2 * ((n / 2 : ℕ) : ZMod n) - x
    let y' := 2 * ((m / 2 : ℕ) : ZMod m) - y
    (M.fourierProbe = false → M.plotFourier j x y = farField (M.plotRealSpace j) x' y') ∧
    (M'.fourierProbe = false → M'.plotFourier j x y = farField (M'.plotRealSpace j) x' y') ∧
    B.plotFourier j x y = farField (B.probe j) x' y' ∧
    (M.fourierProbe = true → M.plotFourier j x y = farField (M.plotRealSpace j) x y) ∧
    (M'.fourierProbe = true → M'.plotFourier j x y = farField (M'.plotRealSpace j) x y) := by
  refine ⟨fun h => ?_, fun h => ?_, inverseFarField_reflect _ _ _, fun h => ?_, fun h => ?_⟩
  · simp only [Multislice.plotFourier, Multislice.plotRealSpace, h, Bool.false_eq_true, if_false, Bool.not_false, if_true]
    exact inverseFarField_reflect _ _ _
  · simp only [Multi2D.plotFourier, Multi2D.plotRealSpace, h, Bool.false_eq_true, if_false, Bool.not_false, if_true]
    exact inverseFarField_reflect _ _ _
  · simp only [Multislice.plotFourier, Multislice.plotRealSpace, h, Bool.not_true, Bool.false_eq_true, if_false, if_true]
    rw [far_field_unitary.2.1]
  · simp only [Multi2D.plotFourier, Multi2D.plotRealSpace, h, Bool.not_true, Bool.false_eq_true, if_false, if_true]
    rw [far_field_unitary.2.1]

/-- A probe for which turning matters: its far field is one bright pixel away from the zero frequency. -/
example (M : Multislice n m a b N k) (hf : M.fourierProbe = false) (j : Fin k) (x₀ : ZMod n) (y₀ : ZMod m)
    (hx : 2 * ((n / 2 : ℕ) : ZMod n) - x₀ ≠ x₀)
    (hp : M.probe j = inverseFarField fun x y => if x = x₀ ∧ y = y₀ then 1 else 0) :
    M.plotFourier j x₀ y₀ = 0 ∧ farField (M.plotRealSpace j) x₀ y₀ = 1 := by
  have h := (fourier_plots_violated M (N := N) (k := k)
    (⟨M.probe, 0, M.support, none, false, .inr [], 0, false, false, false, false, 0, 0, none, 0, 0, 0, 0, none, none, 1,
      M.background, none⟩ : Multi2D n m N k)
    ⟨M.probe, 0, M.support, none, ⟨0, 0, fun _ _ => 0⟩, 0, 0, 0, 0, 0, 0, none, false, none, 1, M.background, none⟩ j x₀ y₀).1 hf
  have hr : M.plotRealSpace j = inverseFarField fun x y => if x = x₀ ∧ y = y₀ then 1 else 0 := by
    simp [Multislice.plotRealSpace, hf, hp]
  rw [h, hr, far_field_unitary.2.1]
  simp [hx]

/-! ### Objects -/

/-- The extent of the crop `c:-c`. -/
theorem crop_extent (h c : ℕ) (hc : 0 < c) : sliceExtent h c (-(c : ℤ)) = (min c h, h - c - min c h) := by
  unfold sliceExtent sliceBound
  have h1 : ¬ ((c : ℤ) < 0) := by omega
  have h2 : (-(c : ℤ)) < 0 := by omega
  rw [if_neg h1, if_pos h2]
  ext <;> simp <;> omega

/-- **C108** (objects of `FancyPtycho`). The object plots show the object without a frame of `c` pixels, and each pixel shows
the transmission of the sample there: for a model that stores the transmission its phase and modulus; for a model that stores
`T` (`exponentiate_obj`), real and imaginary part, with transmission `exp(-Im T) exp(i Re T)`. -/
theorem fancy_object_plots (M : Fancy n m a b N k) (c : ℕ) (hh : 2 * c ≤ M.obj.h) (hw : 2 * c ≤ M.obj.w) (i j : ℕ) :
    (∀ v, (M.plotObject c v).h = M.obj.h - 2 * c ∧ (M.plotObject c v).w = M.obj.w - 2 * c) ∧
    (M.exponentiate = false →
      (M.plotObject c .amplitude).px i j = ‖M.transmission.px (c + i) (c + j)‖ ∧
      (M.plotObject c .phase).px i j = (M.transmission.px (c + i) (c + j)).arg) ∧
    (M.exponentiate = true → M.phaseOnly = false →
      M.transmission.px (c + i) (c + j) =
        (Real.exp (-(M.plotObject c .imag).px i j) : ℂ) * Complex.exp (Complex.I * ((M.plotObject c .real).px i j : ℂ)) ∧
      ‖M.transmission.px (c + i) (c + j)‖ = Real.exp (-(M.plotObject c .imag).px i j)) := by
  have hpx : (viewObject c M.obj).px i j = M.obj.px (c + i) (c + j) := by
    unfold viewObject
    by_cases h0 : (0 : ℤ) < c
    · rw [if_pos h0]
      simp only
      rw [crop_extent _ c (by omega), crop_extent _ c (by omega)]
      simp only
      rw [min_eq_left (by omega), min_eq_left (by omega)]
    · rw [if_neg h0]
      have : c = 0 := by omega
      subst this
      simp
  have hsz : (viewObject c M.obj).h = M.obj.h - 2 * c ∧ (viewObject c M.obj).w = M.obj.w - 2 * c := by
    unfold viewObject
    by_cases h0 : (0 : ℤ) < c
    · rw [if_pos h0]
      simp only
      rw [crop_extent _ c (by omega), crop_extent _ c (by omega)]
      simp only
      omega
    · rw [if_neg h0]
      have : c = 0 := by omega
      subst this
      simp
  refine ⟨fun v => hsz, fun he => ?_, fun he hp => ?_⟩
  · simp only [Fancy.plotObject, Img.map, hpx, View.value, Fancy.transmission, he, Bool.false_eq_true, if_false]
    exact ⟨trivial, trivial⟩
  · simp only [Fancy.plotObject, Img.map, hpx, View.value, Fancy.transmission, he, hp, Bool.false_eq_true, if_false, if_true]
    constructor
    · conv_lhs => rw [← Complex.re_add_im (M.obj.px (c + i) (c + j))]
      rw [Complex.ofReal_exp, ← Complex.exp_add]
      congr 1
      push_cast
      ring_nf
      rw [Complex.I_sq]
      ring
    · rw [Complex.norm_exp]
      simp

/-- **C108, violated part.** With `exponentiate_obj` and `phase_only` the plot of the imaginary part of `T` has no meaning: the
transmission has modulus one everywhere, whatever that plot shows. -/
theorem fancy_phase_only_plot_violated (M : Fancy n m a b N k) (he : M.exponentiate = true) (hp : M.phaseOnly = true) (i j : ℕ) :
    ‖M.transmission.px i j‖ = 1 ∧
    ∀ o : Img ℂ, (∀ x y, (o.px x y).re = (M.obj.px x y).re) → o.h = M.obj.h → o.w = M.obj.w →
      ({ M with obj := o } : Fancy n m a b N k).transmission = M.transmission := by
  constructor
  · simp only [Fancy.transmission, he, hp, if_true, Img.map]
    rw [Complex.norm_exp]
    simp
  · intro o h1 h2 h3
    simp only [Fancy.transmission, he, hp, if_true, Img.map, h1, h2, h3]

/-- **C108** (`MultislicePtycho`). The product plots (for slices that store their transmission) and the sum plots (for slices
that store `T`) describe the same thing, the transmission of all slices together. -/
theorem multislice_object_plots (M : Multislice n m a b N k) (i j : ℕ) :
    (M.exponentiate = false → M.productAt i j = (M.slices.map fun o => (M.transmission o).px i j).prod) ∧
    (M.exponentiate = true → Complex.exp (Complex.I * M.sumAt i j) = (M.slices.map fun o => (M.transmission o).px i j).prod ∧
      ‖(M.slices.map fun o => (M.transmission o).px i j).prod‖ = Real.exp (-(View.imag.value (M.sumAt i j)))) := by
  constructor
  · intro he
    simp [Multislice.productAt, Multislice.transmission, he]
  · intro he
    have h : Complex.exp (Complex.I * M.sumAt i j) = (M.slices.map fun o => (M.transmission o).px i j).prod := by
      simp only [Multislice.sumAt, Multislice.transmission, he, if_true, Img.map]
      induction M.slices with
      | nil => simp
      | cons o l ih => rw [List.map_cons, List.map_cons, List.sum_cons, List.prod_cons, mul_add, Complex.exp_add, ih]
    refine ⟨h, ?_⟩
    rw [← h, Complex.norm_exp, View.value]
    simp

/-! ### Background, weights, probes of RPI -/

/-- **C108** (background). The plot of the background shows what the detector is predicted to read without light, up to the
`1e-7` that every measurement adds (times the quantum efficiency, if there is one), below saturation. -/
theorem background_plot (M : Fancy n m a b N k) (idx : Fin N) (t : Fin 3 → ℝ) (I : Img ℝ) (hp : ∀ j x y, M.probe j x y = 0)
    (hs : M.saturation = none) (h : M.forward idx t = .ok I) (i j : ℕ) :
    I.px i j = (plotBackground M.background).px i j +
      1e-7 * (match M.qe with
        | none => 1
        | some q => q.px i j) := by
  have hb : ∀ j, M.basisProbes j = fun _ _ => 0 := by
    intro j
    unfold Fancy.basisProbes
    simp only [hp, zero_mul]
    split
    · exact isLinear_inverseFarField.map_zero
    · rfl
  have hshot : ∀ i, shotProbes M.weights idx M.basisProbes i = fun _ _ => 0 := by
    intro i
    unfold shotProbes
    revert i
    cases M.weights with
    | perShot w => intro i; funext x y; simp [hb]
    | matrices r V => intro i; funext x y; simp [hb]
  have hdet : ∀ sel, M.toDetector idx t sel (fun _ _ => 0) = fun _ _ => 0 := fun sel =>
    (M.isLinear_toDetector idx t sel).map_zero
  unfold Fancy.forward at h
  split at h
  · simp at h
  rename_i hc
  simp only at h
  cases hw : objWindow a b M.transmission ⌊M.pixTrans idx t 0⌋ ⌊M.pixTrans idx t 1⌋ with
  | error e => rw [hw] at h; simp [Except.map] at h
  | ok sel =>
    rw [hw] at h
    simp only [Except.map, Except.ok.injEq] at h
    have hz : ∀ l : List (ℕ → ℕ → ℂ), (∀ f ∈ l, f = fun _ _ => 0) → sumModes a b l = ⟨a, b, fun _ _ => 0⟩ := by
      intro l hl
      unfold sumModes
      congr 1
      funext x y
      refine List.sum_eq_zero fun v hv => ?_
      obtain ⟨f, hf, rfl⟩ := List.mem_map.mp hv
      rw [hl f hf]
      simp
    rw [hz] at h
    · rw [← h]
      have hbin : ∀ i j, (binPixels M.oversampling (⟨a, b, fun _ _ => 0⟩ : Img ℝ)).px i j = 0 := by
        intro i j
        refine le_antisymm ?_ (binPixels_nonneg _ _ (fun _ _ => le_refl _) i j)
        unfold binPixels
        split
        · simp [Img.avgPool, Img.sumPool]
        · simp
      unfold measQuadratic plotBackground
      simp only [hs, saturate]
      cases M.qe with
      | none =>
        simp only [Img.zip, readOut, saturate, cutSlice, Img.map, hbin]
        rw [Complex.norm_real, Real.norm_of_nonneg (sq_nonneg _)]
        ring
      | some q =>
        simp only [Img.zip, readOut, saturate, cutSlice, Img.map, hbin]
        rw [Complex.norm_real, Real.norm_of_nonneg (sq_nonneg _)]
        ring
    · intro f hf
      obtain ⟨i, rfl⟩ := (List.mem_ofFn' _ _).mp hf
      funext x y
      show M.toDetector idx t sel (shotProbes M.weights idx M.basisProbes i) x y = 0
      rw [hshot, hdet]

/-- **C108** (weights). The mean weight matrix of a model whose exposures all see the probes in the same way shows the moduli
of that matrix; in general it lies between the least and the largest modulus. -/
theorem mean_weights_plot {r : ℕ} (V : Fin N → Matrix (Fin r) (Fin k) ℂ) (hN : 0 < N) (i : Fin r) (j : Fin k) :
    (∀ W, (∀ s, V s = W) → meanWeights V i j = ‖W i j‖) ∧
    (∀ lo hi : ℝ, (∀ s, lo ≤ ‖V s i j‖ ∧ ‖V s i j‖ ≤ hi) → lo ≤ meanWeights V i j ∧ meanWeights V i j ≤ hi) := by
  have hN' : (0 : ℝ) < N := by exact_mod_cast hN
  constructor
  · intro W h
    unfold meanWeights
    simp only [h, sum_const, card_univ, Fintype.card_fin, nsmul_eq_mul]
    field_simp
  · intro lo hi h
    unfold meanWeights
    rw [le_div_iff₀ hN', div_le_iff₀ hN']
    constructor
    · calc lo * N = ∑ _s : Fin N, lo := by simp [mul_comm]
        _ ≤ _ := sum_le_sum fun s _ => (h s).1
    · calc _ ≤ ∑ _s : Fin N, hi := sum_le_sum fun s _ => (h s).2
        _ = hi * N := by simp [mul_comm]

/-- **C108** ('% of Power in Top Mode'). A percentage, and at least the share of one among as many modes as there are. -/
theorem top_mode_plot {x l : ℕ} (la : LinAlg) (P : Matrix (Fin l) (Fin x) ℂ) (h : P ≠ 0) (z : Fin (min l x)) (hz : z.val = 0) :
    100 * calcModePowerFractions la P z ≤ 100 ∧ (100 : ℝ) / (min l x : ℕ) ≤ 100 * calcModePowerFractions la P z := by
  obtain ⟨h0, h1⟩ := power_fractions_sum la P h
  have hs := (orthogonalize_probes_correct la P).sorted
  have htop : ∀ i, calcModePowerFractions la P i ≤ calcModePowerFractions la P z := by
    intro i
    unfold calcModePowerFractions
    rw [powerFractions_eq, powerFractions_eq]
    exact div_le_div_of_nonneg_right (hs z i (by rw [Fin.le_def, hz]; exact Nat.zero_le _))
      (sum_nonneg fun i _ => modePower_nonneg _ i)
  have hpos : (0 : ℝ) < (min l x : ℕ) := by
    have := z.pos
    exact_mod_cast this
  constructor
  · have : calcModePowerFractions la P z ≤ ∑ i, calcModePowerFractions la P i :=
      single_le_sum (f := fun i => calcModePowerFractions la P i) (fun i _ => h0 i) (mem_univ z)
    linarith
  · rw [div_le_iff₀ hpos]
    have : ∑ i, calcModePowerFractions la P i ≤ (min l x : ℕ) * calcModePowerFractions la P z := by
      calc _ ≤ ∑ _i : Fin (min l x), calcModePowerFractions la P z := sum_le_sum fun i _ => htop i
        _ = _ := by simp
    rw [h1] at this
    linarith

/-- **C108** (RPI). The plot of the probes shows the square root of the intensity of all modes together: it is the same for all
mixtures of the modes that give the same light (a unitary matrix from the left of the weights). -/
theorem rpi_probe_plot {l : ℕ} (M : Rpi n m a b k l) (U : Matrix (Fin k) (Fin k) ℂ) (hU : Uᴴ * U = 1) (x : ZMod n) (y : ZMod m) :
    M.plotProbes x y ^ 2 = ∑ i, ‖M.mixedProbes i x y‖ ^ 2 ∧
    ({ M with weights := U * M.weights } : Rpi n m a b k l).plotProbes x y = M.plotProbes x y := by
  constructor
  · exact Real.sq_sqrt (sum_nonneg fun _ _ => sq_nonneg _)
  · unfold Rpi.plotProbes
    congr 1
    have e : ∀ i, ({ M with weights := U * M.weights } : Rpi n m a b k l).mixedProbes i x y =
        (U *ᵥ fun j => M.mixedProbes j x y) i := by
      intro i
      simp only [Rpi.mixedProbes, Matrix.mul_apply, Matrix.mulVec, dotProduct]
      simp only [sum_mul, mul_sum]
      rw [sum_comm]
      exact sum_congr rfl fun _ _ => sum_congr rfl fun _ _ => by ring
    simp only [e]
    have key : ∀ v : Fin k → ℂ, ((∑ i, ‖v i‖ ^ 2 : ℝ) : ℂ) = star v ⬝ᵥ v := by
      intro v
      push_cast
      refine sum_congr rfl fun i _ => ?_
      rw [← Complex.conj_mul']
      rfl
    apply Complex.ofReal_injective
    rw [key, key, Matrix.star_mulVec, ← Matrix.dotProduct_mulVec, Matrix.mulVec_mulVec, hU, Matrix.one_mulVec]

end Cdtools
