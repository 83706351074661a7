/-
C90 for the default colors of `colorize`: the table `cm_data` is a closed curve that winds exactly once around an axis, so colors
show complex values faithfully, and without a seam.
-/
import Verif.Model.Colormap
import Verif.Props.Plotting
import Mathlib.Topology.Algebra.Order.Floor
import Mathlib.Analysis.SpecialFunctions.Complex.Arg

set_option linter.unusedSectionVars false

namespace Cdtools.Plot
open Finset

/-! ### Polygons that wind once -/

/-- The interpolated sequence. -/
noncomputable def polyline (X : ℕ → ℝ) (u : ℝ) : ℝ := X ⌊u⌋₊ + (X (⌊u⌋₊ + 1) - X ⌊u⌋₊) * (u - ⌊u⌋₊)

theorem cross_trans {xa ya xb yb xc yc : ℝ} (ha : 0 < ya) (hb : 0 < yb) (hc : 0 < yc) (h1 : 0 ≤ xa * yb - xb * ya)
    (h2 : 0 < xb * yc - xc * yb) : 0 < xa * yc - xc * ya := by
  have : yb * (xa * yc - xc * ya) = yc * (xa * yb - xb * ya) + ya * (xb * yc - xc * yb) := by ring
  have h3 : 0 < yb * (xa * yc - xc * ya) := by rw [this]; positivity
  exact (mul_pos_iff_of_pos_left hb).1 h3

theorem cross_trans' {xa ya xb yb xc yc : ℝ} (ha : 0 < ya) (hb : 0 < yb) (hc : 0 < yc) (h1 : 0 < xa * yb - xb * ya)
    (h2 : 0 ≤ xb * yc - xc * yb) : 0 < xa * yc - xc * ya := by
  have : yb * (xa * yc - xc * ya) = yc * (xa * yb - xb * ya) + ya * (xb * yc - xc * yb) := by ring
  have h3 : 0 < yb * (xa * yc - xc * ya) := by rw [this]; positivity
  exact (mul_pos_iff_of_pos_left hb).1 h3

theorem floor_facts {u : ℝ} (hu : 0 ≤ u) : (⌊u⌋₊ : ℝ) ≤ u ∧ u < ⌊u⌋₊ + 1 := ⟨Nat.floor_le hu, Nat.lt_floor_add_one u⟩

/-- Inside a stretch where `Y` is positive between two zeros, the interpolated `Y` is positive. -/
theorem polyline_pos {Y : ℕ → ℝ} {lo hi : ℕ} (h0 : Y lo = 0) (h1 : Y hi = 0) (hpos : ∀ i, lo < i → i < hi → 0 < Y i) {u : ℝ}
    (hu0 : (lo : ℝ) < u) (hu1 : u < hi) (hgap : lo + 1 < hi) : 0 < polyline Y u := by
  have hu : 0 ≤ u := le_trans (Nat.cast_nonneg lo) hu0.le
  obtain ⟨hf0, hf1⟩ := floor_facts hu
  set i := ⌊u⌋₊
  have hlo : lo ≤ i := Nat.le_floor hu0.le
  have hhi : i < hi := by
    have : (i : ℝ) < hi := lt_of_le_of_lt hf0 hu1
    exact_mod_cast this
  have e : polyline Y u = Y i * (1 - (u - i)) + Y (i + 1) * (u - i) := by unfold polyline; ring
  rw [e]
  have ha : 0 < 1 - (u - i) := by linarith
  have hb : 0 ≤ u - i := by linarith
  rcases hlo.eq_or_lt with hl | hl
  · have hl' : (lo : ℝ) = i := by exact_mod_cast hl
    have hY : Y i = 0 := by rw [← hl]; exact h0
    rw [hY, zero_mul, zero_add]
    exact mul_pos (hpos _ (by omega) (by omega)) (by linarith)
  · have hi0 := hpos i hl hhi
    have hi1 : 0 ≤ Y (i + 1) := by
      rcases (Nat.succ_le_of_lt hhi).eq_or_lt with he | he
      · rw [show i + 1 = hi from he, h1]
      · exact (hpos _ (by omega) he).le
    positivity

/-- Inside such a stretch the polygon turns in one direction. -/
theorem polyline_turns {X Y : ℕ → ℝ} {lo hi : ℕ} (h0 : Y lo = 0) (h1 : Y hi = 0) (hpos : ∀ i, lo < i → i < hi → 0 < Y i)
    (hgap : lo + 1 < hi) (hturn : ∀ i, lo ≤ i → i < hi → 0 < X i * Y (i + 1) - X (i + 1) * Y i) {u v : ℝ}
    (hu0 : (lo : ℝ) < u) (huv : u < v) (hv1 : v < hi) :
    0 < polyline X u * polyline Y v - polyline X v * polyline Y u := by
  have hu : 0 ≤ u := le_trans (Nat.cast_nonneg lo) hu0.le
  have hv : 0 ≤ v := hu.trans huv.le
  have hYu := polyline_pos h0 h1 hpos hu0 (huv.trans hv1) hgap
  have hYv := polyline_pos h0 h1 hpos (hu0.trans huv) hv1 hgap
  obtain ⟨hf0, hf1⟩ := floor_facts hu
  obtain ⟨hg0, hg1⟩ := floor_facts hv
  have hij : ⌊u⌋₊ ≤ ⌊v⌋₊ := Nat.floor_le_floor huv.le
  have hlo : lo ≤ ⌊u⌋₊ := Nat.le_floor hu0.le
  have hjhi : ⌊v⌋₊ < hi := by
    have : (⌊v⌋₊ : ℝ) < hi := lt_of_le_of_lt hg0 hv1
    exact_mod_cast this
  rcases hij.eq_or_lt with he | hlt
  · have ht := hturn ⌊u⌋₊ hlo (by omega)
    have : polyline X u * polyline Y v - polyline X v * polyline Y u =
        (v - u) * (X ⌊u⌋₊ * Y (⌊u⌋₊ + 1) - X (⌊u⌋₊ + 1) * Y ⌊u⌋₊) := by
      unfold polyline
      rw [← he]; ring
    rw [this]
    exact mul_pos (by linarith) ht
  · set i := ⌊u⌋₊
    set j := ⌊v⌋₊
    have hstart : 0 < polyline X u * Y (i + 1) - X (i + 1) * polyline Y u := by
      have : polyline X u * Y (i + 1) - X (i + 1) * polyline Y u = (1 - (u - i)) * (X i * Y (i + 1) - X (i + 1) * Y i) := by
        unfold polyline; ring
      rw [this]
      exact mul_pos (by linarith) (hturn i hlo (by omega))
    have hchain : ∀ k, i + 1 ≤ k → k ≤ j → 0 < polyline X u * Y k - X k * polyline Y u := by
      intro k hk
      induction k, hk using Nat.le_induction with
      | base => intro _; exact hstart
      | succ k hk ih =>
        intro hkj
        exact cross_trans' hYu (hpos k (by omega) (by omega)) (hpos (k + 1) (by omega) (by omega)) (ih (by omega))
          (hturn k (by omega) (by omega)).le
    have hend : 0 ≤ X j * polyline Y v - polyline X v * Y j := by
      have : X j * polyline Y v - polyline X v * Y j = (v - j) * (X j * Y (j + 1) - X (j + 1) * Y j) := by
        unfold polyline; ring
      rw [this]
      exact mul_nonneg (by linarith) (hturn j (by omega) hjhi).le
    exact cross_trans' hYu (hpos j (by omega) hjhi) hYv (hchain j hlt le_rfl) hend

theorem polyline_nat (X : ℕ → ℝ) (i : ℕ) : polyline X i = X i := by
  unfold polyline; simp

theorem polyline_neg (X : ℕ → ℝ) (u : ℝ) : polyline (fun i => -X i) u = -polyline X u := by
  unfold polyline; ring

/-- A closed polygon with `N` edges that always turns in the same direction around the origin, and crosses the first axis only at its
vertices `0` (on the right) and `k` (on the left), meets every ray from the origin once. -/
theorem winds_once {X Y : ℕ → ℝ} {k N : ℕ} (hk : 1 < k) (hN : k + 1 < N) (h0 : Y 0 = 0) (hk0 : Y k = 0) (hN0 : Y N = 0)
    (hX0 : 0 < X 0) (hXk : X k < 0) (hup : ∀ i, 0 < i → i < k → 0 < Y i) (hdown : ∀ i, k < i → i < N → Y i < 0)
    (hturn : ∀ i, i < N → 0 < X i * Y (i + 1) - X (i + 1) * Y i) {u v b : ℝ} (hb : 0 < b) (hu : 0 ≤ u) (huN : u < N) (hv : 0 ≤ v)
    (hvN : v < N) (hx : polyline X u = b * polyline X v) (hy : polyline Y u = b * polyline Y v) : u = v := by
  have hsign : ∀ w : ℝ, 0 ≤ w → w < N → (w = 0 ∧ polyline Y w = 0 ∧ 0 < polyline X w) ∨ (w = k ∧ polyline Y w = 0 ∧ polyline X w < 0) ∨
      ((0 : ℝ) < w ∧ w < k ∧ 0 < polyline Y w) ∨ ((k : ℝ) < w ∧ polyline Y w < 0) := by
    intro w hw0 hwN
    rcases hw0.eq_or_lt with h | h
    · left
      have e := polyline_nat X 0
      have e' := polyline_nat Y 0
      rw [Nat.cast_zero] at e e'
      rw [← h, e, e']
      exact ⟨rfl, h0, hX0⟩
    · rcases lt_trichotomy w k with h1 | h1 | h1
      · right; right; left
        exact ⟨h, h1, polyline_pos (lo := 0) h0 hk0 hup (by simpa using h) h1 (by omega)⟩
      · right; left
        rw [h1, polyline_nat, polyline_nat]
        exact ⟨rfl, hk0, hXk⟩
      · right; right; right
        have := polyline_pos (Y := fun i => -Y i) (lo := k) (hi := N) (by simp [hk0]) (by simp [hN0])
          (fun i hi hi' => neg_pos.2 (hdown i hi hi')) h1 hwN (by omega)
        rw [polyline_neg] at this
        exact ⟨h1, by linarith⟩
  have up : ∀ s t : ℝ, 0 < s → s < t → t < k → 0 < polyline X s * polyline Y t - polyline X t * polyline Y s := fun s t hs hst ht =>
    polyline_turns (lo := 0) h0 hk0 hup (by omega) (fun i _ hi => hturn i (by omega)) (by simpa using hs) hst ht
  have down : ∀ s t : ℝ, (k : ℝ) < s → s < t → t < N → 0 < polyline X s * polyline Y t - polyline X t * polyline Y s := by
    intro s t hs hst ht
    have := polyline_turns (X := fun i => -X i) (Y := fun i => -Y i) (lo := k) (hi := N) (by simp [hk0]) (by simp [hN0])
      (fun i hi hi' => neg_pos.2 (hdown i hi hi')) (by omega) (fun i _ hi => by have := hturn i hi; linarith) hs hst ht
    simp only [polyline_neg] at this
    linarith
  have hcr : polyline X u * polyline Y v - polyline X v * polyline Y u = 0 := by rw [hx, hy]; ring
  rcases hsign u hu huN with ⟨a1, a2, a3⟩ | ⟨a1, a2, a3⟩ | ⟨a1, a2, a3⟩ | ⟨a1, a2⟩ <;>
  rcases hsign v hv hvN with ⟨c1, c2, c3⟩ | ⟨c1, c2, c3⟩ | ⟨c1, c2, c3⟩ | ⟨c1, c2⟩
  · rw [a1, c1]
  · exfalso; nlinarith [mul_pos hb (neg_pos.2 c3)]
  · exfalso; nlinarith [mul_pos hb c3]
  · exfalso; nlinarith [mul_pos hb (neg_pos.2 c2)]
  · exfalso; nlinarith [mul_pos hb c3]
  · rw [a1, c1]
  · exfalso; nlinarith [mul_pos hb c3]
  · exfalso; nlinarith [mul_pos hb (neg_pos.2 c2)]
  · exfalso; nlinarith [mul_pos hb c3]
  · exfalso; nlinarith [mul_pos hb (neg_pos.2 c3)]
  · rcases lt_trichotomy u v with h | h | h
    · exact absurd hcr (up u v a1 h c2).ne'
    · exact h
    · have := up v u c1 h a2; exfalso; linarith
  · exfalso; nlinarith [mul_pos hb (neg_pos.2 c2)]
  · exfalso; nlinarith
  · exfalso; nlinarith
  · exfalso; nlinarith [mul_pos hb c3]
  · rcases lt_trichotomy u v with h | h | h
    · exact absurd hcr (down u v a1 h hvN).ne'
    · exact h
    · have := down v u c1 h huN; exfalso; linarith

/-! ### The table -/

/-- Coordinates around an axis inside the curve of colors: `px` along, `py` across the plane of the axis and the first color. -/
def px (c : ℕ × ℕ × ℕ) : ℤ := 827159973 * c.1 - 884846567 * c.2.1
def py (c : ℕ × ℕ × ℕ) : ℤ := -3926112028364289 * c.1 + 5669003655877227 * c.2.1 - 1608778610309301 * c.2.2

def cmVert (i : ℕ) : ℕ × ℕ × ℕ := cmData.reverse.getD i (0, 0, 0)

set_option maxRecDepth 100000 in
theorem cm_up : ∀ i < 115, 0 < i → 0 < py (cmVert i) := by decide +kernel

set_option maxRecDepth 100000 in
theorem cm_down : ∀ i < 255, 115 < i → py (cmVert i) < 0 := by decide +kernel

set_option maxRecDepth 100000 in
theorem cm_turn : ∀ i < 255, 0 < px (cmVert i) * py (cmVert (i + 1)) - px (cmVert (i + 1)) * py (cmVert i) := by decide +kernel

set_option maxRecDepth 100000 in
theorem cm_axis : py (cmVert 0) = 0 ∧ py (cmVert 115) = 0 ∧ py (cmVert 255) = 0 ∧ 0 < px (cmVert 0) ∧ px (cmVert 115) < 0 ∧
    cmVert 255 = cmVert 0 := by decide +kernel

set_option maxRecDepth 100000 in
theorem cm_range : ∀ i < 256, (cmVert i).1 ≤ 100000000 ∧ (cmVert i).2.1 ≤ 100000000 ∧ (cmVert i).2.2 ≤ 100000000 := by decide +kernel

set_option maxRecDepth 100000 in
theorem cm_green : ∀ i < 256, 0 < (cmVert i).2.1 := by decide +kernel

/-! ### Interpolated colors -/

theorem cmPhase_eq (x : ℝ) (c : Fin 3) : cmPhase x c = polyline (fun i => cmRow i c) (x * 255 / 360) := rfl

theorem polyline_comb (a b d : ℝ) (X Y Z : ℕ → ℝ) (u : ℝ) :
    polyline (fun i => a * X i + b * Y i + d * Z i) u = a * polyline X u + b * polyline Y u + d * polyline Z u := by
  unfold polyline; ring

theorem cmRow_zero (i : ℕ) : cmRow i 0 = (cmVert i).1 / 1e8 := rfl
theorem cmRow_one (i : ℕ) : cmRow i 1 = (cmVert i).2.1 / 1e8 := rfl
theorem cmRow_two (i : ℕ) : cmRow i 2 = (cmVert i).2.2 / 1e8 := rfl

theorem px_color (x : ℝ) : polyline (fun i => (px (cmVert i) : ℝ)) (x * 255 / 360) =
    1e8 * (827159973 * cmPhase x 0 - 884846567 * cmPhase x 1) := by
  have : (fun i => (px (cmVert i) : ℝ)) = fun i => (1e8 * 827159973) * cmRow i 0 + (-(1e8 * 884846567)) * cmRow i 1 + 0 * cmRow i 2 := by
    funext i
    rw [cmRow_zero, cmRow_one]
    unfold px
    push_cast
    ring
  rw [this, polyline_comb, cmPhase_eq, cmPhase_eq]
  ring

theorem py_color (x : ℝ) : polyline (fun i => (py (cmVert i) : ℝ)) (x * 255 / 360) =
    1e8 * (-3926112028364289 * cmPhase x 0 + 5669003655877227 * cmPhase x 1 - 1608778610309301 * cmPhase x 2) := by
  have : (fun i => (py (cmVert i) : ℝ)) = fun i => (1e8 * (-3926112028364289)) * cmRow i 0 + (1e8 * 5669003655877227) * cmRow i 1 +
      (1e8 * (-1608778610309301)) * cmRow i 2 := by
    funext i
    rw [cmRow_zero, cmRow_one, cmRow_two]
    unfold py
    push_cast
    ring
  rw [this, polyline_comb, cmPhase_eq, cmPhase_eq, cmPhase_eq]
  ring

/-- Colors of different angles are never multiples of each other. -/
theorem cmPhase_injective {x y b : ℝ} (hx : 0 ≤ x ∧ x < 360) (hy : 0 ≤ y ∧ y < 360) (hb : 0 < b)
    (h : ∀ c, cmPhase x c = b * cmPhase y c) : x = y := by
  obtain ⟨a1, a2, a3, a4, a5, -⟩ := cm_axis
  have := winds_once (X := fun i => (px (cmVert i) : ℝ)) (Y := fun i => (py (cmVert i) : ℝ)) (k := 115) (N := 255) (by norm_num)
    (by norm_num) (by exact_mod_cast a1) (by exact_mod_cast a2) (by exact_mod_cast a3) (by exact_mod_cast a4) (by exact_mod_cast a5)
    (fun i hi hi' => by exact_mod_cast cm_up i hi' hi) (fun i hi hi' => by exact_mod_cast cm_down i hi' hi)
    (fun i hi => by exact_mod_cast cm_turn i hi) (u := x * 255 / 360) (v := y * 255 / 360) hb
    (by have := hx.1; positivity) (by push_cast; linarith [hx.2]) (by have := hy.1; positivity) (by push_cast; linarith [hy.2])
    (by rw [px_color, px_color, h, h]; ring) (by rw [py_color, py_color, h, h, h]; ring)
  linarith

theorem polyline_between {X : ℕ → ℝ} {N : ℕ} {lo hi : ℝ} (h : ∀ i ≤ N, lo ≤ X i ∧ X i ≤ hi) {u : ℝ} (hu : 0 ≤ u) (huN : u < N) :
    lo ≤ polyline X u ∧ polyline X u ≤ hi := by
  obtain ⟨hf0, hf1⟩ := floor_facts hu
  set i := ⌊u⌋₊
  have hi : i < N := by
    have : (i : ℝ) < N := lt_of_le_of_lt hf0 huN
    exact_mod_cast this
  have e : polyline X u = X i * (1 - (u - i)) + X (i + 1) * (u - i) := by unfold polyline; ring
  obtain ⟨h1, h2⟩ := h i hi.le
  obtain ⟨h3, h4⟩ := h (i + 1) hi
  have ha : 0 ≤ 1 - (u - i) := by linarith
  have hb : 0 ≤ u - i := by linarith
  rw [e]
  constructor <;> nlinarith

/-- The interpolated colors are colors. -/
theorem cmPhase_range {x : ℝ} (hx : 0 ≤ x ∧ x < 360) (c : Fin 3) : 0 ≤ cmPhase x c ∧ cmPhase x c ≤ 1 := by
  rw [cmPhase_eq]
  refine polyline_between (N := 255) (fun i hi => ?_) (by have := hx.1; positivity) (by push_cast; linarith [hx.2])
  obtain ⟨h1, h2, h3⟩ := cm_range i (by omega)
  have h1' : ((cmVert i).1 : ℝ) ≤ 100000000 := by exact_mod_cast h1
  have h2' : ((cmVert i).2.1 : ℝ) ≤ 100000000 := by exact_mod_cast h2
  have h3' : ((cmVert i).2.2 : ℝ) ≤ 100000000 := by exact_mod_cast h3
  fin_cases c
  · change 0 ≤ cmRow i 0 ∧ cmRow i 0 ≤ 1
    rw [cmRow_zero]
    exact ⟨by positivity, by rw [div_le_one (by norm_num)]; linarith⟩
  · change 0 ≤ cmRow i 1 ∧ cmRow i 1 ≤ 1
    rw [cmRow_one]
    exact ⟨by positivity, by rw [div_le_one (by norm_num)]; linarith⟩
  · change 0 ≤ cmRow i 2 ∧ cmRow i 2 ≤ 1
    rw [cmRow_two]
    exact ⟨by positivity, by rw [div_le_one (by norm_num)]; linarith⟩

theorem cmPhase_green {x : ℝ} (hx : 0 ≤ x ∧ x < 360) : 0 < cmPhase x 1 := by
  have : (1 : ℝ) / 1e8 ≤ polyline (fun i => cmRow i 1) (x * 255 / 360) := by
    refine (polyline_between (N := 255) (hi := 1) (fun i hi => ?_) (by have := hx.1; positivity) (by push_cast; linarith [hx.2])).1
    have h1 := cm_green i (by omega)
    have h2 := (cm_range i (by omega)).2.1
    have h1' : (1 : ℝ) ≤ ((cmVert i).2.1 : ℝ) := by exact_mod_cast h1
    have h2' : ((cmVert i).2.1 : ℝ) ≤ 100000000 := by exact_mod_cast h2
    rw [cmRow_one]
    exact ⟨div_le_div_of_nonneg_right h1' (by norm_num), by rw [div_le_one (by norm_num)]; linarith⟩
  rw [cmPhase_eq]
  exact lt_of_lt_of_le (by norm_num) this

/-! ### C90, default colors -/

/-- **C90** (default colors): the colors of an image which is not zero everywhere are colors (all channels between 0 and 1) and show
the complex values faithfully: two pixels have the same color if and only if they have the same value. -/
theorem colorize_faithful_default {ι : Type} [Fintype ι] (im : ι → ℂ) (p0 : ι) (h0 : im p0 ≠ 0) :
    ∃ out, colorize (colorTable cmPhase fun x => x) im = .ok out ∧ (∀ p c, 0 ≤ out p c ∧ out p c ≤ 1) ∧
      ∀ p q, out p = out q ↔ im p = im q := by
  haveI : Nonempty ι := ⟨p0⟩
  have hb : BddAbove (Set.range fun q => ‖im q‖) := (Set.finite_range _).bddAbove
  have hle : ∀ q, ‖im q‖ ≤ ⨆ q, ‖im q‖ := fun q => le_ciSup hb q
  have hpos : 0 < ⨆ q, ‖im q‖ := lt_of_lt_of_le (norm_pos_iff.2 h0) (hle p0)
  refine ⟨_, colorize_ok _ im p0 h0, fun p c => ?_, fun p q => ⟨fun e => ?_, fun e => by simp only [e]⟩⟩
  · obtain ⟨h1, h2⟩ := cmPhase_range (mod360_range (angleDeg (im p) + 100)) c
    have h3 : ‖im p‖ / (⨆ q, ‖im q‖) ≤ 1 := (div_le_one hpos).2 (hle p)
    have h4 : 0 ≤ ‖im p‖ / (⨆ q, ‖im q‖) := by positivity
    exact ⟨mul_nonneg h1 h4, mul_le_one₀ h2 h4 h3⟩
  · set r := ‖im p‖ / (⨆ q, ‖im q‖) with hr
    set r' := ‖im q‖ / (⨆ q, ‖im q‖) with hr'
    set x := mod360 (angleDeg (im p) + 100) with hx
    set y := mod360 (angleDeg (im q) + 100) with hy
    have hxr : 0 ≤ x ∧ x < 360 := mod360_range _
    have hyr : 0 ≤ y ∧ y < 360 := mod360_range _
    have hc : ∀ c, cmPhase x c * r = cmPhase y c * r' := fun c => congrFun e c
    have hgx := cmPhase_green hxr
    have hgy := cmPhase_green hyr
    have hr0 : 0 ≤ r := by positivity
    have hr0' : 0 ≤ r' := by positivity
    have hn : r = r' → ‖im p‖ = ‖im q‖ := fun h => by
      rw [hr, hr', div_left_inj' hpos.ne'] at h
      exact h
    rcases hr0.eq_or_lt with hz | hz
    · have : cmPhase y 1 * r' = 0 := by rw [← hc, ← hz, mul_zero]
      have hz' : r' = 0 := (mul_eq_zero.1 this).resolve_left hgy.ne'
      have h1 : ‖im q‖ = 0 := by
        rw [hr', div_eq_zero_iff] at hz'
        exact hz'.resolve_right hpos.ne'
      have h2 := hn (by rw [← hz, hz'])
      rw [h1] at h2
      rw [norm_eq_zero.1 h2, norm_eq_zero.1 h1]
    · have hz' : 0 < r' := by
        rcases hr0'.eq_or_lt with h | h
        · have := hc 1
          rw [← h, mul_zero] at this
          exact absurd this (mul_pos hgx hz).ne'
        · exact h
      have hxy : x = y := by
        refine cmPhase_injective hxr hyr (div_pos hz' hz) fun c => ?_
        have := hc c
        field_simp
        linarith
      have hrr : r = r' := by
        have := hc 1
        rw [hxy] at this
        exact mul_left_cancel₀ hgy.ne' this
      have ha := mod360_inj 100 _ _ (angleDeg_range _) (angleDeg_range _) hxy
      unfold angleDeg at ha
      have ha' : (im p).arg = (im q).arg := by
        have hp := Real.pi_pos
        field_simp at ha
        linarith
      exact Complex.ext_norm_arg (hn hrr) ha'

/-! ### No seam -/

/-- The interpolated sequence as a sum of ramps. -/
theorem ramps_eq (X : ℕ → ℝ) {u : ℝ} (hu : 0 ≤ u) (N : ℕ) :
    X 0 + ∑ i ∈ range N, (X (i + 1) - X i) * max 0 (min 1 (u - i)) = if u ≤ N then polyline X u else X N := by
  induction N with
  | zero =>
    simp only [range_zero, sum_empty, add_zero, Nat.cast_zero]
    split_ifs with h
    · have : u = ((0 : ℕ) : ℝ) := by push_cast; linarith
      rw [this, polyline_nat]
    · rfl
  | succ N ih =>
    rw [sum_range_succ, ← add_assoc, ih]
    by_cases h1 : u ≤ N
    · have h2 : u ≤ (N + 1 : ℕ) := h1.trans (by push_cast; linarith)
      rw [if_pos h1, if_pos h2, min_eq_right (by linarith), max_eq_left (by linarith), mul_zero, add_zero]
    · rw [if_neg h1]
      push Not at h1
      by_cases h2 : u ≤ (N + 1 : ℕ)
      · rw [if_pos h2]
        push_cast at h2
        rw [min_eq_right (by linarith), max_eq_right (by linarith)]
        rcases h2.eq_or_lt with h3 | h3
        · have h4 : u = ((N + 1 : ℕ) : ℝ) := by push_cast; exact h3
          rw [h4, polyline_nat]
          push_cast; ring
        · have hf : ⌊u⌋₊ = N := (Nat.floor_eq_iff hu).2 ⟨h1.le, h3⟩
          unfold polyline
          rw [hf]
      · rw [if_neg h2]
        push Not at h2
        push_cast at h2
        rw [min_eq_left (by linarith), max_eq_right (by norm_num), mul_one]
        ring

/-- Around the circle the colors have no jump. -/
theorem cmPhase_cyclic (c : Fin 3) : Continuous fun x : ℝ => cmPhase (mod360 x) c := by
  have hcont : ContinuousOn (fun t : ℝ => polyline (fun i => cmRow i c) (t * 255)) (Set.Icc 0 1) := by
    have h : ∀ t ∈ Set.Icc (0 : ℝ) 1, polyline (fun i => cmRow i c) (t * 255) =
        cmRow 0 c + ∑ i ∈ range 255, (cmRow (i + 1) c - cmRow i c) * max 0 (min 1 (t * 255 - i)) := by
      intro t ht
      rw [ramps_eq (fun i => cmRow i c) (by have := ht.1; positivity) 255, if_pos (by push_cast; linarith [ht.2])]
    refine ContinuousOn.congr (Continuous.continuousOn ?_) h
    fun_prop
  have hends : (fun t : ℝ => polyline (fun i => cmRow i c) (t * 255)) 0 = (fun t : ℝ => polyline (fun i => cmRow i c) (t * 255)) 1 := by
    have h1 := polyline_nat (fun i => cmRow i c) 0
    have h2 := polyline_nat (fun i => cmRow i c) 255
    have h3 : cmRow 255 c = cmRow 0 c := by
      have := cm_axis.2.2.2.2.2
      unfold cmVert at this
      unfold cmRow
      rw [this]
    push_cast at h1 h2
    simp only [zero_mul, one_mul]
    rw [h1, h2, h3]
  have hfr := hcont.comp_fract'' hends
  have e : (fun x : ℝ => cmPhase (mod360 x) c) = (((fun t : ℝ => polyline (fun i => cmRow i c) (t * 255)) ∘ Int.fract) ∘ fun x => x / 360) := by
    funext x
    simp only [Function.comp, cmPhase_eq]
    congr 1
    unfold mod360 Int.fract
    ring
  rw [e]
  exact hfr.comp (by fun_prop)

theorem mod360_turn (x : ℝ) : mod360 (x + 360) = mod360 x := by
  unfold mod360
  rw [show (x + 360) / 360 = x / 360 + 1 by ring, Int.floor_add_one]
  push_cast; ring

/-- **C90** (default colors, no seam): the color of a pixel is a continuous function of its complex value, also across phases of 180
degrees, across the ends of the table, and at zero. -/
theorem color_continuous (top : ℝ) : Continuous fun z : ℂ => colorTable cmPhase (fun x => x) top z := by
  refine continuous_pi fun c => ?_
  rw [continuous_iff_continuousAt]
  intro z
  by_cases hz : z = 0
  · subst hz
    have hlim : Filter.Tendsto (fun z : ℂ => |‖z‖ / top|) (nhds 0) (nhds 0) := by
      have : Continuous fun z : ℂ => |‖z‖ / top| := by fun_prop
      simpa using this.tendsto 0
    have h0 : colorTable cmPhase (fun x => x) top 0 c = 0 := by simp [colorTable]
    rw [ContinuousAt, h0]
    refine squeeze_zero_norm (fun w => ?_) hlim
    obtain ⟨h1, h2⟩ := cmPhase_range (mod360_range (angleDeg w + 100)) c
    unfold colorTable
    rw [norm_mul, Real.norm_eq_abs, Real.norm_eq_abs, abs_of_nonneg h1]
    exact mul_le_of_le_one_left (abs_nonneg _) h2
  · have hper : Function.Periodic (fun a : ℝ => cmPhase (mod360 (a * 180 / Real.pi + 100)) c) (2 * Real.pi) := by
      intro a
      have hp := Real.pi_ne_zero
      simp only
      rw [show (a + 2 * Real.pi) * 180 / Real.pi + 100 = (a * 180 / Real.pi + 100) + 360 by field_simp; ring, mod360_turn]
    have hG : Continuous (hper.lift : Real.Angle → ℝ) := by
      refine (QuotientAddGroup.isQuotientMap_mk (N := AddSubgroup.zmultiples (2 * Real.pi))).continuous_iff.2 ?_
      exact (cmPhase_cyclic c).comp (by fun_prop)
    have harg := Complex.continuousAt_arg_coe_angle hz
    have h1 : ContinuousAt (fun w : ℂ => hper.lift ((w.arg : ℝ) : Real.Angle)) z := hG.continuousAt.comp harg
    have h2 : ContinuousAt (fun w : ℂ => ‖w‖ / top) z := by fun_prop
    exact h1.mul h2

/-- The hypothesis is met, for instance by an image with the values 1, i and 0; its three pixels get three colors. -/
example : ∃ out, colorize (colorTable cmPhase fun x => x) ![1, Complex.I, 0] = .ok out ∧ out 0 ≠ out 1 ∧ out 1 ≠ out 2 := by
  obtain ⟨out, h, -, hiff⟩ := colorize_faithful_default ![(1 : ℂ), Complex.I, 0] 0 (by simp)
  refine ⟨out, h, fun e => ?_, fun e => ?_⟩
  · have := (hiff 0 1).1 e
    simp [Complex.ext_iff] at this
  · have := (hiff 1 2).1 e
    simp at this

end Cdtools.Plot
