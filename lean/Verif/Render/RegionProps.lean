import Verif.Render.Region
import Verif.Render.GridProps
import Mathlib.Tactic.FieldSimp
import Mathlib.Tactic.Positivity
/-
C44 (region slices) and C67 (edges of uniform grids).
-/
set_option linter.unusedSectionVars false
set_option linter.unusedVariables false
namespace Verif.Render
variable {K : Type} [Field K] [LinearOrder K] [IsStrictOrderedRing K]

/-! ### C44 -/

theorem centre_lt (s : List K) (hs : s.Pairwise (· < ·)) (k : Nat) (hk : k + 1 < s.length) :
    at' s k < centre s k ∧ centre s k < at' s (k + 1) := by
  have := at'_lt hs (Nat.lt_succ_self k) hk
  unfold centre
  constructor <;> linarith

/-- Exactly when the call raises. -/
theorem regionSlice_bounds (s : List K) (hs : s.Pairwise (· < ·)) (hn : 2 ≤ s.length) (c e : K) :
    ((inBounds (s.length - 1) s (max (centre s 0) (c - e / 2)) = true) ↔ (s.length - 1 ≤ 1 ∨ c - e / 2 ≤ at' s (s.length - 1))) ∧
    ((inBounds (s.length - 1) s (min (centre s (s.length - 1 - 1)) (c + e / 2)) = true) ↔
      (s.length - 1 ≤ 1 ∨ at' s 0 ≤ c + e / 2)) := by
  have h0 := centre_lt s hs 0 (by omega)
  have h1 := centre_lt s hs (s.length - 1 - 1) (by omega)
  have he : s.length - 1 - 1 + 1 = s.length - 1 := by omega
  rw [he] at h1
  have h2 := at'_le hs (i := 0 + 1) (j := s.length - 1) (by omega) (by omega)
  have h3 := at'_le hs (i := 0) (j := s.length - 1 - 1) (by omega) (by omega)
  rw [pos2ind_bounds, pos2ind_bounds]
  constructor
  · constructor
    · rintro (h | ⟨_, h⟩)
      · exact Or.inl h
      · exact Or.inr (le_trans (le_max_right _ _) h)
    · rintro (h | h)
      · exact Or.inl h
      · exact Or.inr ⟨le_trans (le_of_lt h0.1) (le_max_left _ _), max_le (by linarith) h⟩
  · constructor
    · rintro (h | ⟨h, _⟩)
      · exact Or.inl h
      · exact Or.inr (le_trans h (min_le_right _ _))
    · rintro (h | h)
      · exact Or.inl h
      · exact Or.inr ⟨le_min (by linarith) h, le_trans (min_le_left _ _) (by linarith)⟩

/-- **C44**. The call raises exactly if the box lies outside of the grid along an axis of more than one cell. -/
theorem region_raises (s : List K) (hs : s.Pairwise (· < ·)) (hn : 2 ≤ s.length) (c e : K) :
    regionSlice s c e = none ↔ 2 < s.length ∧ (at' s (s.length - 1) < c - e / 2 ∨ c + e / 2 < at' s 0) := by
  obtain ⟨b1, b2⟩ := regionSlice_bounds s hs hn c e
  unfold regionSlice
  simp only []
  by_cases h1 : inBounds (s.length - 1) s (max (centre s 0) (c - e / 2)) = false
  · rw [if_pos h1]
    have : ¬ (s.length - 1 ≤ 1 ∨ c - e / 2 ≤ at' s (s.length - 1)) := by rw [← b1, h1]; simp
    rw [not_or, not_le, not_le] at this
    exact iff_of_true rfl ⟨by omega, Or.inl this.2⟩
  · rw [if_neg h1]
    by_cases h2 : inBounds (s.length - 1) s (min (centre s (s.length - 1 - 1)) (c + e / 2)) = false
    · rw [if_pos h2]
      have : ¬ (s.length - 1 ≤ 1 ∨ at' s 0 ≤ c + e / 2) := by rw [← b2, h2]; simp
      rw [not_or, not_le, not_le] at this
      exact iff_of_true rfl ⟨by omega, Or.inr this.2⟩
    · rw [if_neg h2]
      refine iff_of_false (by simp) ?_
      rintro ⟨h, h3⟩
      have c1 := b1.1 (by simpa using h1)
      have c2 := b2.1 (by simpa using h2)
      rcases c1 with c1 | c1
      · omega
      · rcases c2 with c2 | c2
        · omega
        · rcases h3 with h3 | h3
          · exact absurd h3 (not_lt.2 c1)
          · exact absurd h3 (not_lt.2 c2)

/-- The values of a slice. -/
theorem regionSlice_some (s : List K) (hs : s.Pairwise (· < ·)) (hn : 2 ≤ s.length) (c e : K) (i j : Nat)
    (h : regionSlice s c e = some (i, j)) :
    (s.length = 2 ∨ (c - e / 2 ≤ at' s (s.length - 1) ∧ at' s 0 ≤ c + e / 2)) ∧
    i = (if c - e / 2 < centre s 0 then 0 else pos2ind s (c - e / 2)) ∧
    j = max (if centre s (s.length - 2) < c + e / 2 then s.length - 1 else pos2ind s (c + e / 2)) (i + 1) := by
  obtain ⟨b1, b2⟩ := regionSlice_bounds s hs hn c e
  have hr : ¬ regionSlice s c e = none := by rw [h]; simp
  rw [region_raises s hs hn] at hr
  have hlen : s.length - 1 - 1 = s.length - 2 := by omega
  unfold regionSlice at h
  simp only [] at h
  split at h
  · simp at h
  · split at h
    · simp at h
    · simp only [Option.some.injEq, Prod.mk.injEq] at h
      obtain ⟨hi, hj⟩ := h
      have hi' : i = (if c - e / 2 < centre s 0 then 0 else pos2ind s (c - e / 2)) := by
        rw [← hi]
        by_cases hc : c - e / 2 < centre s 0
        · rw [if_pos hc, if_pos (lt_of_lt_of_le hc (le_max_left _ _))]
        · have : max (centre s 0) (c - e / 2) = c - e / 2 := max_eq_right (not_lt.1 hc)
          rw [if_neg hc, this, if_neg (lt_irrefl _)]
      refine ⟨?_, hi', ?_⟩
      · by_cases h2 : s.length = 2
        · exact Or.inl h2
        · right
          constructor
          · exact not_lt.1 fun hc => hr ⟨by omega, Or.inl hc⟩
          · exact not_lt.1 fun hc => hr ⟨by omega, Or.inr hc⟩
      · rw [hi] at hj
        rw [← hj, hlen]
        congr 1
        by_cases hc : centre s (s.length - 2) < c + e / 2
        · have hm : min (centre s (s.length - 2)) (c + e / 2) = centre s (s.length - 2) := min_eq_left (le_of_lt hc)
          rw [if_pos hc, hm, if_pos hc]
          have h1 := centre_lt s hs (s.length - 2) (by omega)
          have he : s.length - 2 + 1 = s.length - 1 := by omega
          have h3 := at'_le hs (i := 0) (j := s.length - 2) (by omega) (by omega)
          obtain ⟨p1, p2, p3⟩ := pos2ind_cell s hs hn (centre s (s.length - 2)) (le_trans h3 (le_of_lt h1.1)) (by rw [← he]; exact h1.2)
          have : pos2ind s (centre s (s.length - 2)) = s.length - 2 := by
            by_contra hne
            have h4 := at'_le hs (i := pos2ind s (centre s (s.length - 2)) + 1) (j := s.length - 2) (by omega) (by omega)
            linarith [h1.1]
          omega
        · have hm : min (centre s (s.length - 2)) (c + e / 2) = c + e / 2 := min_eq_right (not_lt.1 hc)
          rw [if_neg hc, hm, if_neg (lt_irrefl _)]

/-- **C44**. A slice is not empty and lies in the grid. -/
theorem region_in_grid (s : List K) (hs : s.Pairwise (· < ·)) (hn : 2 ≤ s.length) (c e : K) (i j : Nat)
    (h : regionSlice s c e = some (i, j)) : i < j ∧ j ≤ s.length - 1 := by
  obtain ⟨_, hi, hj⟩ := regionSlice_some s hs hn c e i j h
  have hp : ∀ r : K, pos2ind s r ≤ s.length - 2 := fun r => Nat.min_le_right _ _
  have hi' : i ≤ s.length - 2 := by
    rw [hi]
    split
    · omega
    · exact hp _
  constructor
  · rw [hj]; omega
  · rw [hj]
    refine Nat.max_le.2 ⟨?_, by omega⟩
    split
    · exact le_refl _
    · have := hp (c + e / 2); omega

/-- Where `pos2ind` puts a position inside the grid, the last edge included. -/
theorem pos2ind_closed (s : List K) (hs : s.Pairwise (· < ·)) (hn : 2 ≤ s.length) (r : K) (h0 : at' s 0 ≤ r)
    (h1 : r ≤ at' s (s.length - 1)) :
    pos2ind s r + 1 < s.length ∧ at' s (pos2ind s r) ≤ r ∧ r ≤ at' s (pos2ind s r + 1) := by
  rcases lt_or_eq_of_le h1 with h | h
  · obtain ⟨a, b, c⟩ := pos2ind_cell s hs hn r h0 h
    exact ⟨a, b, le_of_lt c⟩
  · have he : s.length - 2 + 1 = s.length - 1 := by omega
    rw [(pos2ind_outside s hs hn r).2 (le_of_eq h.symm), he]
    exact ⟨by omega, by rw [h]; exact at'_le hs (by omega) (by omega), h1⟩

/-- **C44**. Every selected cell meets the box, unless the axis has only one cell. -/
theorem region_touches (s : List K) (hs : s.Pairwise (· < ·)) (hn : 2 < s.length) (c e : K) (he : 0 ≤ e) (i j : Nat)
    (h : regionSlice s c e = some (i, j)) (k : Nat) (hk : i ≤ k) (hk' : k < j) :
    at' s k ≤ c + e / 2 ∧ c - e / 2 ≤ at' s (k + 1) := by
  obtain ⟨hb, hi, hj⟩ := regionSlice_some s hs (by omega) c e i j h
  obtain ⟨_, hjn⟩ := region_in_grid s hs (by omega) c e i j h
  obtain ⟨b1, b2⟩ := hb.resolve_left (by omega)
  have h0 := centre_lt s hs 0 (by omega)
  have hle : c - e / 2 ≤ c + e / 2 := by linarith
  have hlast := centre_lt s hs (s.length - 2) (by omega)
  have hlo : c - e / 2 ≤ at' s (i + 1) ∧ (i = 0 ∨ at' s i ≤ c - e / 2) := by
    by_cases hc : c - e / 2 < centre s 0
    · rw [if_pos hc] at hi
      rw [hi]
      exact ⟨by linarith [h0.2], Or.inl rfl⟩
    · rw [if_neg hc] at hi
      rw [hi]
      obtain ⟨a1, a2, a3⟩ := pos2ind_closed s hs (by omega) (c - e / 2) (by linarith [h0.1]) b1
      exact ⟨a3, Or.inr a2⟩
  constructor
  · by_cases hki : k = i
    · rcases hlo.2 with h | h
      · rw [hki, h]; exact b2
      · rw [hki]; linarith
    · by_cases hc : centre s (s.length - 2) < c + e / 2
      · have := at'_le hs (i := k) (j := s.length - 2) (by omega) (by omega)
        linarith [hlast.1]
      · rw [if_neg hc] at hj
        have hkp : k < pos2ind s (c + e / 2) := by omega
        have he : s.length - 2 + 1 = s.length - 1 := by omega
        rw [he] at hlast
        obtain ⟨a1, a2, a3⟩ := pos2ind_closed s hs (by omega) (c + e / 2) b2 (by linarith [hlast.2])
        have := at'_le hs (i := k) (j := pos2ind s (c + e / 2)) (by omega) (by omega)
        linarith
  · have := at'_le hs (i := i + 1) (j := k + 1) (by omega) (by omega)
    linarith [hlo.1]

/-- **C44**, the part that holds: every cell whose centre lies in the box is selected, except possibly the one that contains the
upper face of the box. Missing: that cell, when the upper face lies beyond its centre, see `region_centre_false`. -/
theorem region_contains_partial (s : List K) (hs : s.Pairwise (· < ·)) (hn : 2 ≤ s.length) (c e : K) (i j : Nat)
    (h : regionSlice s c e = some (i, j)) (k : Nat) (hk : k + 1 < s.length) (h1 : c - e / 2 ≤ centre s k)
    (h2 : at' s (k + 1) ≤ c + e / 2 ∨ (centre s k ≤ c + e / 2 ∧ centre s (s.length - 2) < c + e / 2)) : i ≤ k ∧ k < j := by
  obtain ⟨hb, hi, hj⟩ := regionSlice_some s hs hn c e i j h
  have hck := centre_lt s hs k hk
  have hlast := centre_lt s hs (s.length - 2) (by omega)
  have hlen : s.length - 2 + 1 = s.length - 1 := by omega
  rw [hlen] at hlast
  constructor
  · rw [hi]
    split
    · omega
    · rename_i hc
      have h0 := centre_lt s hs 0 (by omega)
      have hl := at'_le hs (i := k + 1) (j := s.length - 1) (by omega) (by omega)
      obtain ⟨a1, a2, a3⟩ := pos2ind_cell s hs hn (c - e / 2) (by linarith [h0.1, not_lt.1 hc]) (by linarith [hck.2])
      by_contra hlt
      have := at'_le hs (i := k + 1) (j := pos2ind s (c - e / 2)) (by omega) (by omega)
      linarith [hck.2]
  · rw [hj]
    by_cases hc : centre s (s.length - 2) < c + e / 2
    · rw [if_pos hc]; omega
    · rw [if_neg hc]
      have hk2 := h2.resolve_right fun hx => hc hx.2
      have hz := at'_le hs (i := 0) (j := k + 1) (by omega) (by omega)
      obtain ⟨a1, a2, a3⟩ := pos2ind_cell s hs hn (c + e / 2) (by linarith) (by linarith [hlast.2, not_lt.1 hc])
      have : k + 1 ≤ pos2ind s (c + e / 2) := by
        by_contra hlt
        have := at'_le hs (i := pos2ind s (c + e / 2) + 1) (j := k + 1) (by omega) (by omega)
        linarith
      omega

/-- **C44**. A box without extent along the axis selects exactly the cell that contains it. -/
theorem region_plane (s : List K) (hs : s.Pairwise (· < ·)) (c : K) (k : Nat) (hk : k + 1 < s.length) (h0 : at' s k ≤ c)
    (h1 : c < at' s (k + 1)) : regionSlice s c 0 = some (k, k + 1) := by
  have hz := at'_le hs (i := 0) (j := k) (by omega) (by omega)
  have hl := at'_le hs (i := k + 1) (j := s.length - 1) (by omega) (by omega)
  have hp : pos2ind s c = k := by
    obtain ⟨a1, a2, a3⟩ := pos2ind_cell s hs (by omega) c (by linarith) (by linarith)
    rcases Nat.lt_trichotomy (pos2ind s c) k with hlt | heq | hlt
    · have := at'_le hs (i := pos2ind s c + 1) (j := k) (by omega) (by omega)
      linarith
    · exact heq
    · have := at'_le hs (i := k + 1) (j := pos2ind s c) (by omega) (by omega)
      linarith
  cases hr : regionSlice s c 0 with
  | none =>
    rw [region_raises s hs (by omega)] at hr
    obtain ⟨_, hr | hr⟩ := hr <;> simp at hr <;> linarith
  | some x =>
    obtain ⟨i, j⟩ := x
    obtain ⟨hb, hi, hj⟩ := regionSlice_some s hs (by omega) c 0 i j hr
    simp only [zero_div, sub_zero, add_zero] at hi hj
    have hik : i = k := by
      rw [hi]
      split
      · rename_i hc
        have h2 := centre_lt s hs 0 (by omega)
        by_contra hne
        have := at'_le hs (i := 0 + 1) (j := k) (by omega) (by omega)
        linarith [h2.2]
      · exact hp
    have hjk : j = k + 1 := by
      rw [hj, hik, hp]
      split
      · rename_i hc
        have h2 := centre_lt s hs (s.length - 2) (by omega)
        have : k = s.length - 2 := by
          by_contra hne
          have := at'_le hs (i := k + 1) (j := s.length - 2) (by omega) (by omega)
          linarith [h2.1]
        omega
      · omega
    rw [hik, hjk]

/-- Edges 0 to 4, a box from 1/2 to 5/2: the hypotheses of the theorems above are met, the slice is `0:2`. -/
example : regionSlice ([0, 1, 2, 3, 4] : List ℚ) (3 / 2) 2 = some (0, 2) ∧ ([0, 1, 2, 3, 4] : List ℚ).Pairwise (· < ·) := by
  constructor
  · decide +kernel
  · decide +kernel

/-- **C44, violated.** A cell whose centre lies in the box need not be selected: with edges 0 to 4 and a box from 1 to 11/4, the cell
from 2 to 3 is left out. -/
theorem region_centre_false : ¬ ∀ (s : List ℚ) (c e : ℚ) (i j k : Nat), s.Pairwise (· < ·) → regionSlice s c e = some (i, j) →
    k + 1 < s.length → c - e / 2 ≤ centre s k → centre s k ≤ c + e / 2 → i ≤ k ∧ k < j := by
  intro h
  have := h [0, 1, 2, 3, 4] (15 / 8) (7 / 4) 1 2 2 (by decide +kernel) (by decide +kernel) (by decide) (by decide +kernel) (by decide +kernel)
  omega

/-! ### C67 -/

variable [FloorSemiring K]

theorem arange_length (a b d : K) : (arange a b d).length = ⌈(b - a) / d⌉₊ := by simp [arange]

theorem at'_arange (a b d : K) (i : Nat) (h : i < ⌈(b - a) / d⌉₊) : at' (arange a b d) i = a + (i : K) * d := by
  rw [at'_eq _ _ (by rw [arange_length]; exact h)]
  simp [arange]

theorem at'_map (f : K → K) (l : List K) (i : Nat) (h : i < l.length) : at' (l.map f) i = f (at' l i) := by
  rw [at'_eq _ _ (by simpa using h), at'_eq l i h, List.getElem_map]

theorem goosEdges_eq (c x dx : K) (hdx : 0 < dx) (hx : 0 ≤ x) (e : List K) (he : e = arange (c - x / 2) (c + x / 2 + dx / 2) dx) :
    ∃ m : Nat, (e.map fun y => y - (at' e 0 + at' e (e.length - 1)) / 2 + c).length = m + 1 ∧
      (∀ k ≤ m, at' (e.map fun y => y - (at' e 0 + at' e (e.length - 1)) / 2 + c) k = c + ((k : K) - (m : K) / 2) * dx) ∧
      x / dx - 1 / 2 ≤ (m : K) ∧ (m : K) < x / dx + 1 / 2 := by
  have hq : (c + x / 2 + dx / 2 - (c - x / 2)) / dx = x / dx + 1 / 2 := by
    field_simp
    ring
  have hpos : 0 < x / dx + 1 / 2 := by positivity
  have hc : 0 < ⌈x / dx + 1 / 2⌉₊ := Nat.ceil_pos.2 hpos
  have h1 : x / dx + 1 / 2 ≤ (⌈x / dx + 1 / 2⌉₊ : K) := Nat.le_ceil _
  have h2 : (⌈x / dx + 1 / 2⌉₊ : K) < x / dx + 1 / 2 + 1 := Nat.ceil_lt_add_one (le_of_lt hpos)
  obtain ⟨m, hm⟩ : ∃ m, ⌈x / dx + 1 / 2⌉₊ = m + 1 := ⟨⌈x / dx + 1 / 2⌉₊ - 1, by omega⟩
  have hlen : e.length = m + 1 := by rw [he, arange_length, hq, hm]
  have hat : ∀ k ≤ m, at' e k = c - x / 2 + (k : K) * dx := by
    intro k hk
    rw [he, at'_arange _ _ _ _ (by rw [hq, hm]; omega)]
  rw [hm] at h1 h2
  push_cast at h1 h2
  refine ⟨m, by simp [hlen], ?_, by linarith, by linarith⟩
  intro k hk
  rw [at'_map _ _ _ (by omega), hat k hk, hat 0 (by omega), hlen, Nat.add_sub_cancel, hat m (le_refl _)]
  push_cast
  ring

/-- **C67**, goos. The edges are `m + 1` points at distance `dx`, symmetric around the centre. Without symmetry, the number of cells
`m` is positive and `m dx` differs from the extent (at least `dx`) by at most `dx / 2`. -/
theorem goos_edges (c ext dx : K) (hdx : 0 < dx) :
    ∃ m : Nat, 1 ≤ m ∧ (goosEdges c ext dx false).length = m + 1 ∧
      (∀ k ≤ m, at' (goosEdges c ext dx false) k = c + ((k : K) - (m : K) / 2) * dx) ∧
      max ext dx - dx / 2 ≤ (m : K) * dx ∧ (m : K) * dx < max ext dx + dx / 2 := by
  obtain ⟨m, h1, h2, h3, h4⟩ := goosEdges_eq c (max ext dx) dx hdx (le_trans (le_of_lt hdx) (le_max_right _ _)) _ rfl
  have g3 : max ext dx - dx / 2 ≤ (m : K) * dx := by
    have := mul_le_mul_of_nonneg_right h3 (le_of_lt hdx)
    rw [sub_mul, div_mul_cancel₀ _ (ne_of_gt hdx)] at this
    linarith
  have g4 : (m : K) * dx < max ext dx + dx / 2 := by
    have := mul_lt_mul_of_pos_right h4 hdx
    rw [add_mul, div_mul_cancel₀ _ (ne_of_gt hdx)] at this
    linarith
  refine ⟨m, ?_, h1, h2, g3, g4⟩
  by_contra hm
  have : m = 0 := by omega
  subst this
  have := le_max_right ext dx
  simp at g3
  linarith

/-- **C67**, goos. An axis with reflection symmetry and an extent of at least two cells has the even number of cells
`2 floor(extent / (2 dx))`, symmetric around the centre. -/
theorem goos_edges_symmetric_partial (c ext dx : K) (hdx : 0 < dx) (hext : 2 * dx ≤ ext) :
    1 ≤ ⌊ext / (2 * dx)⌋₊ ∧ (goosEdges c ext dx true).length = 2 * ⌊ext / (2 * dx)⌋₊ + 1 ∧
      ∀ k ≤ 2 * ⌊ext / (2 * dx)⌋₊, at' (goosEdges c ext dx true) k = c + ((k : K) - (⌊ext / (2 * dx)⌋₊ : K)) * dx := by
  have hmax : max ext dx = ext := max_eq_left (by linarith)
  have hx : edgeExtent ext dx true = (⌊ext / (2 * dx)⌋₊ : K) * 2 * dx := by
    unfold edgeExtent
    simp only [hmax, if_true]
    split
    · rename_i h
      rw [h]
      field_simp
    · rfl
  obtain ⟨m, h1, h2, h3, h4⟩ := goosEdges_eq c (edgeExtent ext dx true) dx hdx (by rw [hx]; positivity) _ rfl
  have hdiv : edgeExtent ext dx true / dx = ((2 * ⌊ext / (2 * dx)⌋₊ : Nat) : K) := by
    rw [hx]
    push_cast
    field_simp
  rw [hdiv] at h3 h4
  have hm : m = 2 * ⌊ext / (2 * dx)⌋₊ := by
    have a1 : ((2 * ⌊ext / (2 * dx)⌋₊ : Nat) : K) < ((m + 1 : Nat) : K) := by push_cast at h3 ⊢; linarith
    have a2 : (m : K) < ((2 * ⌊ext / (2 * dx)⌋₊ + 1 : Nat) : K) := by push_cast at h4 ⊢; linarith
    have b1 := Nat.cast_lt.1 a1
    have b2 := Nat.cast_lt.1 a2
    omega
  subst hm
  refine ⟨?_, h1, ?_⟩
  · rw [Nat.one_le_floor_iff, le_div_iff₀ (by linarith)]
    linarith
  · intro k hk
    rw [show at' (goosEdges c ext dx true) k = _ from h2 k hk]
    push_cast
    ring

/-- **C67, violated.** An axis with reflection symmetry and an extent of less than two cells gets a grid without cells. -/
theorem goos_edges_symmetric_false : goosEdges (0 : ℚ) 1 1 true = [0] := by decide +kernel

/-- **C67**, invdes. The edges are at distance `dx`, and the number of cells is the extent divided by `dx`, rounded up. The first edge
lies half a cell before the region. -/
theorem invdes_edges_partial (c ext dx : K) (hdx : 0 < dx) (hext : 0 < ext) :
    ∃ m : Nat, 1 ≤ m ∧ (invdesEdges c ext dx).length = m + 1 ∧
      (∀ k ≤ m, at' (invdesEdges c ext dx) k = c - ext / 2 - dx / 2 + (k : K) * dx) ∧
      ext ≤ (m : K) * dx ∧ (m : K) * dx < ext + dx := by
  have hq : (c + ext / 2 + dx / 2 - (c - ext / 2 - dx / 2)) / dx = ext / dx + 1 := by
    field_simp
    ring
  have hpos : 0 < ext / dx := by positivity
  have hc : ⌈ext / dx + 1⌉₊ = ⌈ext / dx⌉₊ + 1 := Nat.ceil_add_one (le_of_lt hpos)
  have h1 : ext / dx ≤ (⌈ext / dx⌉₊ : K) := Nat.le_ceil _
  have h2 : (⌈ext / dx⌉₊ : K) < ext / dx + 1 := Nat.ceil_lt_add_one (le_of_lt hpos)
  refine ⟨⌈ext / dx⌉₊, Nat.ceil_pos.2 hpos, ?_, ?_, ?_, ?_⟩
  · rw [invdesEdges, arange_length, hq, hc]
  · intro k hk
    rw [invdesEdges, at'_arange _ _ _ _ (by rw [hq, hc]; omega)]
  · rwa [div_le_iff₀ hdx] at h1
  · have := mul_lt_mul_of_pos_right h2 hdx
    rw [add_mul, div_mul_cancel₀ _ (ne_of_gt hdx)] at this
    linarith

/-- **C67, violated.** The grid of invdes need not be centred at the centre of the region and need not cover it: for a region from
-1 to 1 and cells of size 1 it ends at 1/2. -/
theorem invdes_edges_cover_false : invdesEdges (0 : ℚ) 2 1 = [-3 / 2, -1 / 2, 1 / 2] := by decide +kernel

/-- **C67, violated.** A region without extent has no cell, while goos makes one. -/
theorem invdes_edges_flat_false : invdesEdges (0 : ℚ) 0 1 = [-1 / 2] ∧ goosEdges (0 : ℚ) 0 1 false = [-1 / 2, 1 / 2] := by
  decide +kernel

/-- The hypotheses hold for a region of extent 5 with cells of size 1: 4 cells with symmetry and 5 without. -/
example : goosEdges (0 : ℚ) 5 1 true = [-2, -1, 0, 1, 2] ∧ goosEdges (0 : ℚ) 5 1 false = [-5 / 2, -3 / 2, -1 / 2, 1 / 2, 3 / 2, 5 / 2] := by
  decide +kernel

end Verif.Render
