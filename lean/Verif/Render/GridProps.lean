import Verif.Render.Grid
import Verif.Render.RasterProps
import Mathlib.Algebra.Order.Floor.Semiring
import Mathlib.Data.Rat.Floor
import Mathlib.Tactic.LinearCombination
/-
C62 (positions and indices of a grid) and the part of C28 about the extrusion axis.
-/
set_option linter.unusedSectionVars false
set_option linter.unusedVariables false
namespace Verif.Render
variable {K : Type} [Field K] [LinearOrder K] [IsStrictOrderedRing K]

/-! ### Lemmas -/

theorem at'_zipWith (f : K → K → K) (l m : List K) (i : Nat) (h1 : i < l.length) (h2 : i < m.length) :
    at' (List.zipWith f l m) i = f (at' l i) (at' m i) := by
  rw [at'_eq _ _ (by simp; omega), at'_eq l i h1, at'_eq m i h2, List.getElem_zipWith]

theorem at'_tail (l : List K) (i : Nat) : at' l.tail i = at' l (i + 1) := by
  cases l <;> simp [at']

theorem at'_dropLast (l : List K) (i : Nat) (h : i < l.length - 1) : at' l.dropLast i = at' l i := by
  rw [at'_eq _ _ (by simpa using h), at'_eq l i (by omega), List.getElem_dropLast]

theorem at'_append_left (l m : List K) (i : Nat) (h : i < l.length) : at' (l ++ m) i = at' l i := by
  rw [at'_eq _ _ (by simp; omega), at'_eq l i h, List.getElem_append_left h]

theorem at'_append_last (l : List K) (x : K) : at' (l ++ [x]) l.length = x := by
  rw [at'_eq _ _ (by simp)]
  simp

theorem widths_length (e : List K) : (widths e).length = e.length - 1 := by
  simp [widths]

theorem at'_widths (e : List K) (i : Nat) (h : i + 1 < e.length) : at' (widths e) i = at' e (i + 1) - at' e i := by
  rw [widths, at'_zipWith _ _ _ _ (by omega) (by simp; omega), at'_tail]

theorem ghost_length (p : Bool) (e : List K) (h : 1 ≤ e.length) : (widthsGhost p e).length = e.length := by
  simp [widthsGhost, widths_length]
  omega

theorem at'_ghost (p : Bool) (e : List K) (i : Nat) (h : i + 1 < e.length) :
    at' (widthsGhost p e) i = at' e (i + 1) - at' e i := by
  rw [widthsGhost, at'_append_left _ _ _ (by rw [widths_length]; omega), at'_widths e i h]

/-- Widths are positive, the additional one too. -/
theorem ghost_pos (p : Bool) (e : List K) (he : e.Pairwise (· < ·)) (hn : 2 ≤ e.length) (i : Nat) (hi : i < e.length) :
    0 < at' (widthsGhost p e) i := by
  by_cases h : i + 1 < e.length
  · rw [at'_ghost p e i h]
    exact sub_pos.2 (at'_lt he (Nat.lt_succ_self i) h)
  · have hi' : i = (widths e).length := by rw [widths_length]; omega
    rw [widthsGhost, hi', at'_append_last]
    split
    · rw [at'_widths e 0 (by omega)]
      exact sub_pos.2 (at'_lt he (by omega) (by omega))
    · rw [at'_widths e _ (by rw [widths_length]; omega)]
      exact sub_pos.2 (at'_lt he (by omega) (by rw [widths_length]; omega))

theorem prim_length (p : Bool) (σ : K) (e : List K) (h : 1 ≤ e.length) : (primEdges p σ e).length = e.length := by
  simp [primEdges, ghost_length p e h]

theorem at'_prim (p : Bool) (σ : K) (e : List K) (i : Nat) (h : i < e.length) :
    at' (primEdges p σ e) i = at' e i + at' (widthsGhost p e) i * σ := by
  rw [primEdges, at'_zipWith _ _ _ _ h (by rw [ghost_length p e (by omega)]; exact h)]

theorem comp_length_zero (p : Bool) (e : List K) (h : 1 ≤ e.length) : (compEdges p 0 e).length = e.length := by
  simp [compEdges, ghost_length p e h]

theorem at'_comp_zero (p : Bool) (e : List K) (i : Nat) (h : i < e.length) : at' (compEdges p 0 e) i = at' e i := by
  have : compEdges p 0 e = List.zipWith (fun x d => x + d * 0) e (widthsGhost p e) := by simp [compEdges]
  rw [this, at'_zipWith _ _ _ _ h (by rw [ghost_length p e (by omega)]; exact h)]
  ring

theorem comp_length (p : Bool) (σ : K) (hσ : σ ≠ 0) (e : List K) (h : 1 ≤ e.length) :
    (compEdges p σ e).length = e.length + 1 := by
  simp [compEdges, hσ, ghost_length p e h]

theorem at'_comp_first (p : Bool) (σ : K) (hσ : σ ≠ 0) (e : List K) (h : 1 ≤ e.length) :
    at' (compEdges p σ e) 0 = at' e 0 - at' (widthsGhost p e) (e.length - 1) * σ := by
  simp only [compEdges, if_neg hσ, ghost_length p e h]
  rfl

theorem at'_comp_succ (p : Bool) (σ : K) (hσ : σ ≠ 0) (e : List K) (i : Nat) (h : i < e.length) :
    at' (compEdges p σ e) (i + 1) = at' e i + at' (widthsGhost p e) i * σ := by
  simp only [compEdges, if_neg hσ]
  have : ∀ (x : K) (l : List K), at' (x :: l) (i + 1) = at' l i := fun x l => by simp [at']
  rw [this, at'_zipWith _ _ _ _ h (by rw [ghost_length p e (by omega)]; exact h)]

theorem pairwise_of_at' {l : List K} (h : ∀ i, i + 1 < l.length → at' l i < at' l (i + 1)) : l.Pairwise (· < ·) := by
  rw [List.pairwise_iff_getElem]
  intro i j hi hj hij
  have key : ∀ k, i < k → (hk : k < l.length) → l[i] < l[k] := by
    intro k hik hk
    induction k with
    | zero => omega
    | succ k ih =>
      have hs := h k hk
      rw [at'_eq l k (by omega), at'_eq l (k + 1) hk] at hs
      rcases Nat.lt_or_ge i k with h1 | h1
      · exact (ih h1 (by omega)).trans hs
      · have : i = k := by omega
        subst this
        exact hs
  exact key j hij hj

/-! ### Shifted grids -/

/-- The edges of the primary grid are in order for every shift by a fraction of a cell. -/
theorem prim_increasing (p : Bool) (σ : K) (h0 : 0 ≤ σ) (h1 : σ ≤ 1) (e : List K) (he : e.Pairwise (· < ·))
    (hn : 2 ≤ e.length) : (primEdges p σ e).Pairwise (· < ·) := by
  refine pairwise_of_at' fun i hi => ?_
  rw [prim_length p σ e (by omega)] at hi
  rw [at'_prim p σ e i (by omega), at'_prim p σ e (i + 1) hi]
  have hd := at'_ghost p e i hi
  have p0 := ghost_pos p e he hn i (by omega)
  have p1 := ghost_pos p e he hn (i + 1) hi
  rcases h1.lt_or_eq with h | h
  · nlinarith [mul_pos p0 (sub_pos.2 h), mul_nonneg p1.le h0]
  · subst h
    linarith

/-- The edges of the complementary grid are in order. -/
theorem comp_increasing (p : Bool) (σ : K) (h0 : 0 ≤ σ) (h1 : σ ≤ 1) (e : List K) (he : e.Pairwise (· < ·))
    (hn : 2 ≤ e.length) : (compEdges p σ e).Pairwise (· < ·) := by
  by_cases hσ : σ = 0
  · subst hσ
    refine pairwise_of_at' fun i hi => ?_
    rw [comp_length_zero p e (by omega)] at hi
    rw [at'_comp_zero p e i (by omega), at'_comp_zero p e (i + 1) hi]
    exact at'_lt he (Nat.lt_succ_self i) hi
  · refine pairwise_of_at' fun i hi => ?_
    rw [comp_length p σ hσ e (by omega)] at hi
    have hpos : 0 < σ := lt_of_le_of_ne h0 (Ne.symm hσ)
    cases i with
    | zero =>
      rw [at'_comp_first p σ hσ e (by omega), at'_comp_succ p σ hσ e 0 (by omega)]
      have p0 := ghost_pos p e he hn 0 (by omega)
      have p1 := ghost_pos p e he hn (e.length - 1) (by omega)
      nlinarith [mul_pos p0 hpos, mul_pos p1 hpos]
    | succ i =>
      have := at'_lt (prim_increasing p σ h0 h1 e he hn) (Nat.lt_succ_self i)
        (by rw [prim_length p σ e (by omega)]; omega)
      rw [at'_prim p σ e i (by omega), at'_prim p σ e (i + 1) (by omega)] at this
      rw [at'_comp_succ p σ hσ e i (by omega), at'_comp_succ p σ hσ e (i + 1) (by omega)]
      exact this

theorem ext_at' {l m : List K} (hl : l.length = m.length) (h : ∀ i, i < l.length → at' l i = at' m i) : l = m := by
  refine List.ext_getElem hl fun i h1 h2 => ?_
  have := h i h1
  rwa [at'_eq l i h1, at'_eq m i h2] at this

/-- **C62**. The widths of the primary grid are the distances of its edges, for every shift. -/
theorem prim_widths (p : Bool) (σ : K) (e : List K) (hn : 1 ≤ e.length) :
    primWidths p σ e = widths (primEdges p σ e) := by
  have hg := ghost_length p e hn
  refine ext_at' ?_ fun i hi => ?_
  · simp [primWidths, widths_length, prim_length p σ e hn, hg]
  · have hi' : i + 1 < e.length := by
      simp [primWidths, hg] at hi
      omega
    rw [at'_widths _ _ (by rw [prim_length p σ e hn]; exact hi'), at'_prim p σ e i (by omega), at'_prim p σ e (i + 1) hi']
    simp only [primWidths]
    rw [at'_zipWith _ _ _ _ (by simp [hg]; omega) (by simp [hg]; omega), at'_dropLast _ _ (by rw [hg]; omega), at'_tail]
    have := at'_ghost p e i hi'
    linear_combination this

/-- **C62**. The widths of the complementary grid are the distances of its edges for the shifts 0 and 1/2 that a Yee grid
has. -/
theorem comp_widths_partial (p : Bool) (σ : K) (hσ : σ = 0 ∨ σ = 1 / 2) (e : List K) (hn : 1 ≤ e.length) :
    compWidths p σ e = widths (compEdges p σ e) := by
  have hg := ghost_length p e hn
  by_cases h0 : σ = 0
  · subst h0
    have e1 : compWidths p 0 e = primWidths p 0 e := by simp [compWidths, primWidths]
    have e2 : compEdges p 0 e = primEdges p 0 e := by simp [compEdges, primEdges]
    rw [e1, e2, prim_widths p 0 e hn]
  · have hh : σ = 1 / 2 := hσ.resolve_left h0
    refine ext_at' ?_ fun i hi => ?_
    · simp [compWidths, h0, widths_length, comp_length p σ h0 e hn, hg]
      omega
    · have hi' : i < e.length := by
        simp [compWidths, h0, hg] at hi
        omega
      rw [at'_widths _ _ (by rw [comp_length p σ h0 e hn]; omega)]
      simp only [compWidths, if_neg h0]
      cases i with
      | zero =>
        rw [at'_comp_first p σ h0 e hn, at'_comp_succ p σ h0 e 0 (by omega), hg]
        have : ∀ (x : K) (l : List K), at' (x :: l) 0 = x := fun x l => by simp [at']
        rw [this, hh]
        ring
      | succ i =>
        rw [at'_comp_succ p σ h0 e i (by omega), at'_comp_succ p σ h0 e (i + 1) (by omega)]
        have : ∀ (x : K) (l : List K), at' (x :: l) (i + 1) = at' l i := fun x l => by simp [at']
        rw [this, at'_zipWith _ _ _ _ (by simp [hg]; omega) (by simp [hg]; omega), at'_dropLast _ _ (by rw [hg]; omega),
          at'_tail]
        have := at'_ghost p e i (by omega)
        linear_combination this

/-- For another shift the first width is wrong. -/
theorem comp_widths_false : compWidths false (1 / 4 : ℚ) [0, 1, 2] ≠ widths (compEdges false (1 / 4 : ℚ) [0, 1, 2]) := by
  norm_num [compWidths, widths, compEdges, widthsGhost, at']

/-! ### Positions and indices -/

/-- **C62**. `pos2ind` returns the cell that contains the position, for every position from the first edge up to the last,
excluded. -/
theorem pos2ind_cell (s : List K) (hs : s.Pairwise (· < ·)) (hn : 2 ≤ s.length) (r : K) (h0 : at' s 0 ≤ r)
    (h1 : r < at' s (s.length - 1)) :
    pos2ind s r + 1 < s.length ∧ at' s (pos2ind s r) ≤ r ∧ r < at' s (pos2ind s r + 1) := by
  obtain ⟨d1, d2, d3⟩ := digitize_spec s hs r
  have hd1 : 1 ≤ digitize s r := by
    by_contra hc
    exact absurd (d3 0 (by omega) (by omega)) (not_lt.2 h0)
  have hd2 : digitize s r < s.length := by
    by_contra hc
    exact absurd (d2 (s.length - 1) (by omega)) (not_le.2 h1)
  have hp : pos2ind s r = digitize s r - 1 := by
    unfold pos2ind
    omega
  rw [hp]
  exact ⟨by omega, d2 _ (by omega), d3 _ (by omega) (by omega)⟩

/-- **C62**. Outside of the grid it returns the first or the last cell. -/
theorem pos2ind_outside (s : List K) (hs : s.Pairwise (· < ·)) (hn : 2 ≤ s.length) (r : K) :
    (r < at' s 0 → pos2ind s r = 0) ∧ (at' s (s.length - 1) ≤ r → pos2ind s r = s.length - 2) := by
  obtain ⟨d1, d2, d3⟩ := digitize_spec s hs r
  constructor
  · intro h
    have : digitize s r = 0 := by
      by_contra hc
      exact absurd (d2 0 (by omega)) (not_le.2 h)
    simp [pos2ind, this]
  · intro h
    have : digitize s r = s.length := by
      by_contra hc
      exact absurd (d3 (s.length - 1) (by omega) (by omega)) (not_lt.2 h)
    unfold pos2ind
    omega

/-- **C62**. The bounds check rejects exactly the positions outside of the grid, unless the axis has a single cell. -/
theorem pos2ind_bounds (n : Nat) (s : List K) (r : K) :
    inBounds n s r = true ↔ n ≤ 1 ∨ (at' s 0 ≤ r ∧ r ≤ at' s (s.length - 1)) := by
  simp only [inBounds, decide_eq_true_eq]
  constructor
  · intro h
    by_cases hn : n ≤ 1
    · exact Or.inl hn
    · refine Or.inr ⟨not_lt.1 fun hc => h ⟨by omega, Or.inl hc⟩, not_lt.1 fun hc => h ⟨by omega, Or.inr hc⟩⟩
  · rintro (h | ⟨h1, h2⟩) ⟨hc, hd⟩
    · omega
    · rcases hd with hd | hd
      · exact absurd hd (not_lt.2 h1)
      · exact absurd hd (not_lt.2 h2)

/-- Without rounding, an index counts cells from the first edge. -/
theorem pos2indFrac_eq (s : List K) (hs : s.Pairwise (· < ·)) (hn : 2 ≤ s.length) (r : K) (h0 : at' s 0 ≤ r)
    (h1 : r < at' s (s.length - 1)) :
    pos2indFrac s (widths s) r = (pos2ind s r : K) +
      (r - at' s (pos2ind s r)) / (at' s (pos2ind s r + 1) - at' s (pos2ind s r)) ∧
    0 ≤ (r - at' s (pos2ind s r)) / (at' s (pos2ind s r + 1) - at' s (pos2ind s r)) ∧
    (r - at' s (pos2ind s r)) / (at' s (pos2ind s r + 1) - at' s (pos2ind s r)) < 1 := by
  obtain ⟨c1, c2, c3⟩ := pos2ind_cell s hs hn r h0 h1
  obtain ⟨d1, d2, d3⟩ := digitize_spec s hs r
  have hd1 : 1 ≤ digitize s r := by
    by_contra hc
    exact absurd (d3 0 (by omega) (by omega)) (not_lt.2 h0)
  have hd2 : digitize s r < s.length := by
    by_contra hc
    exact absurd (d2 (s.length - 1) (by omega)) (not_le.2 h1)
  have hp : digitize s r - 1 = pos2ind s r := by
    unfold pos2ind
    omega
  have hw : 0 < at' s (pos2ind s r + 1) - at' s (pos2ind s r) := by linarith
  have f0 : 0 ≤ (r - at' s (pos2ind s r)) / (at' s (pos2ind s r + 1) - at' s (pos2ind s r)) :=
    div_nonneg (by linarith) hw.le
  have f1 : (r - at' s (pos2ind s r)) / (at' s (pos2ind s r + 1) - at' s (pos2ind s r)) < 1 := by
    rw [div_lt_one hw]
    linarith
  refine ⟨?_, f0, f1⟩
  have hc : ¬ (digitize s r = 0 ∨ digitize s r - 1 ≠ pos2ind s r) := by
    rintro (h | h)
    · omega
    · exact h hp
  unfold pos2indFrac
  simp only
  rw [if_neg hc, hp]
  rw [at'_widths s _ c1, clip]
  have hn0 : (0 : K) ≤ (pos2ind s r : K) := Nat.cast_nonneg _
  have hle : ((pos2ind s r : Nat) : K) + 1 ≤ ((s.length - 1 : Nat) : K) := by
    have : pos2ind s r + 1 ≤ s.length - 1 := by omega
    exact_mod_cast this
  rw [max_eq_left (by linarith), min_eq_left (by linarith)]

section
variable [FloorSemiring K]

/-- **C62**, the part that holds: half a cell before the index `pos2ind` returns without rounding, `ind2pos` gives the
position back. Missing: the two functions count from different points, so that `ind2pos (pos2ind r)` is not `r`, see
`ind2pos_pos2ind_false`. -/
theorem ind2pos_pos2ind_partial (s : List K) (hs : s.Pairwise (· < ·)) (hn : 2 ≤ s.length) (r : K) (h0 : at' s 0 ≤ r)
    (h1 : r < at' s (s.length - 1)) : ind2pos s (pos2indFrac s (widths s) r - 1 / 2) = r := by
  obtain ⟨c1, c2, c3⟩ := pos2ind_cell s hs hn r h0 h1
  obtain ⟨f, f0, f1⟩ := pos2indFrac_eq s hs hn r h0 h1
  set i := pos2ind s r with hi
  set g := (r - at' s i) / (at' s (i + 1) - at' s i) with hgdef
  have hw : 0 < at' s (i + 1) - at' s i := by linarith
  have hgr : g * (at' s (i + 1) - at' s i) = r - at' s i := div_mul_cancel₀ _ hw.ne'
  have hn0 : (0 : K) ≤ (i : K) := Nat.cast_nonneg _
  have hle : (i : K) + 1 ≤ ((s.length - 1 : Nat) : K) := by
    have : i + 1 ≤ s.length - 1 := by omega
    exact_mod_cast this
  unfold ind2pos
  rw [f]
  have hy : (i : K) + g - 1 / 2 + 1 / 2 = (i : K) + g := by ring
  simp only [hy]
  by_cases hz : (i : K) + g ≤ 0
  · have hg0 : g = 0 := by linarith
    have hi0 : (i : K) = 0 := by linarith
    have hi0' : i = 0 := by exact_mod_cast hi0
    rw [if_pos hz]
    rw [hg0, zero_mul, hi0'] at hgr
    linarith
  · rw [if_neg hz, if_neg (by linarith)]
    have hfl : ⌊(i : K) + g⌋₊ = i := by
      rw [Nat.floor_eq_iff (by linarith)]
      exact ⟨by linarith, by linarith⟩
    rw [hfl]
    have : (i : K) + g - (i : K) = g := by ring
    rw [this, hgr]
    ring

/-- **C62** is false: `ind2pos` is not the inverse of `pos2ind`. -/
theorem ind2pos_pos2ind_false :
    ∃ (s : List ℚ) (r : ℚ), s.Pairwise (· < ·) ∧ at' s 0 ≤ r ∧ r < at' s (s.length - 1) ∧
      ind2pos s (pos2indFrac s (widths s) r) ≠ r := by
  refine ⟨[0, 2, 4, 6], 3, by norm_num, by norm_num [at'], by norm_num [at'], ?_⟩
  have h1 : pos2indFrac ([0, 2, 4, 6] : List ℚ) (widths [0, 2, 4, 6]) 3 = 3 / 2 := by
    norm_num [pos2indFrac, digitize, pos2ind, widths, at', clip]
  have h2 : ⌊(2 : ℚ)⌋₊ = 2 := Nat.floor_natCast 2
  rw [h1]
  norm_num [ind2pos, at']

end

/-! ### The window of cells that an object is added to -/

/-- Widths are at least `m`, the additional one too. -/
theorem ghost_ge (p : Bool) (e : List K) (hn : 2 ≤ e.length) (m : K)
    (hm : ∀ i, i + 1 < e.length → m ≤ at' e (i + 1) - at' e i) (i : Nat) (hi : i < e.length) :
    m ≤ at' (widthsGhost p e) i := by
  by_cases h : i + 1 < e.length
  · rw [at'_ghost p e i h]
    exact hm i h
  · have hi' : i = (widths e).length := by rw [widths_length]; omega
    rw [widthsGhost, hi', at'_append_last]
    split
    · rw [at'_widths e 0 (by omega)]
      exact hm 0 (by omega)
    · rw [at'_widths e _ (by rw [widths_length]; omega)]
      exact hm _ (by rw [widths_length]; omega)

/-- The shifts of a Yee grid along one axis, of the primary and of the complementary grid. -/
def YeeShifts (sp sc : K) : Prop := sp = 0 ∧ sc = 1 / 2 ∨ sp = 1 / 2 ∧ sc = 0

/-- The edges of the primary grid are inside of the cells of the complementary one, with a distance of half the smallest
width on both sides. -/
theorem yee_inside (periodic : Bool) (sp sc : K) (hs : YeeShifts sp sc) (e : List K) (hn : 2 ≤ e.length) (m : K)
    (hm : ∀ i, i + 1 < e.length → m ≤ at' e (i + 1) - at' e i) (i : Nat) (hi : i < e.length - 1) :
    at' (compEdges periodic sc e) i + m / 2 ≤ at' (primEdges periodic sp e) i ∧
      at' (primEdges periodic sp e) i + m / 2 ≤ at' (compEdges periodic sc e) (i + 1) := by
  rw [at'_prim periodic sp e i (by omega)]
  have pi := ghost_ge periodic e hn m hm i (by omega)
  rcases hs with ⟨h1, h2⟩ | ⟨h1, h2⟩
  · have h2' : sc ≠ 0 := by rw [h2]; norm_num
    rw [at'_comp_succ periodic sc h2' e i (by omega), h1, h2]
    refine ⟨?_, by linarith⟩
    cases i with
    | zero =>
      rw [at'_comp_first periodic (1 / 2) (by norm_num) e (by omega)]
      have := ghost_ge periodic e hn m hm (e.length - 1) (by omega)
      linarith
    | succ i =>
      rw [at'_comp_succ periodic (1 / 2) (by norm_num) e i (by omega), at'_ghost periodic e i (by omega)]
      have := hm i (by omega)
      linarith
  · rw [h1, h2, at'_comp_zero periodic e i (by omega), at'_comp_zero periodic e (i + 1) (by omega),
      at'_ghost periodic e i (by omega)]
    have := hm i (by omega)
    constructor <;> linarith

/-- The cells outside of the window found with the positions `r0` and `r1` and the edges `p` have nothing in common with
what lies between `z0` and `z1`. -/
theorem window_spec (p c : List K) (n : Nat) (r0 r1 z0 z1 : K) (hp : p.Pairwise (· < ·))
    (hpn : p.length = n + 1) (hc : c.Pairwise (· < ·)) (hcn : n + 1 ≤ c.length) (hn : 1 ≤ n)
    (hlow : ∀ i, i < n → at' p i ≤ r0 → at' c i ≤ z0) (hhigh : ∀ i, i < n → r1 < at' p i → z1 ≤ at' c (i + 1))
    (k : Nat) (hk : k < n) (hout : ¬ (pos2ind p r0 ≤ k ∧ k < min (pos2ind p r1 + 1) (n - 1) + 1)) :
    at' c (k + 1) ≤ z0 ∨ z1 ≤ at' c k := by
  obtain ⟨a1, a2, a3⟩ := digitize_spec p hp r0
  obtain ⟨b1, b2, b3⟩ := digitize_spec p hp r1
  unfold pos2ind at hout
  by_cases h : min (digitize p r0 - 1) (p.length - 2) ≤ k
  · have h2 : min (min (digitize p r1 - 1) (p.length - 2) + 1) (n - 1) + 1 ≤ k := by omega
    right
    have hlt : min (digitize p r1 - 1) (p.length - 2) = digitize p r1 - 1 := by omega
    have hz1 : r1 < at' p (digitize p r1 - 1 + 1) := b3 _ (by omega) (by omega)
    have hp1 := hhigh (digitize p r1 - 1 + 1) (by omega) hz1
    exact hp1.trans (at'_le hc (i := digitize p r1 - 1 + 1 + 1) (j := k) (by omega) (by omega))
  · left
    have hz0 := a2 (min (digitize p r0 - 1) (p.length - 2)) (by omega)
    have hp1 := hlow (min (digitize p r0 - 1) (p.length - 2)) (by omega) hz0
    exact (at'_le hc (i := k + 1) (j := min (digitize p r0 - 1) (p.length - 2)) (by omega) (by omega)).trans hp1

theorem at'_window (c : List K) (lo m j : Nat) (h : lo + m ≤ c.length) (hj : j < m) :
    at' ((c.drop lo).take m) j = at' c (lo + j) := by
  rw [at'_eq _ _ (by simp; omega), at'_eq c _ (by omega)]
  simp

/-- What a window for something between `z0` and `z1` has to be: an interval of cells, with the edges around them, outside
of which there is nothing to draw. `c` are the edges of the cells and `n` is their number. -/
structure WindowFor (c : List K) (n : Nat) (z0 z1 : K) (w : Nat × Nat × List K) : Prop where
  le : w.1 ≤ w.2.1
  lt : w.2.1 < n
  len : w.2.2.length = w.2.1 + 2 - w.1
  inc : w.2.2.Pairwise (· < ·)
  edges : ∀ j, j < w.2.1 + 2 - w.1 → at' w.2.2 j = at' c (w.1 + j)
  out : ∀ k, k < n → ¬ (w.1 ≤ k ∧ k < w.2.1 + 1) → at' c (k + 1) ≤ z0 ∨ z1 ≤ at' c k

theorem axisWindow_for (periodic : Bool) (sp sc : K) (hs : YeeShifts sp sc) (e : List K) (he : e.Pairwise (· < ·))
    (hn : 2 ≤ e.length) (r0 r1 z0 z1 : K) (hr : r0 ≤ r1)
    (hlow : ∀ i, i < e.length - 1 → at' (primEdges periodic sp e) i ≤ r0 → at' (compEdges periodic sc e) i ≤ z0)
    (hhigh : ∀ i, i < e.length - 1 → r1 < at' (primEdges periodic sp e) i → z1 ≤ at' (compEdges periodic sc e) (i + 1)) :
    WindowFor (compEdges periodic sc e) (e.length - 1) z0 z1 (axisWindow periodic sp sc e r0 r1) := by
  have hsp : 0 ≤ sp ∧ sp ≤ 1 := by rcases hs with ⟨h, _⟩ | ⟨h, _⟩ <;> rw [h] <;> norm_num
  have hsc : 0 ≤ sc ∧ sc ≤ 1 := by rcases hs with ⟨_, h⟩ | ⟨_, h⟩ <;> rw [h] <;> norm_num
  have hp := prim_increasing periodic sp hsp.1 hsp.2 e he hn
  have hc := comp_increasing periodic sc hsc.1 hsc.2 e he hn
  have hpl := prim_length periodic sp e (by omega)
  have hcl : (if sc = 0 then e.length - 1 + 2 else e.length - 1 + 1) ≥ e.length ∧
      e.length ≤ (compEdges periodic sc e).length := by
    by_cases h : sc = 0
    · subst h
      rw [comp_length_zero periodic e (by omega)]
      simp
      omega
    · rw [comp_length periodic sc h e (by omega), if_neg h]
      omega
  have hwin := window_spec (primEdges periodic sp e) (compEdges periodic sc e) (e.length - 1) r0 r1 z0 z1
    hp (by omega) hc (by omega) (by omega) hlow hhigh
  have hmono : pos2ind (primEdges periodic sp e) r0 ≤ pos2ind (primEdges periodic sp e) r1 := by
    have := digitize_mono (primEdges periodic sp e) hr
    unfold pos2ind
    omega
  have hhi : pos2ind (primEdges periodic sp e) r1 ≤ e.length - 2 := by
    unfold pos2ind
    omega
  simp only [axisWindow]
  generalize pos2ind (primEdges periodic sp e) r0 = lo at *
  generalize pos2ind (primEdges periodic sp e) r1 = top at *
  set hi := min (top + 1) (e.length - 1 - 1) with hhi'
  have hch : min (hi + 1) ((if sc = 0 then e.length - 1 + 2 else e.length - 1 + 1) - 1) = hi + 1 := by omega
  rw [hch]
  have hlen : (((compEdges periodic sc e).drop lo).take (hi + 1 + 1 - lo)).length = hi + 1 + 1 - lo := by
    simp
    omega
  refine ⟨by simp only; omega, by simp only; omega, hlen, ?_, fun j hj => ?_, hwin⟩
  · exact (hc.sublist (List.drop_sublist _ _)).sublist (List.take_sublist _ _)
  · simp only at hj
    exact at'_window _ _ _ _ (by omega) (by omega)

/-- The window in the plane: it is found with the positions themselves. -/
theorem planeWindow_for (periodic : Bool) (sp sc : K) (hs : YeeShifts sp sc) (e : List K) (he : e.Pairwise (· < ·))
    (hn : 2 ≤ e.length) (r0 r1 : K) (hr : r0 ≤ r1) :
    WindowFor (compEdges periodic sc e) (e.length - 1) r0 r1 (axisWindow periodic sp sc e r0 r1) := by
  have h := yee_inside periodic sp sc hs e hn 0 fun i hi => sub_nonneg.2 (at'_lt he (Nat.lt_succ_self i) hi).le
  refine axisWindow_for periodic sp sc hs e he hn r0 r1 r0 r1 hr (fun i hi hp => ?_) fun i hi hp => ?_
  · have := (h i hi).1
    linarith
  · have := (h i hi).2
    linarith

section truncated
variable [FloorRing K]

theorem truncate_int (k : ℤ) : truncate (k : K) = k := by simp [truncate]

theorem truncate_near (x : K) : x - 1 < truncate x ∧ truncate x < x + 1 := by
  unfold truncate
  split
  · have := Int.sub_one_lt_floor x
    have := Int.floor_le x
    constructor <;> linarith
  · have := Int.le_ceil x
    have := Int.ceil_lt_add_one x
    constructor <;> linarith

theorem truncate_mono {x y : K} (h : x ≤ y) : truncate x ≤ truncate y := by
  unfold truncate
  split
  · rename_i h0
    rw [if_pos (h0.trans h)]
    exact_mod_cast Int.floor_le_floor h
  · rename_i h0
    split
    · rename_i h1
      have a : ⌈x⌉ ≤ 0 := Int.ceil_le.2 (by simpa using (not_le.1 h0).le)
      have b : 0 ≤ ⌊y⌋ := Int.floor_nonneg.2 h1
      exact_mod_cast a.trans b
    · exact_mod_cast Int.ceil_le_ceil h

/-- The heights are integers, or the cells are at least two units thick. -/
def RoundingHarmless (e : List K) (z0 z1 : K) : Prop :=
  ((∃ i : ℤ, z0 = i) ∧ ∃ i : ℤ, z1 = i) ∨ ∀ i, i + 1 < e.length → 2 ≤ at' e (i + 1) - at' e i

/-- The window along the extrusion axis: it is found with the rounded positions. -/
theorem zWindow_for (periodic : Bool) (sp sc : K) (hs : YeeShifts sp sc) (e : List K) (he : e.Pairwise (· < ·))
    (hn : 2 ≤ e.length) (z0 z1 : K) (hz : RoundingHarmless e z0 z1) :
    WindowFor (compEdges periodic sc e) (e.length - 1) (min z0 z1) (max z0 z1) (zWindow periodic sp sc e z0 z1) := by
  rcases hz with ⟨⟨i, rfl⟩, ⟨j, rfl⟩⟩ | hz
  · have h1 : truncate (min (i : K) j) = min (i : K) j := by
      rcases le_total (i : K) j with h | h
      · rw [min_eq_left h, truncate_int]
      · rw [min_eq_right h, truncate_int]
    have h2 : truncate (max (i : K) j) = max (i : K) j := by
      rcases le_total (i : K) j with h | h
      · rw [max_eq_right h, truncate_int]
      · rw [max_eq_left h, truncate_int]
    rw [zWindow, h1, h2]
    exact planeWindow_for periodic sp sc hs e he hn _ _ min_le_max
  · have h := yee_inside periodic sp sc hs e hn 2 hz
    refine axisWindow_for periodic sp sc hs e he hn _ _ _ _ (truncate_mono min_le_max) (fun i hi hp => ?_) fun i hi hp => ?_
    · have := (h i hi).1
      have := (truncate_near (min z0 z1)).2
      linarith
    · have := (h i hi).2
      have := (truncate_near (max z0 z1)).1
      linarith

/-- **C28**, extrusion axis. For every strictly increasing list of edges of a Yee grid and every layer, in either
orientation, inside, outside or across the boundary of the grid, `render_polygon` adds to each cell along the axis
exactly the part of the cell the layer covers: the window leaves no cell out. The cells are those of the complementary
grid, `e_k - d/2 .. e_k + d/2` for field components on the edges and `e_k .. e_{k+1}` for the others. Missing: cells
thinner than two units, with heights which are not integers, see `axis_weights_fraction_false`. -/
theorem axis_weights_fraction_partial (periodic : Bool) (sp sc : K) (hs : YeeShifts sp sc) (e : List K)
    (he : e.Pairwise (· < ·)) (hn : 2 ≤ e.length) (z0 z1 : K) (hz : RoundingHarmless e z0 z1) :
    ∃ w, axisWeights periodic sp sc e z0 z1 = some w ∧ w.length = e.length - 1 ∧
      ∀ k, k < e.length - 1 → at' w k = covered (min z0 z1) (max z0 z1) (at' (compEdges periodic sc e) k)
        (at' (compEdges periodic sc e) (k + 1)) := by
  obtain ⟨h1, h2, h3, h4, h5, h6⟩ := zWindow_for periodic sp sc hs e he hn z0 z1 hz
  simp only [axisWeights]
  generalize zWindow periodic sp sc e z0 z1 = v at *
  obtain ⟨lo, hi, aa⟩ := v
  simp only at h1 h2 h3 h4 h5 h6 ⊢
  obtain ⟨w, hw, hwl, hwc⟩ := raster_1d_fraction z0 z1 aa h4 (by omega)
  rw [hw]
  simp only [addWindow]
  rw [h3] at hwl hwc
  rw [if_pos (by simp; omega)]
  refine ⟨_, rfl, by simp, fun k hk => ?_⟩
  have hval : at' (List.mapIdx (fun k x => if lo ≤ k ∧ k < hi + 1 then x + at' w (k - lo) else x)
      (List.replicate (e.length - 1) 0)) k = if lo ≤ k ∧ k < hi + 1 then at' w (k - lo) else 0 := by
    rw [at'_eq _ _ (by simpa using hk)]
    simp
  rw [hval]
  by_cases hin : lo ≤ k ∧ k < hi + 1
  · rw [if_pos hin]
    have h := hwc (k - lo) (by omega)
    rw [at', List.getD_eq_getElem?_getD, h, Option.getD_some, h5 _ (by omega), h5 _ (by omega)]
    have e1 : lo + (k - lo) = k := by omega
    have e2 : lo + (k - lo + 1) = k + 1 := by omega
    rw [e1, e2]
  · rw [if_neg hin]
    rcases h6 k hk hin with h | h
    · exact (covered_left h).symm
    · exact (covered_right h).symm

end truncated

/-- A layer from 1/2 to 5/2 on a grid with two cells of width 3, seen by the components on the edges. -/
example : RoundingHarmless ([0, 3, 6] : List ℚ) (1 / 2) (5 / 2) :=
  Or.inr fun i hi => by
    have : i = 0 ∨ i = 1 := by simp at hi; omega
    rcases this with rfl | rfl <;> norm_num [at']

/-- **C28** is false for thin cells: the layer from 1/4 to 3/4 covers the second and the third of four cells of width 1/4,
and is drawn in the second only. -/
theorem axis_weights_fraction_false :
    axisWeights false (1 / 2 : ℚ) 0 [0, 1 / 4, 1 / 2, 3 / 4, 1] (1 / 4) (3 / 4) = some [0, 1, 0, 0] ∧
    covered (1 / 4 : ℚ) (3 / 4) (1 / 2) (3 / 4) = 1 := by
  constructor
  · decide +kernel
  · norm_num [covered]

end Verif.Render
