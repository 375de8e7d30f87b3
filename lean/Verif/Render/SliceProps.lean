import Verif.Render.Slice
import Verif.Render.GridProps
/-
Property C130: a slice of a grid shows the grid at its position.
-/
namespace Verif.Render.Slice
variable {K : Type} [Field K] [LinearOrder K] [FloorRing K] [IsStrictOrderedRing K]

/-- The position within the cell that contains it, from 0 at its left edge to 1 at its right edge. -/
def inCell (s : List K) (r : K) : K := (r - at' s (pos2ind s r)) / (at' s (pos2ind s r + 1) - at' s (pos2ind s r))

/-! ### Lemmas -/

omit [FloorRing K] in
/-- A position between the outer centres lies within the shifted cells. -/
theorem in_range (p : Bool) (σ : K) (h0 : 0 ≤ σ) (h1 : σ ≤ 1 / 2) (e : List K) (he : e.Pairwise (· < ·)) (hn : 2 ≤ e.length) (r : K)
    (ha : centre e 0 ≤ r) (hb : r ≤ centre e (e.length - 2)) :
    at' (primEdges p σ e) 0 ≤ r ∧ r < at' (primEdges p σ e) ((primEdges p σ e).length - 1) := by
  have hinc := prim_increasing p σ h0 (by linarith) e he hn
  rw [prim_length p σ e (by omega)]
  have g0 := at'_ghost p e 0 (by omega)
  have g1 := at'_ghost p e (e.length - 2) (by omega)
  have w0 : at' e 0 < at' e 1 := at'_lt he (by omega) (by omega)
  have w1 : at' e (e.length - 2) < at' e (e.length - 2 + 1) := at'_lt he (by omega) (by omega)
  constructor
  · rw [at'_prim p σ e 0 (by omega), g0]
    unfold centre at ha
    simp only [Nat.zero_add] at *
    nlinarith
  · have hl : at' (primEdges p σ e) (e.length - 2) ≤ at' e (e.length - 2) + (at' e (e.length - 2 + 1) - at' e (e.length - 2)) / 2 := by
      rw [at'_prim p σ e (e.length - 2) (by omega), g1]
      nlinarith
    have hl' : at' (primEdges p σ e) (e.length - 1) =
        at' e (e.length - 1) + at' (widthsGhost p e) (e.length - 1) * σ := at'_prim p σ e (e.length - 1) (by omega)
    have hpos : 0 ≤ at' (widthsGhost p e) (e.length - 1) * σ := by
      refine mul_nonneg ?_ h0
      have hw : e.length - 1 = (widths e).length := by rw [widths_length]
      unfold widthsGhost
      rw [hw, at'_append_last]
      split
      · rw [at'_widths e 0 (by omega)]; simp only [Nat.zero_add]; linarith
      · rw [widths_length, show e.length - 1 - 1 = e.length - 2 by omega, at'_widths e _ (by omega)]; linarith
    have hee : e.length - 2 + 1 = e.length - 1 := by omega
    unfold centre at hb
    rw [hl']
    rw [hee] at w1 hb
    linarith

theorem planes_eq (s : List K) (hs : s.Pairwise (· < ·)) (hn : 2 ≤ s.length) (r : K) (h0 : at' s 0 ≤ r)
    (h1 : r < at' s (s.length - 1)) : planes s (widths s) r =
      if inCell s r = 0 then [(((pos2ind s r : Nat) : Int), 1)]
      else [(((pos2ind s r : Nat) : Int), 1 - inCell s r), (((pos2ind s r + 1 : Nat) : Int), inCell s r)] := by
  obtain ⟨f, f0, f1⟩ := pos2indFrac_eq s hs hn r h0 h1
  rw [← inCell] at f f0 f1
  have hfl : ⌊((pos2ind s r : Nat) : K) + inCell s r⌋ = ((pos2ind s r : Nat) : Int) := by
    rw [Int.floor_eq_iff]
    constructor
    · push_cast; linarith
    · push_cast; linarith
  unfold planes
  simp only [f, hfl]
  have hcast : (((pos2ind s r : Nat) : Int) : K) = ((pos2ind s r : Nat) : K) := by push_cast; rfl
  by_cases ht : inCell s r = 0
  · have hce : ⌈((pos2ind s r : Nat) : K) + inCell s r⌉ = ((pos2ind s r : Nat) : Int) := by
      rw [ht, add_zero]; exact Int.ceil_natCast _
    rw [if_pos ht, hce, if_neg (fun h => h rfl)]
  · have hce : ⌈((pos2ind s r : Nat) : K) + inCell s r⌉ = ((pos2ind s r + 1 : Nat) : Int) := by
      have hpos : 0 < inCell s r := lt_of_le_of_ne f0 (Ne.symm ht)
      rw [Int.ceil_eq_iff]
      constructor
      · push_cast; linarith
      · push_cast; linarith
    rw [if_neg ht, hce, if_pos (by push_cast; omega), hcast]
    have : ((pos2ind s r : Nat) : K) + inCell s r - ((pos2ind s r : Nat) : K) = inCell s r := by ring
    rw [this]

theorem sampled_one (m : Nat) : sampled m 1 = m := by simp [sampled]

theorem fits_self (m : Nat) : fits m m = true := by simp [fits]

/-- An entry of a plane, as it is read with broadcasting: the entry itself, if the index is one of the plane. -/
theorem broadcast_self (m i : Nat) (hi : i < m) : broadcastIdx m i = i := by
  unfold broadcastIdx
  split
  · omega
  · rfl

/-! ### The property -/

/-- **C130.** What a slice shows, for every whole number between the outer centres: the plane of a cell exactly at its left edge, and right of
it a mixture of this plane and the next, in the proportion of the position within the cell. In the last cell there is no next plane, and an
`IndexError` is raised. Partial: for other positions see `slice_truncated_false`. -/
theorem slice_partial (p : Bool) (σ : K) (h0 : 0 ≤ σ) (h1 : σ ≤ 1 / 2) (e : List K) (he : e.Pairwise (· < ·)) (hn : 2 ≤ e.length)
    (m₁ m₂ : Nat) (grid : Nat → Nat → Nat → K) (r : K) (ha : centre e 0 ≤ r) (hb : r ≤ centre e (e.length - 2)) (hint : (trunc r : K) = r)
    (i j : Nat) (hi : i < m₁) (hj : j < m₂) :
    getSlice p σ e m₁ m₂ 1 grid r i j =
      (let s := primEdges p σ e
       let k := pos2ind s r
       if inCell s r = 0 then .ok (grid k i j)
       else if k + 1 = e.length - 1 then .error .indexError
       else .ok ((1 - inCell s r) * grid k i j + inCell s r * grid (k + 1) i j)) := by
  obtain ⟨a1, a2⟩ := in_range p σ h0 h1 e he hn r ha hb
  have hinc := prim_increasing p σ h0 (by linarith) e he hn
  have hlen := prim_length p σ e (by omega)
  obtain ⟨c1, _, _⟩ := pos2ind_cell (primEdges p σ e) hinc (by rw [hlen]; exact hn) r a1 a2
  rw [hlen] at c1
  unfold getSlice
  rw [if_neg (by decide), if_neg (by rintro (h | h) <;> linarith), hint, prim_widths p σ e (by omega),
    planes_eq _ hinc (by rw [hlen]; exact hn) r a1 a2]
  simp only
  generalize pos2ind (primEdges p σ e) r = k at c1 ⊢
  generalize inCell (primEdges p σ e) r = t
  have hk : ¬ ((e.length - 1 : Nat) : Int) ≤ ((k : Nat) : Int) := by omega
  by_cases ht : t = 0
  · rw [if_pos ht, if_pos ht]
    simp only [addPlanes, if_neg hk, sampled_one, fits_self, Bool.and_self, Bool.not_true, Bool.false_eq_true, if_false,
      broadcast_self _ _ hi, broadcast_self _ _ hj, Int.toNat_natCast, Nat.mul_one, one_mul, zero_add]
  · rw [if_neg ht, if_neg ht]
    by_cases hl : k + 1 = e.length - 1
    · have hk1 : ((e.length - 1 : Nat) : Int) ≤ ((k + 1 : Nat) : Int) := by omega
      rw [if_pos hl]
      simp only [addPlanes, if_neg hk, if_pos hk1, sampled_one, fits_self, Bool.and_self, Bool.not_true, Bool.false_eq_true, if_false]
    · have hk1 : ¬ ((e.length - 1 : Nat) : Int) ≤ ((k + 1 : Nat) : Int) := by omega
      rw [if_neg hl]
      simp only [addPlanes, if_neg hk, if_neg hk1, sampled_one, fits_self, Bool.and_self, Bool.not_true, Bool.false_eq_true, if_false,
        broadcast_self _ _ hi, broadcast_self _ _ hj, Int.toNat_natCast, Nat.mul_one, zero_add]

omit [FloorRing K] in
/-- The cell of a position is the one whose edges enclose it. -/
theorem pos2ind_unique (s : List K) (hs : s.Pairwise (· < ·)) (hn : 2 ≤ s.length) (k : Nat) (hk : k + 1 < s.length) (r : K)
    (h0 : at' s k ≤ r) (h1 : r < at' s (k + 1)) : pos2ind s r = k := by
  have l0 : at' s 0 ≤ at' s k := at'_le hs (by omega) (by omega)
  have l1 : at' s (k + 1) ≤ at' s (s.length - 1) := at'_le hs (by omega) (by omega)
  obtain ⟨c1, c2, c3⟩ := pos2ind_cell s hs hn r (le_trans l0 h0) (lt_of_lt_of_le h1 l1)
  rcases Nat.lt_trichotomy (pos2ind s r) k with h | h | h
  · have := at'_le hs (i := pos2ind s r + 1) (j := k) (by omega) (by omega)
    linarith
  · exact h
  · have := at'_le hs (i := k + 1) (j := pos2ind s r) (by omega) (by omega)
    linarith

omit [FloorRing K] in
theorem prim_zero (p : Bool) (e : List K) (hn : 1 ≤ e.length) : primEdges p 0 e = e := by
  refine ext_at' (prim_length p 0 e hn) fun i hi => ?_
  rw [prim_length p 0 e hn] at hi
  rw [at'_prim p 0 e i hi]; ring

omit [FloorRing K] in
theorem centre_cell (e : List K) (he : e.Pairwise (· < ·)) (hn : 2 ≤ e.length) (k : Nat) (hk : k + 1 < e.length) :
    pos2ind e (centre e k) = k ∧ inCell e (centre e k) = 1 / 2 ∧ centre e 0 ≤ centre e k ∧ centre e k ≤ centre e (e.length - 2) := by
  have w : at' e k < at' e (k + 1) := at'_lt he (by omega) hk
  have hp : pos2ind e (centre e k) = k := pos2ind_unique e he hn k hk _ (by unfold centre; linarith) (by unfold centre; linarith)
  refine ⟨hp, ?_, ?_, ?_⟩
  · unfold inCell
    rw [hp]
    unfold centre
    have : at' e (k + 1) - at' e k ≠ 0 := by linarith [sub_pos.2 w] |> fun h : 0 < at' e (k + 1) - at' e k => h.ne'
    field_simp
    ring
  · have a := at'_le he (i := 0) (j := k) (by omega) (by omega)
    have b := at'_le he (i := 1) (j := k + 1) (by omega) hk
    unfold centre; simp only [Nat.zero_add]; linarith
  · have a := at'_le he (i := k) (j := e.length - 2) (by omega) (by omega)
    have b := at'_le he (i := k + 1) (j := e.length - 2 + 1) (by omega) (by omega)
    unfold centre; linarith

/-- **C130 fails.** The slice through the centre of a cell is not the plane of this cell: it is the mean of this plane and the next one. -/
theorem slice_centre_false (p : Bool) (e : List K) (he : e.Pairwise (· < ·)) (hn : 2 ≤ e.length) (m₁ m₂ : Nat)
    (grid : Nat → Nat → Nat → K) (k : Nat) (hk : k + 2 < e.length)
    (hint : (trunc (centre e k) : K) = centre e k) (i j : Nat) (hi : i < m₁) (hj : j < m₂) :
    getSlice p 0 e m₁ m₂ 1 grid (centre e k) i j = .ok ((grid k i j + grid (k + 1) i j) / 2) := by
  obtain ⟨q1, q2, q3, q4⟩ := centre_cell e he hn k (by omega)
  rw [slice_partial p 0 le_rfl (by norm_num) e he hn m₁ m₂ grid _ q3 q4 hint i j hi hj]
  simp only [prim_zero p e (by omega), q1, q2]
  rw [if_neg (by norm_num), if_neg (by omega)]
  congr 1
  ring

/-- **C130 fails.** The slice through the centre of the last cell cannot be taken: an `IndexError` is raised. For a grid with one cell along
the normal this is the only position that is not rejected. -/
theorem slice_last_false (p : Bool) (e : List K) (he : e.Pairwise (· < ·)) (hn : 2 ≤ e.length)
    (hint : (trunc (centre e (e.length - 2)) : K) = centre e (e.length - 2)) (m₁ m₂ : Nat)
    (grid : Nat → Nat → Nat → K) (i j : Nat) (hi : i < m₁) (hj : j < m₂) :
    getSlice p 0 e m₁ m₂ 1 grid (centre e (e.length - 2)) i j = .error .indexError := by
  obtain ⟨q1, q2, q3, q4⟩ := centre_cell e he hn (e.length - 2) (by omega)
  rw [slice_partial p 0 le_rfl (by norm_num) e he hn m₁ m₂ grid _ q3 q4 hint i j hi hj]
  simp only [prim_zero p e (by omega), q1, q2]
  rw [if_neg (by norm_num), if_pos (by omega)]

/-- **C130 fails.** A grid with one cell along the normal, whose centre is a whole number, has no slice at any position. -/
theorem slice_single_false (p : Bool) (a b : K) (hab : a < b) (hint : (trunc ((a + b) / 2) : K) = (a + b) / 2) (m₁ m₂ : Nat) (grid : Nat → Nat → Nat → K) (r : K) (i j : Nat)
    (hi : i < m₁) (hj : j < m₂) : ∃ x, getSlice p 0 [a, b] m₁ m₂ 1 grid r i j = .error x := by
  by_cases h : r < centre [a, b] 0 ∨ centre [a, b] ([a, b].length - 2) < r
  · exact ⟨.gridError, by unfold getSlice; rw [if_neg (by decide), if_pos h]⟩
  · have hr : r = centre [a, b] ([a, b].length - 2) := by
      have h1 : ¬ r < centre [a, b] 0 := fun h' => h (Or.inl h')
      have h2 : ¬ centre [a, b] 0 < r := fun h' => h (Or.inr h')
      exact le_antisymm (not_lt.1 h2) (not_lt.1 h1)
    have hm : centre [a, b] ([a, b].length - 2) = (a + b) / 2 := by
      show a + (b - a) / 2 = (a + b) / 2
      ring
    have hc : (trunc (centre [a, b] ([a, b].length - 2)) : K) = centre [a, b] ([a, b].length - 2) := by rw [hm]; exact hint
    rw [hr]
    exact ⟨_, slice_last_false p [a, b] (by simpa using hab) le_rfl hc m₁ m₂ grid i j hi hj⟩

/-- **C130 fails.** Down-sampling raises, for every period from two up to the number of entries. -/
theorem slice_sample_false (p : Bool) (σ : K) (h0 : 0 ≤ σ) (h1 : σ ≤ 1 / 2) (e : List K) (he : e.Pairwise (· < ·)) (hn : 2 ≤ e.length)
    (m₁ m₂ sp : Nat) (hs : 2 ≤ sp) (hm : sp < m₁) (grid : Nat → Nat → Nat → K) (r : K) (ha : centre e 0 ≤ r)
    (hb : r ≤ centre e (e.length - 2)) (hint : (trunc r : K) = r) (i j : Nat) : getSlice p σ e m₁ m₂ sp grid r i j = .error .broadcast := by
  obtain ⟨a1, a2⟩ := in_range p σ h0 h1 e he hn r ha hb
  have hinc := prim_increasing p σ h0 (by linarith) e he hn
  have hlen := prim_length p σ e (by omega)
  obtain ⟨c1, _, _⟩ := pos2ind_cell (primEdges p σ e) hinc (by rw [hlen]; exact hn) r a1 a2
  rw [hlen] at c1
  have hf : fits m₁ (sampled m₁ sp) = false := by
    have hlo : 1 < sampled m₁ sp := by
      unfold sampled
      rw [Nat.lt_iff_add_one_le, Nat.le_div_iff_mul_le (by omega)]
      omega
    have hhi : sampled m₁ sp < m₁ := by
      unfold sampled
      rw [Nat.div_lt_iff_lt_mul (by omega)]
      exact Nat.lt_of_lt_of_le (show m₁ + sp - 1 < m₁ * 2 by omega) (Nat.mul_le_mul_left _ hs)
    simp only [fits, Bool.or_eq_false_iff, decide_eq_false_iff_not]
    omega
  unfold getSlice
  rw [if_neg (by omega), if_neg (by rintro (h | h) <;> linarith), hint, prim_widths p σ e (by omega),
    planes_eq _ hinc (by rw [hlen]; exact hn) r a1 a2]
  generalize pos2ind (primEdges p σ e) r = k at c1 ⊢
  generalize inCell (primEdges p σ e) r = t
  have hk : ¬ ((e.length - 1 : Nat) : Int) ≤ ((k : Nat) : Int) := by omega
  by_cases ht : t = 0
  · rw [if_pos ht]; simp only [addPlanes, if_neg hk, hf, Bool.false_and, Bool.not_false, if_true]
  · rw [if_neg ht]; simp only [addPlanes, if_neg hk, hf, Bool.false_and, Bool.not_false, if_true]

/-- **C130 fails.** The position is cut to a whole number: two positions with the same whole number before the point show the same, however
many cells there are between them. -/
theorem slice_truncated_false (p : Bool) (σ : K) (e : List K) (m₁ m₂ sp : Nat) (grid : Nat → Nat → Nat → K) (r r' : K)
    (h : centre e 0 ≤ r ∧ r ≤ centre e (e.length - 2)) (h' : centre e 0 ≤ r' ∧ r' ≤ centre e (e.length - 2)) (ht : trunc r = trunc r')
    (i j : Nat) : getSlice p σ e m₁ m₂ sp grid r i j = getSlice p σ e m₁ m₂ sp grid r' i j := by
  unfold getSlice
  rw [if_neg (show ¬ (r < centre e 0 ∨ centre e (e.length - 2) < r) by rintro (k | k) <;> linarith [h.1, h.2]),
    if_neg (show ¬ (r' < centre e 0 ∨ centre e (e.length - 2) < r') by rintro (k | k) <;> linarith [h'.1, h'.2]), ht]

/-- Cells of a quarter from 0 to 1: the slices through the centres of the first and of the third cell are the same. -/
example (grid : Nat → Nat → Nat → ℚ) (i j : Nat) : getSlice false (0 : ℚ) [0, 1 / 4, 1 / 2, 3 / 4, 1] 2 2 1 grid (1 / 8) i j =
    getSlice false (0 : ℚ) [0, 1 / 4, 1 / 2, 3 / 4, 1] 2 2 1 grid (5 / 8) i j := by
  refine slice_truncated_false _ _ _ _ _ _ _ _ _ ?_ ?_ ?_ _ _
  · norm_num [centre, at']
  · norm_num [centre, at']
  · norm_num [trunc]

omit [IsStrictOrderedRing K] in
/-- **C130.** Positions beyond the outer centres are rejected. -/
theorem slice_outside (p : Bool) (σ : K) (e : List K) (m₁ m₂ sp : Nat) (grid : Nat → Nat → Nat → K) (r : K)
    (h : r < centre e 0 ∨ centre e (e.length - 2) < r) (i j : Nat) : getSlice p σ e m₁ m₂ sp grid r i j = .error .gridError := by
  unfold getSlice
  split
  · rfl
  · rfl

/-- Cells `[0,1]`, `[1,3]`, `[3,4]` with planes 10, 20, 30: the slice at 2, the centre of the second cell, shows 25. -/
example : getSlice false (0 : ℚ) [0, 1, 3, 4] 1 1 1 (fun k _ _ => 10 * (k + 1)) 2 0 0 = .ok 25 := by
  have hc : centre ([0, 1, 3, 4] : List ℚ) 1 = 2 := by norm_num [centre, at']
  have h := slice_centre_false false ([0, 1, 3, 4] : List ℚ) (by norm_num) (by decide) 1 1 (fun k _ _ => 10 * ((k : ℚ) + 1)) 1 (by decide)
    (by rw [hc]; norm_num [trunc]) 0 0 (by decide) (by decide)
  rw [hc] at h
  rw [h]
  norm_num

end Verif.Render.Slice
