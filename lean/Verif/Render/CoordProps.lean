import Verif.Render.Coord
import Verif.Render.GridProps
import Mathlib.Tactic.NormNum
/-
C136: the index of a single coordinate depends on its own axis only.
-/
set_option linter.unusedSectionVars false
set_option linter.unusedVariables false
namespace Verif.Render
open Verif.Render.Draw
variable {K : Type} [Field K] [LinearOrder K] [IsStrictOrderedRing K]

/-! ### Specification -/

/-- The edges increase and there is at least one cell along every axis. -/
def GoodEdges (g : Grid3 K) : Prop := ∀ a, (g.exyz a).Pairwise (· < ·) ∧ 2 ≤ (g.exyz a).length

/-- The edge number `i` along the axis `a` of the grid with the shifts `n`: the edge is moved by the given fraction of the cell
that begins there. The last edge is moved by the fraction of the first cell if the grid is periodic and of the last cell if
not. -/
def edgeAt (g : Grid3 K) (n a : Fin 3) (i : Nat) : K :=
  let e := fun j => (g.exyz a).getD j 0
  let l := (g.exyz a).length
  e i + g.shift n a *
    (if i + 1 < l then e (i + 1) - e i else if g.periodic a then e 1 - e 0 else e (l - 1) - e (l - 2))

/-! ### Lemmas -/

theorem gridEdges_length (g : Grid3 K) (hg : GoodEdges g) (w : Option (Fin 3)) (a : Fin 3) :
    (gridEdges g w a).length = (g.exyz a).length := by
  have := (hg a).2
  cases w with
  | none => rfl
  | some n => exact prim_length _ _ _ (by omega)

theorem at'_le_of_le {e : List K} (he : e.Pairwise (· < ·)) {i j : Nat} (h : i ≤ j) (hj : j < e.length) :
    at' e i ≤ at' e j := by
  rcases Nat.eq_or_lt_of_le h with h | h
  · rw [h]
  · exact (at'_lt he h hj).le

theorem edgeAt_eq (g : Grid3 K) (hg : GoodEdges g) (n a : Fin 3) (i : Nat) (hi : i < (g.exyz a).length) :
    at' (gridEdges g (some n) a) i = edgeAt g n a i := by
  obtain ⟨he, hn⟩ := hg a
  have hat : ∀ j, (g.exyz a).getD j 0 = at' (g.exyz a) j := fun j => rfl
  simp only [gridEdges, edgeAt, hat]
  rw [at'_prim _ _ _ _ hi, mul_comm]
  congr 2
  by_cases h : i + 1 < (g.exyz a).length
  · rw [at'_ghost _ _ _ h, if_pos h]
  · have hi' : i = (widths (g.exyz a)).length := by rw [widths_length]; omega
    rw [if_neg h, widthsGhost, hi', at'_append_last]
    split
    · rw [at'_widths _ 0 (by omega)]
    · rw [at'_widths _ _ (by rw [widths_length]; omega), widths_length]
      have h1 : (g.exyz a).length - 1 - 1 + 1 = (g.exyz a).length - 1 := by omega
      have h2 : (g.exyz a).length - 1 - 1 = (g.exyz a).length - 2 := by omega
      rw [h1, h2]

/-- The centre lies between the first and the last edge of a grid that is shifted by at most half a cell. -/
theorem center_between (g : Grid3 K) (hg : GoodEdges g) (w : Option (Fin 3))
    (hs : ∀ n a, 0 ≤ g.shift n a ∧ g.shift n a ≤ 1 / 2) (a : Fin 3) :
    at' (gridEdges g w a) 0 ≤ center g a ∧ center g a ≤ at' (gridEdges g w a) ((g.exyz a).length - 1) := by
  obtain ⟨he, hn⟩ := hg a
  have h01 := at'_le_of_le he (i := 0) (j := 1) (by omega) (by omega)
  have h02 := at'_le_of_le he (i := 0) (j := (g.exyz a).length - 2) (by omega) (by omega)
  have h13 := at'_le_of_le he (i := 1) (j := (g.exyz a).length - 1) (by omega) (by omega)
  have h23 := at'_le_of_le he (i := (g.exyz a).length - 2) (j := (g.exyz a).length - 1) (by omega) (by omega)
  have hc : center g a * 4 = at' (g.exyz a) 0 + at' (g.exyz a) 1 + at' (g.exyz a) ((g.exyz a).length - 2)
      + at' (g.exyz a) ((g.exyz a).length - 1) := by
    unfold center
    exact div_mul_cancel₀ _ (by norm_num)
  cases w with
  | none =>
    simp only [gridEdges]
    constructor <;> linarith
  | some n =>
    simp only [gridEdges]
    obtain ⟨s0, s1⟩ := hs n a
    rw [at'_prim _ _ _ _ (by omega), at'_prim _ _ _ _ (by omega), at'_ghost _ _ _ (by omega)]
    have hw := ghost_pos (g.periodic a) (g.exyz a) he hn ((g.exyz a).length - 1) (by omega)
    have hp := mul_nonneg hw.le s0
    have hq : (at' (g.exyz a) (0 + 1) - at' (g.exyz a) 0) * g.shift n a
        ≤ (at' (g.exyz a) (0 + 1) - at' (g.exyz a) 0) * (1 / 2) :=
      mul_le_mul_of_nonneg_left s1 (sub_nonneg.2 h01)
    simp only [Nat.zero_add] at hq ⊢
    constructor <;> linarith

theorem center_inBounds (g : Grid3 K) (hg : GoodEdges g) (w : Option (Fin 3))
    (hs : ∀ n a, 0 ≤ g.shift n a ∧ g.shift n a ≤ 1 / 2) (a : Fin 3) :
    inBounds ((g.exyz a).length - 1) (gridEdges g w a) (center g a) = true := by
  rw [pos2ind_bounds, gridEdges_length g hg]
  exact Or.inr (center_between g hg w hs a)

/-- The row of shifts that a number stands for. -/
def rowOf : Option Nat → Option (Option (Fin 3))
  | none => some none
  | some n => if h : n < 3 then some (some ⟨n, h⟩) else none

theorem pos2ind3_row (g : Grid3 K) (r : Fin 3 → K) (which : Option Nat) (check : Bool) :
    pos2ind3 g r which check = match rowOf which with
      | none => .error .gridError
      | some w =>
        if check = true ∧ ∃ a, inBounds ((g.exyz a).length - 1) (gridEdges g w a) (r a) = false then .error .gridError
        else .ok fun a => pos2ind (gridEdges g w a) (r a) := by
  cases which with
  | none => rfl
  | some n =>
    by_cases h : n < 3 <;> simp [pos2ind3, rowOf, h]

/-- With shifts of at most half a cell the coordinate alone decides. -/
theorem coord2ind_eq (g : Grid3 K) (hg : GoodEdges g) (hs : ∀ n a, 0 ≤ g.shift n a ∧ g.shift n a ≤ 1 / 2) (x : K)
    (axis : Fin 3) (which : Option Nat) (w : Option (Fin 3)) (hw : rowOf which = some w) (check : Bool) :
    coord2ind g x axis which check =
      if check = true ∧ inBounds ((g.exyz axis).length - 1) (gridEdges g w axis) x = false then .error .gridError
      else .ok (pos2ind (gridEdges g w axis) x) := by
  have key : (∃ a, inBounds ((g.exyz a).length - 1) (gridEdges g w a) (if a = axis then x else center g a) = false)
      ↔ inBounds ((g.exyz axis).length - 1) (gridEdges g w axis) x = false := by
    constructor
    · rintro ⟨a, h⟩
      by_cases ha : a = axis
      · subst ha
        simpa using h
      · rw [if_neg ha, center_inBounds g hg w hs a] at h
        cases h
    · intro h
      exact ⟨axis, by simpa using h⟩
  unfold coord2ind
  rw [pos2ind3_row, hw]
  simp only [key]
  split
  · next heq =>
    split at heq
    · next hc =>
      rw [if_pos hc]
      cases heq
      rfl
    · cases heq
  · next i heq =>
    split at heq
    · cases heq
    · next hc =>
      rw [if_neg hc]
      cases heq
      simp

/-! ### C136 -/

/-- **C136**. On a grid shifted by at most half a cell, a coordinate is refused exactly if the axis has more than one cell
and the coordinate is before the first or after the last edge along its own axis. -/
theorem coord2ind_refused_partial (g : Grid3 K) (hg : GoodEdges g)
    (hs : ∀ n a, 0 ≤ g.shift n a ∧ g.shift n a ≤ 1 / 2) (x : K) (axis n : Fin 3) :
    coord2ind g x axis (some n.val) true = .error .gridError ↔
      2 < (g.exyz axis).length ∧
        (x < edgeAt g n axis 0 ∨ edgeAt g n axis ((g.exyz axis).length - 1) < x) := by
  have hb := pos2ind_bounds ((g.exyz axis).length - 1) (gridEdges g (some n) axis) x
  rw [gridEdges_length g hg, edgeAt_eq g hg n axis 0 (by have := (hg axis).2; omega),
    edgeAt_eq g hg n axis _ (by have := (hg axis).2; omega)] at hb
  rw [coord2ind_eq g hg hs x axis (some n.val) (some n) (by simp [rowOf, n.2]) true]
  have hf : inBounds ((g.exyz axis).length - 1) (gridEdges g (some n) axis) x = false ↔
      2 < (g.exyz axis).length ∧
        (x < edgeAt g n axis 0 ∨ edgeAt g n axis ((g.exyz axis).length - 1) < x) := by
    rw [← Bool.not_eq_true, hb, not_or, not_and_or, not_le, not_le, not_le]
    constructor
    · rintro ⟨h1, h2⟩
      exact ⟨by omega, h2⟩
    · rintro ⟨h1, h2⟩
      exact ⟨by omega, h2⟩
  rw [← hf]
  by_cases h : inBounds ((g.exyz axis).length - 1) (gridEdges g (some n) axis) x = false <;> simp [h]

/-- **C136**. The index of an accepted coordinate is that of the cell that contains it: the edge with this index is not after
the coordinate, and the next edge is after it. -/
theorem coord2ind_cell_partial (g : Grid3 K) (hg : GoodEdges g)
    (hs : ∀ n a, 0 ≤ g.shift n a ∧ g.shift n a ≤ 1 / 2) (x : K) (axis n : Fin 3)
    (h0 : edgeAt g n axis 0 ≤ x) (h1 : x < edgeAt g n axis ((g.exyz axis).length - 1)) :
    ∃ i, coord2ind g x axis (some n.val) true = .ok i ∧ i + 1 < (g.exyz axis).length ∧
      edgeAt g n axis i ≤ x ∧ x < edgeAt g n axis (i + 1) := by
  obtain ⟨he, hn⟩ := hg axis
  have hl := gridEdges_length g hg (some n) axis
  have hp : (gridEdges g (some n) axis).Pairwise (· < ·) :=
    prim_increasing _ _ (hs n axis).1 ((hs n axis).2.trans (by norm_num)) _ he hn
  obtain ⟨c1, c2, c3⟩ := pos2ind_cell (gridEdges g (some n) axis) hp (by omega) x
    (by rw [edgeAt_eq g hg n axis 0 (by omega)]; exact h0)
    (by rw [hl, edgeAt_eq g hg n axis _ (by omega)]; exact h1)
  rw [hl] at c1
  rw [edgeAt_eq g hg n axis _ (by omega)] at c2
  rw [edgeAt_eq g hg n axis _ c1] at c3
  refine ⟨_, ?_, c1, c2, c3⟩
  have hb := (pos2ind_bounds ((g.exyz axis).length - 1) (gridEdges g (some n) axis) x).2 (Or.inr ⟨by
    rw [edgeAt_eq g hg n axis 0 (by omega)]; exact h0, by
    rw [hl, edgeAt_eq g hg n axis _ (by omega)]; exact h1.le⟩)
  rw [coord2ind_eq g hg hs x axis (some n.val) (some n) (by simp [rowOf, n.2]) true, hb]
  simp

/-- **C136**. Without the check of the bounds nothing is refused, whatever the shifts, if the row of shifts exists. -/
theorem coord2ind_unchecked (g : Grid3 K) (x : K) (axis n : Fin 3) :
    coord2ind g x axis (some n.val) false = .ok (pos2ind (gridEdges g (some n) axis) x) := by
  unfold coord2ind
  rw [pos2ind3_row]
  simp [rowOf, n.2]

/-- **C136**. A row of shifts that does not exist is refused. -/
theorem coord2ind_row (g : Grid3 K) (x : K) (axis : Fin 3) (n : Nat) (h : 3 ≤ n) (check : Bool) :
    coord2ind g x axis (some n) check = .error .gridError := by
  unfold coord2ind
  rw [pos2ind3_row]
  simp [rowOf, Nat.not_lt.2 h]

theorem unique_increasing (l : List K) : (unique l).Pairwise (· < ·) := by
  have hs : (unique l).Pairwise (· ≤ ·) := List.pairwise_insertionSort _ _
  have hn : (unique l).Nodup := (List.perm_insertionSort _ _).nodup_iff.2 (List.nodup_dedup l)
  exact (hs.and hn).imp fun h => lt_of_le_of_ne h.1 h.2

theorem mem_unique (l : List K) (x : K) : x ∈ unique l ↔ x ∈ l := by
  rw [unique, (List.perm_insertionSort _ _).mem_iff, List.mem_dedup]

theorem two_le_unique (l : List K) (h : ∃ x ∈ l, ∃ y ∈ l, x ≠ y) : 2 ≤ (unique l).length := by
  obtain ⟨x, hx, y, hy, hne⟩ := h
  by_contra hc
  rw [← mem_unique] at hx hy
  rcases hu : unique l with _ | ⟨a, _ | ⟨b, t⟩⟩
  · rw [hu] at hx
    cases hx
  · rw [hu, List.mem_singleton] at hx hy
    exact hne (hx.trans hy.symm)
  · rw [hu] at hc
    simp only [List.length_cons] at hc
    omega

/-- **C136**. On every grid that is made with the shifts that the constructor takes if none are given, from any edges in any
order, of which two differ along each axis, a coordinate between the first and the last edge of its axis gets the index of
the cell that contains it, and with more than one cell a coordinate outside is refused. -/
theorem coord2ind_default (edges : Fin 3 → List K) (hd : ∀ a, ∃ x ∈ edges a, ∃ y ∈ edges a, x ≠ y)
    (p : Bool ⊕ List Bool) (ext : Int) (g : Grid3 K) (h : mkGrid edges p ext = .ok g) (x : K) (axis n : Fin 3) :
    ((edgeAt g n axis 0 ≤ x ∧ x < edgeAt g n axis ((g.exyz axis).length - 1)) →
      ∃ i, coord2ind g x axis (some n.val) true = .ok i ∧ i + 1 < (g.exyz axis).length ∧
        edgeAt g n axis i ≤ x ∧ x < edgeAt g n axis (i + 1)) ∧
    (coord2ind g x axis (some n.val) true = .error .gridError ↔
      2 < (g.exyz axis).length ∧ (x < edgeAt g n axis 0 ∨ edgeAt g n axis ((g.exyz axis).length - 1) < x)) ∧
    ∀ y, y ∈ g.exyz axis ↔ y ∈ edges axis := by
  have hfacts : (∀ a, g.exyz a = unique (edges a)) ∧ ∀ m a, g.shift m a = if a = m then 1 / 2 else 0 := by
    unfold mkGrid at h
    simp only [] at h
    split_ifs at h <;> cases h <;> exact ⟨fun _ => rfl, fun _ _ => rfl⟩
  have hg : GoodEdges g := fun a => by
    rw [hfacts.1]
    exact ⟨unique_increasing _, two_le_unique _ (hd a)⟩
  have hs : ∀ m a, 0 ≤ g.shift m a ∧ g.shift m a ≤ 1 / 2 := fun m a => by
    rw [hfacts.2]
    split_ifs <;> norm_num
  refine ⟨fun hx => coord2ind_cell_partial g hg hs x axis n hx.1 hx.2, coord2ind_refused_partial g hg hs x axis n, ?_⟩
  intro y
  rw [hfacts.1, mem_unique]

/-- The hypotheses are met: edges out of order, one of them twice. -/
example : (∀ a : Fin 3, ∃ x ∈ (fun _ => [3, 0, 1, 0] : Fin 3 → List ℚ) a, ∃ y ∈ (fun _ => [3, 0, 1, 0] : Fin 3 → List ℚ) a,
    x ≠ y) ∧ ∃ g, mkGrid (fun _ => ([3, 0, 1, 0] : List ℚ)) (.inl false) 2 = .ok g := by
  refine ⟨fun a => ⟨3, by simp, 0, by simp, by norm_num⟩, ⟨_, rfl⟩⟩

/-- A grid with cells of sizes ten and one along the second axis, shifted there by the given fraction. -/
def skewGrid (s : ℚ) : Grid3 ℚ :=
  { exyz := fun a => if a = 1 then [0, 10, 11] else [0, 1, 2]
    periodic := fun _ => false
    shift := fun _ a => if a = 1 then s else 0
    comp := fun _ _ => 0
    ext := 2 }

theorem skew_good (s : ℚ) : GoodEdges (skewGrid s) := by
  intro a
  by_cases h : a = 1 <;> simp [skewGrid, h] ; norm_num

/-- **C136 is false** for larger shifts: a coordinate inside of the grid along its axis is refused, because the centre of the
grid is outside of the shifted grid along another axis. -/
theorem coord2ind_own_axis_false :
    ¬ ∀ (g : Grid3 ℚ), GoodEdges g → (∀ n a, 0 ≤ g.shift n a ∧ g.shift n a ≤ 1) → ∀ (x : ℚ) (axis n : Fin 3),
      edgeAt g n axis 0 ≤ x → x < edgeAt g n axis ((g.exyz axis).length - 1) →
      ∃ i, coord2ind g x axis (some n.val) true = .ok i := by
  intro h
  obtain ⟨i, hi⟩ := h (skewGrid 1) (skew_good 1) (by
    intro n a
    by_cases ha : a = 1 <;> simp [skewGrid, ha]) 1 0 0
    (by norm_num [edgeAt, gridEdges, skewGrid, primEdges, widthsGhost, widths, at'])
    (by norm_num [edgeAt, gridEdges, skewGrid, primEdges, widthsGhost, widths, at'])
  unfold coord2ind at hi
  rw [pos2ind3_row] at hi
  have hb : ∃ a, inBounds (((skewGrid 1).exyz a).length - 1) (gridEdges (skewGrid 1) (some 0) a)
      (if a = 0 then (1 : ℚ) else center (skewGrid 1) a) = false := by
    refine ⟨1, ?_⟩
    norm_num [inBounds, gridEdges, skewGrid, primEdges, widthsGhost, widths, at', center]
  simp only [rowOf, Fin.val_zero] at hi
  rw [dif_pos (by omega)] at hi
  simp only [Fin.zero_eta] at hi
  rw [if_pos ⟨trivial, hb⟩] at hi
  cases hi

/-- The hypotheses are met by a grid that is shifted by half a cell. -/
example : GoodEdges (skewGrid (1 / 2)) ∧ (∀ n a, 0 ≤ (skewGrid (1 / 2)).shift n a ∧ (skewGrid (1 / 2)).shift n a ≤ 1 / 2) ∧
    edgeAt (skewGrid (1 / 2)) 0 1 0 ≤ 7 ∧ 7 < edgeAt (skewGrid (1 / 2)) 0 1 2 := by
  refine ⟨skew_good _, ?_, ?_, ?_⟩
  · intro n a
    by_cases ha : a = 1 <;> simp [skewGrid, ha] 
  · norm_num [edgeAt, gridEdges, skewGrid, primEdges, widthsGhost, widths, at']
  · norm_num [edgeAt, gridEdges, skewGrid, primEdges, widthsGhost, widths, at']

end Verif.Render
