import Verif.Render.Limits
import Verif.Render.GridProps
import Mathlib.Tactic.NormNum
/-
C137: the limits of the cell sizes bound the cells of all shifted grids.
-/
set_option linter.unusedSectionVars false
set_option linter.unusedVariables false
namespace Verif.Render
variable {K : Type} [Field K] [LinearOrder K] [IsStrictOrderedRing K]

/-! ### Specification -/

/-- The size of cell number `i` between edges `e`. -/
def cellSize (e : List K) (i : Nat) : K := e.getD (i + 1) 0 - e.getD i 0

/-! ### Lemmas -/

theorem foldl_min_le (l : List K) (d : K) : l.foldl min d ≤ d ∧ ∀ x ∈ l, l.foldl min d ≤ x := by
  induction l generalizing d with
  | nil => exact ⟨le_refl _, fun x h => by cases h⟩
  | cons b t ih =>
    obtain ⟨h1, h2⟩ := ih (min d b)
    simp only [List.foldl_cons]
    refine ⟨h1.trans (min_le_left _ _), fun x hx => ?_⟩
    rcases List.mem_cons.1 hx with hx | hx
    · rw [hx]
      exact h1.trans (min_le_right _ _)
    · exact h2 x hx

theorem foldl_min_mem (l : List K) (d : K) : l.foldl min d = d ∨ l.foldl min d ∈ l := by
  induction l generalizing d with
  | nil => exact Or.inl rfl
  | cons b t ih =>
    simp only [List.foldl_cons]
    rcases ih (min d b) with h | h
    · rw [h]
      rcases min_choice d b with h | h <;> simp [h]
    · exact Or.inr (List.mem_cons_of_mem _ h)

theorem le_foldl_max (l : List K) (d : K) : d ≤ l.foldl max d ∧ ∀ x ∈ l, x ≤ l.foldl max d := by
  induction l generalizing d with
  | nil => exact ⟨le_refl _, fun x h => by cases h⟩
  | cons b t ih =>
    obtain ⟨h1, h2⟩ := ih (max d b)
    simp only [List.foldl_cons]
    refine ⟨(le_max_left _ _).trans h1, fun x hx => ?_⟩
    rcases List.mem_cons.1 hx with hx | hx
    · rw [hx]
      exact (le_max_right _ _).trans h1
    · exact h2 x hx

theorem foldl_max_mem (l : List K) (d : K) : l.foldl max d = d ∨ l.foldl max d ∈ l := by
  induction l generalizing d with
  | nil => exact Or.inl rfl
  | cons b t ih =>
    simp only [List.foldl_cons]
    rcases ih (max d b) with h | h
    · rw [h]
      rcases max_choice d b with h | h <;> simp [h]
    · exact Or.inr (List.mem_cons_of_mem _ h)

theorem mem_widths (e : List K) (w : K) : w ∈ widths e ↔ ∃ i, i + 1 < e.length ∧ w = cellSize e i := by
  constructor
  · intro h
    obtain ⟨i, hi, rfl⟩ := List.getElem_of_mem h
    have hi' : i + 1 < e.length := by rw [widths_length] at hi; omega
    refine ⟨i, hi', ?_⟩
    rw [← at'_eq (widths e) i hi, at'_widths e i hi']
    rfl
  · rintro ⟨i, hi, rfl⟩
    have hi' : i < (widths e).length := by rw [widths_length]; omega
    have : cellSize e i = (widths e)[i] := by
      rw [← at'_eq (widths e) i hi', at'_widths e i hi]
      rfl
    rw [this]
    exact List.getElem_mem hi'

theorem limits_widths (e : List K) (lo hi : K) (h : dxyzLimits e = some (lo, hi)) :
    lo ∈ widths e ∧ hi ∈ widths e ∧ ∀ w ∈ widths e, lo ≤ w ∧ w ≤ hi := by
  unfold dxyzLimits at h
  split at h
  · cases h
  · next d ds heq =>
    cases h
    rw [heq]
    refine ⟨?_, ?_, fun w hw => ?_⟩
    · rcases foldl_min_mem ds d with h | h
      · rw [h]; exact List.mem_cons_self
      · exact List.mem_cons_of_mem _ h
    · rcases foldl_max_mem ds d with h | h
      · rw [h]; exact List.mem_cons_self
      · exact List.mem_cons_of_mem _ h
    · rcases List.mem_cons.1 hw with hw | hw
      · rw [hw]
        exact ⟨(foldl_min_le ds d).1, (le_foldl_max ds d).1⟩
      · exact ⟨(foldl_min_le ds d).2 w hw, (le_foldl_max ds d).2 w hw⟩

theorem at'_mem {l : List K} {i : Nat} (h : i < l.length) : at' l i ∈ l := by
  rw [at'_eq l i h]
  exact List.getElem_mem h

theorem ghost_mem (p : Bool) (e : List K) (hn : widths e ≠ []) (w : K) (h : w ∈ widthsGhost p e) : w ∈ widths e := by
  have hl : 0 < (widths e).length := List.length_pos_iff.2 hn
  unfold widthsGhost at h
  rcases List.mem_append.1 h with h | h
  · exact h
  · rw [List.mem_singleton] at h
    rw [h]
    split
    · exact at'_mem hl
    · exact at'_mem (by omega)

theorem between_mix (lo hi a b σ : K) (h0 : 0 ≤ σ) (h1 : σ ≤ 1) (ha : lo ≤ a ∧ a ≤ hi) (hb : lo ≤ b ∧ b ≤ hi) :
    lo ≤ a * (1 - σ) + b * σ ∧ a * (1 - σ) + b * σ ≤ hi := by
  have k1 := mul_nonneg (sub_nonneg.2 ha.1) (sub_nonneg.2 h1)
  have k2 := mul_nonneg (sub_nonneg.2 hb.1) h0
  have k3 := mul_nonneg (sub_nonneg.2 ha.2) (sub_nonneg.2 h1)
  have k4 := mul_nonneg (sub_nonneg.2 hb.2) h0
  constructor <;> nlinarith

theorem mem_zipWith_mix (f : K → K → K) (l m : List K) (w : K) (h : w ∈ List.zipWith f l m) :
    ∃ a ∈ l, ∃ b ∈ m, w = f a b := by
  obtain ⟨i, hi, rfl⟩ := List.getElem_of_mem h
  rw [List.length_zipWith] at hi
  exact ⟨l[i], List.getElem_mem (by omega), m[i], List.getElem_mem (by omega), List.getElem_zipWith⟩

/-! ### C137 -/

/-- **C137**. The limits are sizes of cells, and the size of every cell is between them. -/
theorem limits_exact (e : List K) (lo hi : K) (h : dxyzLimits e = some (lo, hi)) :
    (∃ i, i + 1 < e.length ∧ lo = cellSize e i) ∧ (∃ i, i + 1 < e.length ∧ hi = cellSize e i) ∧
      ∀ i, i + 1 < e.length → lo ≤ cellSize e i ∧ cellSize e i ≤ hi := by
  obtain ⟨h1, h2, h3⟩ := limits_widths e lo hi h
  exact ⟨(mem_widths e lo).1 h1, (mem_widths e hi).1 h2, fun i hi => h3 _ ((mem_widths e _).2 ⟨i, hi, rfl⟩)⟩

/-- **C137**. There are limits exactly if there is a cell. -/
theorem limits_exist (e : List K) : (∃ l, dxyzLimits e = some l) ↔ 2 ≤ e.length := by
  have hl := widths_length e
  unfold dxyzLimits
  split
  · next heq =>
    rw [heq] at hl
    simp only [List.length_nil] at hl
    constructor
    · rintro ⟨l, h⟩
      cases h
    · intro h
      omega
  · next d ds heq =>
    rw [heq] at hl
    simp only [List.length_cons] at hl
    exact ⟨fun _ => by omega, fun _ => ⟨_, rfl⟩⟩

/-- **C137**. The sizes of the cells of the primary and of the complementary grid are within the limits, for every shift by at
most one cell. -/
theorem limits_shifted_partial (p : Bool) (σ : K) (h0 : 0 ≤ σ) (h1 : σ ≤ 1) (e : List K) (lo hi : K)
    (h : dxyzLimits e = some (lo, hi)) (w : K) (hw : w ∈ primWidths p σ e ∨ w ∈ compWidths p σ e) :
    lo ≤ w ∧ w ≤ hi := by
  obtain ⟨m1, m2, m3⟩ := limits_widths e lo hi h
  have hn : widths e ≠ [] := List.ne_nil_of_mem m1
  have hgl : 0 < (widthsGhost p e).length := by simp [widthsGhost]
  have hb : ∀ a ∈ widthsGhost p e, lo ≤ a ∧ a ≤ hi := fun a ha => m3 a (ghost_mem p e hn a ha)
  have hz : ∀ a, a ∈ List.zipWith (fun a b => a * (1 - σ) + b * σ) (widthsGhost p e).dropLast (widthsGhost p e).tail →
      lo ≤ a ∧ a ≤ hi := by
    intro a ha
    obtain ⟨x, hx, y, hy, rfl⟩ := mem_zipWith_mix _ _ _ _ ha
    exact between_mix lo hi x y σ h0 h1 (hb x ((List.dropLast_sublist _).subset hx)) (hb y (List.mem_of_mem_tail hy))
  rcases hw with hw | hw
  · exact hz w hw
  · have hc : w ∈ (at' (widthsGhost p e) ((widthsGhost p e).length - 1) * (1 - σ) + at' (widthsGhost p e) 0 * σ) ::
        List.zipWith (fun a b => a * (1 - σ) + b * σ) (widthsGhost p e).dropLast (widthsGhost p e).tail := by
      unfold compWidths at hw
      simp only [] at hw
      split at hw
      · exact List.mem_of_mem_tail hw
      · exact hw
    rcases List.mem_cons.1 hc with hc | hc
    · rw [hc]
      exact between_mix lo hi _ _ σ h0 h1 (hb _ (at'_mem (by omega))) (hb _ (at'_mem hgl))
    · exact hz w hc

/-- **C137 is false** for shifts by more than a cell, which the constructor accepts. -/
theorem limits_shifted_false :
    ¬ ∀ (p : Bool) (σ : ℚ), 0 ≤ σ → ∀ (e : List ℚ), e.Pairwise (· < ·) → ∀ lo hi, dxyzLimits e = some (lo, hi) →
      ∀ w ∈ primWidths p σ e, lo ≤ w ∧ w ≤ hi := by
  intro h
  have := h false 2 (by norm_num) [0, 1, 3] (by norm_num) 1 2 (by norm_num [dxyzLimits, widths]) 3
    (by norm_num [primWidths, widthsGhost, widths, at'])
  norm_num at this

/-- The hypotheses are met by cells of different sizes and a shift by half a cell. -/
example : dxyzLimits ([0, 1, 3, 7] : List ℚ) = some (1, 4) ∧ (3 : ℚ) ∈ primWidths false (1 / 2) [0, 1, 3, 7] ∧
    (5 / 2 : ℚ) ∈ compWidths false (1 / 2) [0, 1, 3, 7] := by
  refine ⟨by norm_num [dxyzLimits, widths], by norm_num [primWidths, widthsGhost, widths, at'],
    by norm_num [compWidths, widthsGhost, widths, at']⟩

end Verif.Render
