import Verif.Fdfd.FreeSpaceProps
import Mathlib.Tactic.FieldSimp
import Mathlib.Data.List.GetD
/-
Property C94 (second part): the border, the power and the currents of a source.
-/
namespace Verif.Fdfd.FreeSpace
open Matrix
variable {sh : Shape}
set_option linter.unusedVariables false
set_option linter.unusedSimpArgs false

/-! ### Specification -/

/-- How far into the border the cell number `i` of `size` cells is: one at both ends, falling to zero over `border` cells. -/
noncomputable def taper (size border i : Nat) : ℝ :=
  if border = 0 then 0 else max 0 (1 - (min i (size - 1 - i) : ℕ) / border)

/-- The smooth step: one at zero, zero at one, flat at both. -/
noncomputable def smoothStep (t : ℝ) : ℝ := 1 - 3 * t ^ 2 + 2 * t ^ 3

/-- Inside the slices across the axis. -/
def Across (sl : Slc) (axis : Fin 3) (c : Cell sh) : Prop := ∀ b, b ≠ axis → sl.lo b ≤ (c b).val ∧ (c b).val < sl.hi b

/-- How far into the border a cell is. -/
noncomputable def depth (sl : Slc) (axis : Fin 3) (border : Fin 3 → Nat) (c : Cell sh) : ℝ :=
  min 1 (Real.sqrt (∑ b, (if b = axis then 0 else taper (sl.hi b - sl.lo b) (border b) ((c b).val - sl.lo b)) ^ 2))

/-! ### The mask -/

theorem arange_down (b : Nat) (hb : 0 < b) :
    arange 1 0 (-(1 / (b : ℝ))) = (List.range b).map fun (i : Nat) => 1 - (i : ℝ) / b := by
  have hb' : (b : ℝ) ≠ 0 := Nat.cast_ne_zero.2 (by omega)
  have : ((0 : ℝ) - 1) / -(1 / (b : ℝ)) = (b : ℝ) := by field_simp; ring
  rw [arange, this, Int.ceil_natCast, Int.toNat_natCast]
  apply List.map_congr_left
  intro i _
  field_simp
  ring

theorem arange_up (b : Nat) (hb : 0 < b) :
    arange (1 / (b : ℝ)) (1 + 1 / (b : ℝ)) (1 / (b : ℝ)) = (List.range b).map fun (i : Nat) => ((i : ℝ) + 1) / b := by
  have hb' : (b : ℝ) ≠ 0 := Nat.cast_ne_zero.2 (by omega)
  have : ((1 + 1 / (b : ℝ)) - 1 / (b : ℝ)) / (1 / (b : ℝ)) = (b : ℝ) := by field_simp; ring
  rw [arange, this, Int.ceil_natCast, Int.toNat_natCast]
  apply List.map_congr_left
  intro i _
  field_simp
  ring

theorem maskCoords_length (size b : Nat) : (maskCoords size b).length = size := by
  rw [maskCoords]
  by_cases h : 2 * b < size - 1 ∧ 0 < b
  · rw [if_pos h]
    simp only []
    rw [arange_down b h.2, arange_up b h.2]
    simp only [List.length_append, List.length_map, List.length_range, List.length_replicate]
    omega
  · rw [if_neg h, List.length_replicate]

theorem maskCoords_taper (size b i : Nat) (hb : b = 0 ∨ 2 * b < size - 1) (hi : i < size) :
    (maskCoords size b).getD i 0 = taper size b i := by
  rw [maskCoords]
  by_cases h : b = 0
  · rw [if_neg (by omega), taper, if_pos h]
    simp [List.getD_eq_getElem?_getD, List.getElem?_replicate, hi]
  · have h2 : 2 * b < size - 1 := hb.resolve_left h
    have hb' : (0 : ℝ) < b := Nat.cast_pos.2 (by omega)
    rw [if_pos ⟨h2, by omega⟩]
    simp only []
    rw [arange_down b (by omega), arange_up b (by omega), taper, if_neg h]
    by_cases h3 : i < b
    · rw [List.append_assoc, List.getD_append _ _ _ _ (by simpa using h3), Nat.min_eq_left (by omega)]
      rw [max_eq_right (by rw [sub_nonneg, div_le_one hb']; exact_mod_cast h3.le)]
      simp [List.getD_eq_getElem?_getD, h3]
    · by_cases h4 : i < size - b
      · rw [List.getD_append _ _ _ _ (by simp; omega), List.getD_append_right _ _ _ _ (by simp; omega)]
        rw [max_eq_left]
        · simp [List.getD_eq_getElem?_getD, List.getElem?_replicate]
          split <;> rfl
        · rw [sub_nonpos, one_le_div hb']
          have : b ≤ min i (size - 1 - i) := by omega
          exact_mod_cast this
      · rw [List.getD_append_right _ _ _ _ (by simp; omega)]
        have hj : i - (size - b) < b := by omega
        rw [Nat.min_eq_right (by omega), max_eq_right]
        · have e : i - (b + (size - 2 * b)) = i - (size - b) := by omega
          simp [List.getD_eq_getElem?_getD, e, hj]
          have e1 : ((i - (size - b) : ℕ) : ℝ) = i - (size - b) := by
            rw [Nat.cast_sub (by omega), Nat.cast_sub (by omega)]
          have e2 : ((size - 1 - i : ℕ) : ℝ) = size - 1 - i := by
            rw [Nat.cast_sub (by omega), Nat.cast_sub (by omega)]; simp
          rw [e1, e2]
          field_simp
          ring
        · rw [sub_nonneg, div_le_one hb']
          have : size - 1 - i ≤ b := by omega
          exact_mod_cast this

/-- C94: across the axis, inside the slices, the field is multiplied by a smooth step of the depth in the border; outside of them it
is zero. The border is any the source accepts that leaves at least two cells without border. -/
theorem mask_value (sl : Slc) (axis : Fin 3) (border : Fin 3 → Nat)
    (hb : ∀ b, b ≠ axis → border b = 0 ∨ 2 * border b < sl.hi b - sl.lo b - 1) (c : Cell sh) :
    (Across sl axis c → makeMask sl axis border c = smoothStep (depth sl axis border c)) ∧
      (¬ Across sl axis c → makeMask sl axis border c = 0) := by
  refine ⟨fun h => ?_, fun h => by rw [makeMask, if_neg (show ¬ ∀ b, _ from h)]⟩
  rw [makeMask, if_pos (show ∀ b, _ from h)]
  have key : ∀ b : Fin 3, (if b = axis then (0 : ℝ) else (maskCoords (Slc.size sl b) (border b)).getD ((c b).val - sl.lo b) 0) =
      if b = axis then 0 else taper (sl.hi b - sl.lo b) (border b) ((c b).val - sl.lo b) := by
    intro b
    by_cases hba : b = axis
    · rw [if_pos hba, if_pos hba]
    · have := h b hba
      rw [if_neg hba, if_neg hba, Slc.size, maskCoords_taper _ _ _ (hb b hba) (by omega)]
  simp only [key]
  rw [smoothStep, depth, Fin.sum_univ_three]
  generalize Real.sqrt _ = s
  have : (if s > 1 then 1 else s) = min 1 s := by
    by_cases hs : s > 1
    · rw [if_pos hs, min_eq_left hs.le]
    · rw [if_neg hs, min_eq_right (not_lt.1 hs)]
  rw [this]
  ring

theorem smooth_range {t : ℝ} (h0 : 0 ≤ t) (h1 : t ≤ 1) : 0 ≤ smoothStep t ∧ smoothStep t ≤ 1 := by
  constructor
  · have : smoothStep t = (1 - t) ^ 2 * (1 + 2 * t) := by rw [smoothStep]; ring
    rw [this]; positivity
  · have : smoothStep t = 1 - t ^ 2 * (3 - 2 * t) := by rw [smoothStep]; ring
    have h2 : 0 ≤ t ^ 2 * (3 - 2 * t) := mul_nonneg (sq_nonneg t) (by linarith)
    linarith

theorem makeMask_step (sl : Slc) (axis : Fin 3) (border : Fin 3 → Nat) (c : Cell sh) :
    makeMask sl axis border c = 0 ∨ ∃ t, 0 ≤ t ∧ t ≤ 1 ∧ makeMask sl axis border c = smoothStep t := by
  rw [makeMask]
  split
  · right
    simp only []
    generalize hs : Real.sqrt _ = s
    have hs0 : 0 ≤ s := hs ▸ Real.sqrt_nonneg _
    by_cases h : s > 1
    · exact ⟨1, zero_le_one, le_refl _, by rw [if_pos h, smoothStep]; ring⟩
    · exact ⟨s, hs0, not_lt.1 h, by rw [if_neg h, smoothStep]; ring⟩
  · exact Or.inl rfl

/-- C94: the mask is between zero and one everywhere, for every border. -/
theorem mask_range (sl : Slc) (axis : Fin 3) (border : Fin 3 → Nat) (c : Cell sh) :
    0 ≤ makeMask sl axis border c ∧ makeMask sl axis border c ≤ 1 := by
  rcases makeMask_step sl axis border c with h | ⟨t, h0, h1, h⟩
  · rw [h]; exact ⟨le_refl _, zero_le_one⟩
  · rw [h]; exact smooth_range h0 h1

/-- Inside of the border the mask is one, also where there is no taper. -/
theorem mask_inside (sl : Slc) (axis : Fin 3) (border : Fin 3 → Nat) (c : Cell sh)
    (h : ∀ b, b ≠ axis → sl.lo b + border b ≤ (c b).val ∧ (c b).val < sl.hi b - border b) : makeMask sl axis border c = 1 := by
  have hin : ∀ b, b ≠ axis → sl.lo b ≤ (c b).val ∧ (c b).val < sl.hi b := fun b hb => by have := h b hb; omega
  rw [makeMask, if_pos hin]
  have key : ∀ b : Fin 3,
      (if b = axis then (0 : ℝ) else (maskCoords (Slc.size sl b) (border b)).getD ((c b).val - sl.lo b) 0) = 0 := by
    intro b
    by_cases hba : b = axis
    · rw [if_pos hba]
    · rw [if_neg hba]
      have hb := h b hba
      by_cases hc : 2 * border b < Slc.size sl b - 1 ∧ 0 < border b
      · have hp : (0 : ℝ) < border b := Nat.cast_pos.2 hc.2
        rw [maskCoords_taper _ _ _ (Or.inr hc.1) (by rw [Slc.size]; omega), taper, if_neg (by omega), max_eq_left]
        rw [sub_nonpos, one_le_div hp]
        have : border b ≤ min ((c b).val - sl.lo b) (Slc.size sl b - 1 - ((c b).val - sl.lo b)) := by
          rw [Slc.size]; omega
        exact_mod_cast this
      · rw [maskCoords, if_neg hc]
        simp [List.getD_eq_getElem?_getD, List.getElem?_replicate]
        split <;> rfl
  simp only [key]
  norm_num

/-- C94: the mask is one where the border does not reach, and zero at the outermost cells of a border of at least one cell. -/
theorem mask_ends (sl : Slc) (axis : Fin 3) (border : Fin 3 → Nat)
    (hb : ∀ b, b ≠ axis → border b = 0 ∨ 2 * border b < sl.hi b - sl.lo b - 1) (c : Cell sh) :
    ((∀ b, b ≠ axis → sl.lo b + border b ≤ (c b).val ∧ (c b).val < sl.hi b - border b) → makeMask sl axis border c = 1) ∧
    ((∃ b, b ≠ axis ∧ 0 < border b ∧ ((c b).val = sl.lo b ∨ (c b).val + 1 = sl.hi b)) → makeMask sl axis border c = 0) := by
  refine ⟨mask_inside sl axis border c, ?_⟩
  rintro ⟨b, hba, hb0, hc⟩
  by_cases hA : Across sl axis c
  · rw [(mask_value sl axis border hb c).1 hA]
    have hr := hA b hba
    have ht : taper (sl.hi b - sl.lo b) (border b) ((c b).val - sl.lo b) = 1 := by
      have : min ((c b).val - sl.lo b) (sl.hi b - sl.lo b - 1 - ((c b).val - sl.lo b)) = 0 := by omega
      rw [taper, if_neg (by omega), this]; simp
    have hd : depth sl axis border c = 1 := by
      rw [depth, min_eq_left]
      rw [Real.one_le_sqrt]
      have := Finset.single_le_sum (s := Finset.univ) (f := fun b : Fin 3 =>
        (if b = axis then (0 : ℝ) else taper (sl.hi b - sl.lo b) (border b) ((c b).val - sl.lo b)) ^ 2)
        (fun _ _ => sq_nonneg _) (Finset.mem_univ b)
      simp only [if_neg hba, ht, one_pow] at this
      exact this
    rw [hd, smoothStep]; norm_num
  · exact (mask_value sl axis border hb c).2 hA

/-- A border of two cells on a slice of eight by eight cells. -/
def wide : Slc := ⟨![1, 1, 3], ![9, 9, 4]⟩

example : ∀ b : Fin 3, b ≠ 2 → (![2, 2, 0] : Fin 3 → Nat) b = 0 ∨
    2 * (![2, 2, 0] : Fin 3 → Nat) b < wide.hi b - wide.lo b - 1 := by decide

/-- C94, false as documented ("on the border the intensity goes from 1 to 0"): a border that leaves one cell between its two sides is
accepted and ignored: the mask is one at the outermost cells of the slice. -/
theorem single_cell_border_false : ∃ (sl : Slc) (border b' : Fin 3 → Nat) (c : Cell ![5, 5, 5]),
    checkBorder sl 2 border = some b' ∧ b' 0 = 2 ∧ (c 0).val = sl.lo 0 ∧ Across sl 2 c ∧ makeMask sl 2 b' c = 1 := by
  refine ⟨⟨![0, 0, 2], ![5, 5, 3]⟩, ![2, 2, 0], ![2, 2, 0], (fun b => match b with | 0 => (0 : Fin 5) | 1 => (2 : Fin 5) | 2 => (2 : Fin 5)), ?_, rfl, rfl, ?_, ?_⟩
  · have : (fun b : Fin 3 => if 2 * Function.update (![2, 2, 0] : Fin 3 → Nat) 2 0 b < Slc.size ⟨![0, 0, 2], ![5, 5, 3]⟩ b
        then Function.update (![2, 2, 0] : Fin 3 → Nat) 2 0 b else 0) = ![2, 2, 0] := by decide
    rw [checkBorder, if_pos (by decide), this]
  · intro b hb
    fin_cases b
    · exact ⟨by decide, by decide⟩
    · exact ⟨by decide, by decide⟩
    · exact absurd rfl hb
  · rw [makeMask, if_pos]
    · have h0 : maskCoords (Slc.size ⟨![0, 0, 2], ![5, 5, 3]⟩ 0) ((![2, 2, 0] : Fin 3 → Nat) 0) = List.replicate 5 0 := by
        rw [maskCoords, if_neg (by decide)]; rfl
      have h1 : maskCoords (Slc.size ⟨![0, 0, 2], ![5, 5, 3]⟩ 1) ((![2, 2, 0] : Fin 3 → Nat) 1) = List.replicate 5 0 := by
        rw [maskCoords, if_neg (by decide)]; rfl
      simp only [h0, h1]
      simp [List.getD_eq_getElem?_getD, List.getElem?_replicate]
      norm_num
    · intro b hb
      fin_cases b
      · exact ⟨by decide, by decide⟩
      · exact ⟨by decide, by decide⟩
      · exact absurd rfl hb

/-- C94: the borders that are accepted: twice the border is less than the size, or the size is one, where the border is dropped; there is
no border along the axis. -/
theorem border_accepted (sl : Slc) (axis : Fin 3) (border : Fin 3 → Nat) (hax : sl.hi axis = sl.lo axis + 1) :
    (checkBorder sl axis border = none ↔ ∃ b, b ≠ axis ∧ sl.hi b - sl.lo b ≤ 2 * border b ∧ sl.hi b - sl.lo b ≠ 1) ∧
    (∀ b', checkBorder sl axis border = some b' → b' axis = 0 ∧
      ∀ b, b ≠ axis → b' b = if sl.hi b - sl.lo b = 1 then 0 else border b) := by
  have hs : Slc.size sl axis = 1 := by rw [Slc.size]; omega
  rw [checkBorder]
  constructor
  · by_cases h : ∀ b, 2 * Function.update border axis 0 b < Slc.size sl b ∨ Slc.size sl b = 1
    · simp only [if_pos h]
      constructor
      · intro h'; exact absurd h' (by simp)
      · rintro ⟨b, hba, h1, h2⟩
        have := h b
        rw [Function.update_of_ne hba, Slc.size] at this
        omega
    · simp only [if_neg h, true_iff]
      push Not at h
      obtain ⟨b, h1, h2⟩ := h
      have hba : b ≠ axis := by rintro rfl; exact h2 hs
      rw [Function.update_of_ne hba] at h1
      exact ⟨b, hba, h1, h2⟩
  · intro b' hb'
    by_cases h : ∀ b, 2 * Function.update border axis 0 b < Slc.size sl b ∨ Slc.size sl b = 1
    · simp only [if_pos h, Option.some.injEq] at hb'
      subst hb'
      refine ⟨by simp, fun b hba => ?_⟩
      have := h b
      simp only [Function.update_of_ne hba, Slc.size] at this ⊢
      by_cases h1 : sl.hi b - sl.lo b = 1
      · rw [if_pos h1]
        by_cases h2 : 2 * border b < sl.hi b - sl.lo b
        · rw [if_pos h2]; omega
        · rw [if_neg h2]
      · rw [if_neg h1, if_pos (this.resolve_right h1)]
    · simp only [if_neg h] at hb'
      exact absurd hb' (by simp)

example : checkBorder wide 2 ![2, 2, 9] = some ![2, 2, 0] ∧ checkBorder wide 2 ![2, 4, 0] = none := by
  constructor
  · have : (fun b : Fin 3 => if 2 * Function.update (![2, 2, 9] : Fin 3 → Nat) 2 0 b < Slc.size wide b
        then Function.update (![2, 2, 9] : Fin 3 → Nat) 2 0 b else 0) = ![2, 2, 0] := by decide
    rw [checkBorder, if_pos (by decide), this]
  · rw [checkBorder, if_neg (by decide)]

end Verif.Fdfd.FreeSpace
