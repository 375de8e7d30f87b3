import Verif.Render.Direction
import Mathlib.Tactic.FinCases
import Mathlib.Tactic.Linarith
import Mathlib.Tactic.NormNum
import Mathlib.Tactic.Positivity
import Mathlib.Tactic.Tauto
/-
C45: axis vectors are recognised.
-/
namespace Verif.Render

theorem norm3_nonneg (v : Fin 3 → ℝ) : 0 ≤ norm3 v := Real.sqrt_nonneg _

theorem norm3_sq (v : Fin 3 → ℝ) : norm3 v ^ 2 = v 0 ^ 2 + v 1 ^ 2 + v 2 ^ 2 := Real.sq_sqrt (by positivity)

/-- A vector other than zero has a large entry. -/
theorem exists_large (v : Fin 3 → ℝ) (hv : v ≠ 0) : ∃ i, |v i| > 1e-6 * norm3 v := by
  by_contra h
  simp only [not_exists, not_lt, gt_iff_lt] at h
  have hn := norm3_nonneg v
  have hs := norm3_sq v
  have hb : ∀ i, v i ^ 2 ≤ (1e-6 * norm3 v) ^ 2 := fun i => by
    rw [← sq_abs]
    exact pow_le_pow_left₀ (abs_nonneg _) (h i) 2
  have h0 := hb 0
  have h1 := hb 1
  have h2 := hb 2
  have : norm3 v ^ 2 ≤ 3 * (1e-6 * norm3 v) ^ 2 := by linarith
  have hz : norm3 v ^ 2 ≤ 0 := by nlinarith [sq_nonneg (norm3 v)]
  apply hv
  funext i
  have h3 : v i ^ 2 ≤ 0 := by
    have a0 := sq_nonneg (v 0); have a1 := sq_nonneg (v 1); have a2 := sq_nonneg (v 2)
    fin_cases i
    · show v 0 ^ 2 ≤ 0; linarith
    · show v 1 ^ 2 ≤ 0; linarith
    · show v 2 ^ 2 ≤ 0; linarith
  exact pow_eq_zero_iff (two_ne_zero) |>.1 (le_antisymm h3 (sq_nonneg _))

theorem filter3 (p : Fin 3 → Bool) : (List.finRange 3).filter p =
    (if p 0 then [0] else []) ++ (if p 1 then [1] else []) ++ (if p 2 then [2] else []) := by
  have : List.finRange 3 = [0, 1, 2] := by decide
  rw [this]
  cases h0 : p 0 <;> cases h1 : p 1 <;> cases h2 : p 2 <;> simp [h0, h1, h2]

theorem axis_of_filter (p : Fin 3 → Bool) (i : Fin 3) :
    (if ((List.finRange 3).filter p).length ≠ 1 then none else ((List.finRange 3).filter p).head?) = some i ↔
      p i = true ∧ ∀ j, j ≠ i → p j = false := by
  rw [filter3]
  have key : ∀ b0 b1 b2 : Bool, ∀ i : Fin 3,
      ((if ((if b0 then [0] else []) ++ (if b1 then [1] else []) ++ (if b2 then [2] else []) : List (Fin 3)).length ≠ 1 then none else
        ((if b0 then [0] else []) ++ (if b1 then [1] else []) ++ (if b2 then [2] else []) : List (Fin 3)).head?) = some i ↔
      ![b0, b1, b2] i = true ∧ ∀ j, j ≠ i → ![b0, b1, b2] j = false) := by decide
  have hp : ∀ j, ![p 0, p 1, p 2] j = p j := by
    intro j
    fin_cases j <;> rfl
  have := key (p 0) (p 1) (p 2) i
  simp only [hp] at this
  exact this

/-- **C45.** `axisvec2axis` returns axis `i` exactly if the vector is not zero and all other entries are at most `1e-6` times its
norm. -/
theorem axis_iff (v : Fin 3 → ℝ) (i : Fin 3) :
    axisvec2axis v = some i ↔ v ≠ 0 ∧ ∀ j, j ≠ i → |v j| ≤ 1e-6 * norm3 v := by
  unfold axisvec2axis largeEntries
  rw [axis_of_filter]
  simp only [decide_eq_true_eq, decide_eq_false_iff_not, not_lt, gt_iff_lt]
  constructor
  · rintro ⟨h1, h2⟩
    refine ⟨?_, h2⟩
    rintro rfl
    simp [norm3] at h1
  · rintro ⟨h1, h2⟩
    refine ⟨?_, h2⟩
    obtain ⟨k, hk⟩ := exists_large v h1
    by_cases hki : k = i
    · rw [← hki]; exact hk
    · exact absurd hk (not_lt.2 (h2 k hki))

/-- **C45.** It raises exactly if the vector is zero or two entries are larger than `1e-6` times its norm. -/
theorem axis_raises (v : Fin 3 → ℝ) :
    axisvec2axis v = none ↔ v = 0 ∨ ∃ i j, i ≠ j ∧ 1e-6 * norm3 v < |v i| ∧ 1e-6 * norm3 v < |v j| := by
  constructor
  · intro h
    by_cases hv : v = 0
    · exact Or.inl hv
    · right
      obtain ⟨k, hk⟩ := exists_large v hv
      by_contra hc
      have : axisvec2axis v = some k := (axis_iff v k).2 ⟨hv, fun j hj => not_lt.1 fun hlt => hc ⟨k, j, Ne.symm hj, hk, hlt⟩⟩
      rw [h] at this
      cases this
  · intro h
    cases ha : axisvec2axis v with
    | none => rfl
    | some a =>
      obtain ⟨h1, h2⟩ := (axis_iff v a).1 ha
      rcases h with h | ⟨i, j, hij, hi, hj⟩
      · exact absurd h h1
      · by_cases hia : i = a
        · exact absurd hj (not_lt.2 (h2 j (by rw [← hia]; exact Ne.symm hij)))
        · exact absurd hi (not_lt.2 (h2 i hia))

/-- **C45.** A multiple other than zero of a unit vector is recognised, and the polarity is the sign of the factor. -/
theorem axis_unit (i : Fin 3) (c : ℝ) (hc : c ≠ 0) :
    axisvec2axis (Pi.single i c) = some i ∧ axisvec2polarity (Pi.single i c) = some (SignType.sign c) := by
  have h : axisvec2axis (Pi.single i c) = some i := by
    rw [axis_iff]
    constructor
    · intro h
      have := congrFun h i
      simp [hc] at this
    · intro j hj
      rw [Pi.single_eq_of_ne hj, abs_zero]
      have := norm3_nonneg (Pi.single i c)
      positivity
  exact ⟨h, by simp [axisvec2polarity, h]⟩

/-- **C45.** The polarity is 1 or -1 whenever there is one, and it is the sign of the entry along the axis. -/
theorem polarity_sign (v : Fin 3 → ℝ) (p : SignType) (h : axisvec2polarity v = some p) :
    ∃ i, axisvec2axis v = some i ∧ ((p = 1 ∧ 0 < v i) ∨ (p = -1 ∧ v i < 0)) := by
  unfold axisvec2polarity at h
  obtain ⟨i, hi, rfl⟩ := Option.map_eq_some_iff.1 h
  refine ⟨i, hi, ?_⟩
  have hne : v i ≠ 0 := by
    intro h0
    obtain ⟨h1, h2⟩ := (axis_iff v i).1 hi
    obtain ⟨k, hk⟩ := exists_large v h1
    by_cases hki : k = i
    · rw [hki, h0, abs_zero] at hk
      have := norm3_nonneg v
      nlinarith
    · exact absurd hk (not_lt.2 (h2 k hki))
  rcases lt_or_gt_of_ne hne with hlt | hgt
  · exact Or.inr ⟨sign_neg hlt, hlt⟩
  · exact Or.inl ⟨sign_pos hgt, hgt⟩

theorem norm3_smul (c : ℝ) (v : Fin 3 → ℝ) : norm3 (fun i => c * v i) = |c| * norm3 v := by
  unfold norm3
  rw [← Real.sqrt_sq_eq_abs, ← Real.sqrt_mul (sq_nonneg c)]
  congr 1
  ring

/-- **C45.** The length of the vector does not matter, and the opposite vector has the opposite polarity. -/
theorem axis_scaled (c : ℝ) (hc : c ≠ 0) (v : Fin 3 → ℝ) :
    axisvec2axis (fun i => c * v i) = axisvec2axis v ∧
    axisvec2polarity (fun i => c * v i) = (axisvec2polarity v).map fun p => SignType.sign c * p := by
  have h : axisvec2axis (fun i => c * v i) = axisvec2axis v := by
    apply Option.ext
    intro i
    rw [axis_iff, axis_iff, norm3_smul]
    have hp : 0 < |c| := abs_pos.2 hc
    constructor
    · rintro ⟨h1, h2⟩
      refine ⟨?_, fun j hj => ?_⟩
      · rintro rfl
        exact h1 (by funext i; simp)
      · have := h2 j hj
        rw [abs_mul] at this
        have h3 : |c| * |v j| ≤ |c| * (1e-6 * norm3 v) := by linarith
        exact le_of_mul_le_mul_left h3 hp
    · rintro ⟨h1, h2⟩
      refine ⟨?_, fun j hj => ?_⟩
      · intro h
        apply h1
        funext i
        have := congrFun h i
        simpa [hc] using this
      · rw [abs_mul]
        have := mul_le_mul_of_nonneg_left (h2 j hj) (le_of_lt hp)
        linarith
  refine ⟨h, ?_⟩
  unfold axisvec2polarity
  rw [h, Option.map_map]
  congr 1
  funext i
  simp [sign_mul]

/-- A vector that is slightly off the axis is accepted. -/
example : axisvec2axis ![0, -2, 1e-7] = some 1 := by
  rw [axis_iff]
  have hn : 1 ≤ norm3 ![0, -2, 1e-7] := by
    unfold norm3
    rw [Real.one_le_sqrt]
    show (1 : ℝ) ≤ 0 ^ 2 + (-2) ^ 2 + (1e-7) ^ 2
    norm_num
  constructor
  · intro h
    have := congrFun h 1
    simp at this
  · intro j hj
    fin_cases j
    · simp; linarith
    · exact absurd rfl hj
    · show |(1e-7 : ℝ)| ≤ _
      rw [abs_of_pos (by norm_num)]
      linarith

end Verif.Render
