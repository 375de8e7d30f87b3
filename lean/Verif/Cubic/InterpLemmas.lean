import Verif.Cubic.Interp
import Verif.Cubic.InterpSpec
import Verif.Cubic.GeometrySteps
import Mathlib.Tactic.FieldSimp
import Mathlib.Tactic.LinearCombination
import Mathlib.Tactic.Push
import Mathlib.Tactic.ByContra

/-!
# Lemmas: what the interpolation matrices do
-/

set_option linter.unusedVariables false
set_option linter.unusedSectionVars false
set_option linter.unusedSimpArgs false

namespace Verif.Cubic

open Finset

section ring
variable {K : Type*} [CommRing K]

/-- Sum of the entries of a row, each times the value in its column. -/
def rowSum (l : List (Nat × Nat × K)) (r : Nat) (v : Nat → K) : K :=
  ((l.filter fun t => t.1 = r).map fun t => t.2.2 * v t.2.1).sum

theorem rowSum_nil (r : Nat) (v : Nat → K) : rowSum [] r v = 0 := rfl

theorem rowSum_append (l l' : List (Nat × Nat × K)) (r : Nat) (v : Nat → K) :
    rowSum (l ++ l') r v = rowSum l r v + rowSum l' r v := by
  simp [rowSum]

theorem rowSum_range (n : Nat) (F : Nat → List (Nat × Nat × K)) (r : Nat) (v : Nat → K) :
    rowSum ((List.range n).flatMap F) r v = ∑ i ∈ range n, rowSum (F i) r v := by
  induction n with
  | zero => rfl
  | succ n ih =>
    rw [List.range_succ, List.flatMap_append, rowSum_append, ih, Finset.sum_range_succ]
    simp

theorem rowSum_map (n : Nat) (F : Nat → Nat × Nat × K) (r : Nat) (v : Nat → K) :
    rowSum ((List.range n).map F) r v = ∑ i ∈ range n, rowSum [F i] r v := by
  rw [← rowSum_range, ← List.map_eq_flatMap]

theorem rowSum_all (l : List (Nat × Nat × K)) (r : Nat) (v : Nat → K) (h : ∀ t ∈ l, t.1 = r) :
    rowSum l r v = (l.map fun t => t.2.2 * v t.2.1).sum := by
  unfold rowSum
  rw [List.filter_eq_self.2 (by simpa using h)]

theorem rowSum_none (l : List (Nat × Nat × K)) (r : Nat) (v : Nat → K) (h : ∀ t ∈ l, t.1 ≠ r) :
    rowSum l r v = 0 := by
  unfold rowSum
  rw [List.filter_eq_nil_iff.2 (by simpa using h)]
  rfl

theorem coo_rowSum {r c : Nat} (l : List (Nat × Nat × K)) (hc : ∀ t ∈ l, t.2.1 < c) (v : Nat → K)
    (i : Nat) : (SpMat.coo r c l).mulVec v i = rowSum l i v := SpMat.coo_mulVec l hc v i

theorem idx_inj {a i j i' j' : Nat} (hi : i < a) (hi' : i' < a) (h : i + a * j = i' + a * j') :
    i = i' ∧ j = j' := by
  have h1 := congrArg (· % a) h
  have h2 := congrArg (· / a) h
  simp only [SpMat.add_mul_mod' hi, SpMat.add_mul_mod' hi', SpMat.add_mul_div' hi,
    SpMat.add_mul_div' hi'] at h1 h2
  exact ⟨h1, h2⟩

/-- A matrix whose list of entries is made row by row over a grid. -/
theorem rowSum_grid (a b : Nat) (E : Nat → Nat → List (Nat × Nat × K))
    (hE : ∀ i j, i < a → j < b → ∀ t ∈ E i j, t.1 = i + a * j) (v : Nat → K) {i j : Nat}
    (hi : i < a) (hj : j < b) :
    rowSum ((List.range a).flatMap fun i => (List.range b).flatMap fun j => E i j) (i + a * j) v
      = ((E i j).map fun t => t.2.2 * v t.2.1).sum := by
  rw [rowSum_range, Finset.sum_eq_single_of_mem i (Finset.mem_range.2 hi)]
  · rw [rowSum_range, Finset.sum_eq_single_of_mem j (Finset.mem_range.2 hj)]
    · exact rowSum_all _ _ _ (hE i j hi hj)
    · intro j' hj' hne
      refine rowSum_none _ _ _ fun t ht h => hne ?_
      rw [hE i j' hi (Finset.mem_range.1 hj') t ht] at h
      exact (idx_inj hi hi h).2
  · intro i' hi' hne
    have hi' := Finset.mem_range.1 hi'
    rw [rowSum_range]
    refine Finset.sum_eq_zero fun j' hj' => rowSum_none _ _ _ fun t ht h => hne ?_
    rw [hE i' j' hi' (Finset.mem_range.1 hj') t ht] at h
    exact (idx_inj hi' hi h).1

end ring

/-! ## The derivative matrix -/

variable {K : Type*} [Field K] [LinearOrder K]

theorem pyGet_nat {α : Type*} (d : α) (l : List α) (i : Nat) : pyGet d l (i : Int) = l.getD i d := by
  unfold pyGet
  rw [if_neg (by omega)]
  rfl

theorem pyGet_neg {α : Type*} (d : α) (l : List α) (k : Nat) (hk : 0 < k) :
    pyGet d l (-(k : Int)) = l.getD (l.length - k) d := by
  unfold pyGet
  rw [if_pos (by omega)]
  simp

theorem perIdx_len (n : Nat) : (perIdx n).length = n + 2 := by simp [perIdx]

theorem perIdx_lt {n i : Nat} (h : i < n) : (perIdx n).getD i 0 = i := by
  unfold perIdx
  rw [List.getD_eq_getElem _ _ (by simp; omega)]
  rw [List.getElem_set_ne (by omega), List.getElem_set_ne (by omega)]
  simp

theorem perIdx_end (n : Nat) : (perIdx n).getD n 0 = 0 := by
  unfold perIdx
  rw [List.getD_eq_getElem _ _ (by simp)]
  rw [List.getElem_set_ne (by omega), List.getElem_set_self]

theorem perIdx_before (n : Nat) : (perIdx n).getD (n + 1) 0 = n - 1 := by
  unfold perIdx
  rw [List.getD_eq_getElem _ _ (by simp)]
  rw [List.getElem_set_self]

/-- Strictly increasing coordinates. -/
def Increasing (xs : List K) : Prop := ∀ i j, i < j → j < xs.length → xs.getD i 0 < xs.getD j 0

theorem Increasing.ne {xs : List K} (h : Increasing xs) {i j : Nat} (hij : i < j)
    (hj : j < xs.length) : xs.getD i 0 ≠ xs.getD j 0 := ne_of_lt (h i j hij hj)

omit [LinearOrder K] in
theorem weights_max {x0 x1 x2 : K} (h01 : x0 ≠ x1) (h12 : x1 ≠ x2) (h02 : x0 ≠ x2) (f0 f1 f2 : K) :
    (x2 - x1) ^ 2 / ((x0 - x1) * (x2 - x1) * ((x0 - x1) - (x2 - x1))) * f0 +
      (-((x0 - x1) ^ 2 - 2 * (x0 - x1) * (x2 - x1) + (x2 - x1) ^ 2) /
        ((x0 - x1) * (x2 - x1) * ((x0 - x1) - (x2 - x1))) * f1 +
      (-(2 * (x0 - x1) * (x2 - x1) - (x0 - x1) ^ 2) /
        ((x0 - x1) * (x2 - x1) * ((x0 - x1) - (x2 - x1))) * f2 + 0))
      = threePoint x0 x1 x2 f0 f1 f2 x2 := by
  have h1 : x0 - x1 ≠ 0 := sub_ne_zero.2 h01
  have h2 : x2 - x1 ≠ 0 := sub_ne_zero.2 h12.symm
  have h3 : x0 - x2 ≠ 0 := sub_ne_zero.2 h02
  have h1' : x1 - x0 ≠ 0 := sub_ne_zero.2 h01.symm
  have h2' : x1 - x2 ≠ 0 := sub_ne_zero.2 h12
  have h3' : x2 - x0 ≠ 0 := sub_ne_zero.2 h02.symm
  unfold threePoint
  rw [show (x0 - x1) - (x2 - x1) = x0 - x2 by ring]
  rw [show x1 - x0 = -(x0 - x1) by ring, show x1 - x2 = -(x2 - x1) by ring,
    show x2 - x0 = -(x0 - x2) by ring]
  field_simp
  ring

omit [LinearOrder K] in
theorem weights_min {x0 x1 x2 : K} (h01 : x0 ≠ x1) (h12 : x1 ≠ x2) (h02 : x0 ≠ x2) (f0 f1 f2 : K) :
    (2 * (x0 - x1) * (x2 - x1) - (x2 - x1) ^ 2) / ((x0 - x1) * (x2 - x1) * ((x0 - x1) - (x2 - x1))) * f0 +
      (((x0 - x1) ^ 2 - 2 * (x0 - x1) * (x2 - x1) + (x2 - x1) ^ 2) /
        ((x0 - x1) * (x2 - x1) * ((x0 - x1) - (x2 - x1))) * f1 +
      (-(x0 - x1) ^ 2 /
        ((x0 - x1) * (x2 - x1) * ((x0 - x1) - (x2 - x1))) * f2 + 0))
      = threePoint x0 x1 x2 f0 f1 f2 x0 := by
  have h1 : x0 - x1 ≠ 0 := sub_ne_zero.2 h01
  have h2 : x2 - x1 ≠ 0 := sub_ne_zero.2 h12.symm
  have h3 : x0 - x2 ≠ 0 := sub_ne_zero.2 h02
  unfold threePoint
  rw [show (x0 - x1) - (x2 - x1) = x0 - x2 by ring]
  rw [show x1 - x0 = -(x0 - x1) by ring, show x1 - x2 = -(x2 - x1) by ring,
    show x2 - x0 = -(x0 - x2) by ring]
  field_simp
  ring

omit [LinearOrder K] in
theorem weights_mid {x0 x1 x2 : K} (h01 : x0 ≠ x1) (h12 : x1 ≠ x2) (h02 : x0 ≠ x2) (f0 f1 f2 : K) :
    -(x2 - x1) ^ 2 / ((x0 - x1) * (x2 - x1) * ((x0 - x1) - (x2 - x1))) * f0 +
      (((x2 - x1) ^ 2 - (x0 - x1) ^ 2) /
        ((x0 - x1) * (x2 - x1) * ((x0 - x1) - (x2 - x1))) * f1 +
      ((x0 - x1) ^ 2 /
        ((x0 - x1) * (x2 - x1) * ((x0 - x1) - (x2 - x1))) * f2 + 0))
      = threePoint x0 x1 x2 f0 f1 f2 x1 := by
  have h1 : x0 - x1 ≠ 0 := sub_ne_zero.2 h01
  have h2 : x2 - x1 ≠ 0 := sub_ne_zero.2 h12.symm
  have h3 : x0 - x2 ≠ 0 := sub_ne_zero.2 h02
  unfold threePoint
  rw [show (x0 - x1) - (x2 - x1) = x0 - x2 by ring]
  rw [show x1 - x0 = -(x0 - x1) by ring, show x1 - x2 = -(x2 - x1) by ring,
    show x2 - x0 = -(x0 - x2) by ring]
  field_simp
  ring

theorem perCoords_getD {per : Bool} {xs : List K} {i : Nat} (hi : i < xs.length) :
    (perCoords per xs).getD i 0 = xs.getD i 0 := by
  unfold perCoords
  cases per
  · rfl
  · rw [if_pos rfl, List.getD_append _ _ _ _ hi]

theorem perCoords_last {xs : List K} (h : 2 ≤ xs.length) :
    pyGet 0 (perCoords true xs) (-1) =
      xs.getD 0 0 - (xs.getD (xs.length - 1) 0 - xs.getD (xs.length - 2) 0) := by
  have := pyGet_neg (0 : K) (perCoords true xs) 1 (by omega)
  rw [show (-1 : Int) = -((1 : Nat) : Int) by rfl, this]
  have hl : (perCoords true xs).length = xs.length + 1 := by simp [perCoords]
  rw [hl]
  unfold perCoords
  rw [if_pos rfl, List.getD_append_right _ _ _ _ (by omega)]
  have e0 := pyGet_nat (0 : K) xs 0
  have e1 := pyGet_neg (0 : K) xs 1 (by omega)
  have e2 := pyGet_neg (0 : K) xs 2 (by omega)
  simp only [Nat.cast_ofNat, Nat.cast_one, Nat.cast_zero] at e0 e1 e2
  rw [e0, e1, e2]
  simp

/-- The three entries of a row, with the columns given by functions. -/
def quadRow1 (x : List K) (len : Nat) (periodic : Bool) (i row : Nat) (col pcol : Int → Nat) :
    List (Nat × Nat × K) :=
  let ind : Int := i
  if ind = (len : Int) - 1 ∧ periodic = false then
    let xmin := pyGet 0 x (ind - 2) - pyGet 0 x (ind - 1)
    let xplus := pyGet 0 x ind - pyGet 0 x (ind - 1)
    let denum := xmin * xplus * (xmin - xplus)
    [(row, col (-2), xplus ^ 2 / denum),
     (row, col (-1), -(xmin ^ 2 - 2 * xmin * xplus + xplus ^ 2) / denum),
     (row, col 0, -(2 * xmin * xplus - xmin ^ 2) / denum)]
  else if ind = 0 ∧ periodic = false then
    let xmin := pyGet 0 x ind - pyGet 0 x (ind + 1)
    let xplus := pyGet 0 x (ind + 2) - pyGet 0 x (ind + 1)
    let denum := xmin * xplus * (xmin - xplus)
    [(row, col 0, (2 * xmin * xplus - xplus ^ 2) / denum),
     (row, col 1, (xmin ^ 2 - 2 * xmin * xplus + xplus ^ 2) / denum),
     (row, col 2, -xmin ^ 2 / denum)]
  else
    let xmin := pyGet 0 x (ind - 1) - pyGet 0 x ind
    let xplus := pyGet 0 x (ind + 1) - pyGet 0 x ind
    let denum := xmin * xplus * (xmin - xplus)
    [(row, pcol (-1), -xplus ^ 2 / denum),
     (row, pcol 0, (xplus ^ 2 - xmin ^ 2) / denum),
     (row, pcol 1, xmin ^ 2 / denum)]

variable [IsStrictOrderedRing K]

theorem quadRow1_sum {per : Bool} {xs : List K} (hinc : Increasing xs)
    (hlen : if per then 2 ≤ xs.length else 3 ≤ xs.length) {i row : Nat}
    (hi : i < freeLen per xs.length) (C : Nat → Nat) (v : Nat → K) :
    ((quadRow1 (perCoords per xs) (freeLen per xs.length) per i row (fun d => C (i + d : Int).toNat)
        (fun d => C (pyGet 0 (perIdx (freeLen per xs.length)) (i + d)))).map
        fun t => t.2.2 * v t.2.1).sum
      = slope per xs (fun m => v (C m)) i := by
  cases per with
  | true =>
    simp only [freeLen, if_true] at hi hlen ⊢
    unfold quadRow1
    simp only [Bool.true_eq_false, and_false, if_false]
    simp only [List.map_cons, List.map_nil, List.sum_cons, List.sum_nil, add_zero]
    have hI : pyGet 0 (perIdx (xs.length - 1)) (i : Int) = i := by rw [pyGet_nat, perIdx_lt hi]
    have hX : pyGet 0 (perCoords true xs) (i : Int) = xs.getD i 0 := by
      rw [pyGet_nat, perCoords_getD (by omega)]
    have hX1 : pyGet 0 (perCoords true xs) ((i : Int) + 1) = xs.getD (i + 1) 0 := by
      rw [show (i : Int) + 1 = ((i + 1 : Nat) : Int) by simp, pyGet_nat, perCoords_getD (by omega)]
    have hI1 : pyGet 0 (perIdx (xs.length - 1)) ((i : Int) + 1)
        = if i + 1 = xs.length - 1 then 0 else i + 1 := by
      rw [show (i : Int) + 1 = ((i + 1 : Nat) : Int) by simp, pyGet_nat]
      split
      · rename_i h; rw [h, perIdx_end]
      · rw [perIdx_lt (by omega)]
    have hX0 : pyGet 0 (perCoords true xs) ((i : Int) - 1) =
        if i = 0 then xs.getD 0 0 - (xs.getD (xs.length - 1) 0 - xs.getD (xs.length - 2) 0)
        else xs.getD (i - 1) 0 := by
      split
      · rename_i h; subst h
        exact perCoords_last hlen
      · rw [show (i : Int) - 1 = ((i - 1 : Nat) : Int) by omega, pyGet_nat,
          perCoords_getD (by omega)]
    have hI0 : pyGet 0 (perIdx (xs.length - 1)) ((i : Int) + -1) =
        if i = 0 then xs.length - 2 else i - 1 := by
      split
      · rename_i h; subst h
        have := pyGet_neg 0 (perIdx (xs.length - 1)) 1 (by omega)
        simp only [Nat.cast_one] at this
        rw [show ((0 : Nat) : Int) + -1 = -1 by simp, this, perIdx_len,
          show xs.length - 1 + 2 - 1 = xs.length - 1 + 1 by omega, perIdx_before]
        omega
      · rw [show (i : Int) + -1 = ((i - 1 : Nat) : Int) by omega, pyGet_nat,
          perIdx_lt (by omega)]
    simp only [Int.add_zero, hI, hX, hX1, hI1, hX0, hI0]
    unfold slope
    simp only [if_true]
    have hv0 : v (C (if i = 0 then xs.length - 2 else i - 1))
        = if i = 0 then v (C (xs.length - 2)) else v (C (i - 1)) := by split <;> rfl
    have hv1 : v (C (if i + 1 = xs.length - 1 then 0 else i + 1))
        = if i + 1 = xs.length - 1 then v (C 0) else v (C (i + 1)) := by split <;> rfl
    rw [hv0, hv1]
    have hgt : (if i = 0 then xs.getD 0 0 - (xs.getD (xs.length - 1) 0 - xs.getD (xs.length - 2) 0)
        else xs.getD (i - 1) 0) < xs.getD i 0 := by
      split
      · rename_i h; subst h
        have := hinc (xs.length - 2) (xs.length - 1) (by omega) (by omega)
        linarith
      · exact hinc _ _ (by omega) (by omega)
    have hlt : xs.getD i 0 < xs.getD (i + 1) 0 := hinc _ _ (by omega) (by omega)
    have := weights_mid (ne_of_lt hgt) (ne_of_lt hlt) (ne_of_lt (lt_trans hgt hlt))
    rw [← this]
    ring
  | false =>
    simp only [freeLen, Bool.false_eq_true, if_false] at hi hlen ⊢
    have hG : ∀ m, m < xs.length → pyGet 0 (perCoords false xs) (m : Int) = xs.getD m 0 := by
      intro m hm
      rw [pyGet_nat, perCoords_getD hm]
    have hI : ∀ m, m < xs.length → pyGet 0 (perIdx xs.length) (m : Int) = m := by
      intro m hm
      rw [pyGet_nat, perIdx_lt hm]
    unfold quadRow1 slope
    simp only [and_true, Bool.false_eq_true, if_false]
    by_cases h1 : i + 1 = xs.length
    · rw [if_pos (by omega), if_pos h1]
      simp only [List.map_cons, List.map_nil, List.sum_cons, List.sum_nil]
      rw [show (i : Int) - 2 = ((i - 2 : Nat) : Int) by omega,
        show (i : Int) - 1 = ((i - 1 : Nat) : Int) by omega,
        show ((i : Int) + -2).toNat = i - 2 by omega, show ((i : Int) + -1).toNat = i - 1 by omega,
        show ((i : Int) + 0).toNat = i by omega, hG _ hi, hG _ (by omega), hG _ (by omega)]
      exact weights_max (hinc.ne (by omega) (by omega)) (hinc.ne (by omega) (by omega))
        (hinc.ne (by omega) (by omega)) _ _ _
    · rw [if_neg (by omega), if_neg h1]
      by_cases h0 : i = 0
      · subst h0
        simp only [List.map_cons, List.map_nil, List.sum_cons, List.sum_nil, if_true, Nat.cast_zero,
          Int.zero_add]
        rw [show (0 : Int) = ((0 : Nat) : Int) by rfl, show (1 : Int) = ((1 : Nat) : Int) by rfl,
          show (2 : Int) = ((2 : Nat) : Int) by rfl, hG _ (by omega), hG _ (by omega),
          hG _ (by omega)]
        exact weights_min (hinc.ne (by omega) (by omega)) (hinc.ne (by omega) (by omega))
          (hinc.ne (by omega) (by omega)) _ _ _
      · rw [if_neg (by omega), if_neg h0]
        simp only [List.map_cons, List.map_nil, List.sum_cons, List.sum_nil, Int.add_zero]
        rw [show (i : Int) - 1 = ((i - 1 : Nat) : Int) by omega,
          show (i : Int) + 1 = ((i + 1 : Nat) : Int) by omega,
          show (i : Int) + -1 = ((i - 1 : Nat) : Int) by omega, hG _ hi, hG _ (by omega),
          hG _ (by omega), hI _ hi, hI _ (by omega), hI _ (by omega)]
        exact weights_mid (hinc.ne (by omega) (by omega)) (hinc.ne (by omega) (by omega))
          (hinc.ne (by omega) (by omega)) _ _ _

theorem quadRow_x {x : List K} {len : Nat} {per : Bool} {nx ny i j : Nat} (hi : i < nx) (hj : j < ny) :
    quadRow x len per .x nx ny i j = quadRow1 x len per i (i + nx * j)
      (fun d => (i + d : Int).toNat + nx * j) (fun d => pyGet 0 (perIdx nx) (i + d) + nx * j) := by
  have hJ : pyGet 0 (perIdx ny) (j : Int) = j := by rw [pyGet_nat, perIdx_lt hj]
  unfold quadRow quadRow1
  simp only [hJ]

theorem quadRow_y {x : List K} {len : Nat} {per : Bool} {nx ny i j : Nat} (hi : i < nx) (hj : j < ny) :
    quadRow x len per .y nx ny i j = quadRow1 x len per j (i + nx * j)
      (fun d => i + nx * (j + d : Int).toNat) (fun d => i + nx * pyGet 0 (perIdx ny) (j + d)) := by
  have hI : pyGet 0 (perIdx nx) (i : Int) = i := by rw [pyGet_nat, perIdx_lt hi]
  unfold quadRow quadRow1
  simp only [hI]

theorem quadRow1_row {x : List K} {len : Nat} {per : Bool} {i row : Nat} {col pcol : Int → Nat} :
    ∀ t ∈ quadRow1 x len per i row col pcol, t.1 = row := by
  intro t ht
  simp only [quadRow1] at ht
  split at ht
  · simp only [List.mem_cons, List.not_mem_nil, or_false] at ht
    rcases ht with rfl | rfl | rfl <;> rfl
  · split at ht
    · simp only [List.mem_cons, List.not_mem_nil, or_false] at ht
      rcases ht with rfl | rfl | rfl <;> rfl
    · simp only [List.mem_cons, List.not_mem_nil, or_false] at ht
      rcases ht with rfl | rfl | rfl <;> rfl

theorem perIdx_bound {n i : Nat} (hi : i < n) (d : Int) (hd : d = -1 ∨ d = 0 ∨ d = 1) :
    pyGet 0 (perIdx n) (i + d) < n := by
  rcases hd with rfl | rfl | rfl
  · by_cases h : i = 0
    · subst h
      have := pyGet_neg 0 (perIdx n) 1 (by omega)
      simp only [Nat.cast_one] at this
      rw [show ((0 : Nat) : Int) + -1 = -1 by simp, this, perIdx_len,
          show n + 2 - 1 = n + 1 by omega, perIdx_before]
      omega
    · rw [show (i : Int) + -1 = ((i - 1 : Nat) : Int) by omega, pyGet_nat, perIdx_lt (by omega)]
      omega
  · rw [Int.add_zero, pyGet_nat, perIdx_lt hi]; exact hi
  · rw [show (i : Int) + 1 = ((i + 1 : Nat) : Int) by omega, pyGet_nat]
    by_cases h : i + 1 = n
    · rw [h, perIdx_end]; omega
    · rw [perIdx_lt (by omega)]; omega

theorem quadRow1_col {x : List K} {len : Nat} {per : Bool} {i row c : Nat} {C : Nat → Nat}
    (hi : i < len) (hlen : per = false → 3 ≤ len) (hC : ∀ m < len, C m < c) :
    ∀ t ∈ quadRow1 x len per i row (fun d => C (i + d : Int).toNat)
        (fun d => C (pyGet 0 (perIdx len) (i + d))), t.2.1 < c := by
  intro t ht
  simp only [quadRow1] at ht
  split at ht
  · rename_i h
    have := hlen h.2
    simp only [List.mem_cons, List.not_mem_nil, or_false] at ht
    rcases ht with rfl | rfl | rfl <;> exact hC _ (by omega)
  · rename_i h'
    split at ht
    · rename_i h
      have := hlen h.2
      simp only [List.mem_cons, List.not_mem_nil, or_false] at ht
      rcases ht with rfl | rfl | rfl <;> exact hC _ (by omega)
    · simp only [List.mem_cons, List.not_mem_nil, or_false] at ht
      rcases ht with rfl | rfl | rfl <;> exact hC _ (perIdx_bound hi _ (by simp))

/-- The axis has enough points for three-point slopes. -/
def Enough (per : Bool) (n : Nat) : Prop := if per then 2 ≤ n else 3 ≤ n

theorem Enough.pos {per : Bool} {n : Nat} (h : Enough per n) : 0 < freeLen per n := by
  unfold Enough at h; unfold freeLen
  cases per <;> simp at h ⊢ <;> omega

theorem Enough.two {per : Bool} {n : Nat} (h : Enough per n) : 2 ≤ n := by
  unfold Enough at h
  cases per <;> simp at h <;> omega

theorem makeDmatrixQuad_x {xs ys : List K} {per : Bool × Bool} (hx : Increasing xs)
    (hnx : Enough per.1 xs.length) (hny : Enough per.2 ys.length) :
    ∃ D : SpMat K, makeDmatrixQuad xs ys .x per = .ok D ∧
      D.rows = freeLen per.1 xs.length * freeLen per.2 ys.length ∧ D.cols = D.rows ∧
      ∀ v i j, i < freeLen per.1 xs.length → j < freeLen per.2 ys.length →
        D.mulVec v (i + freeLen per.1 xs.length * j)
          = slope per.1 xs (fun m => v (m + freeLen per.1 xs.length * j)) i := by
  obtain ⟨px, py⟩ := per
  simp only [] at hnx hny ⊢
  refine ⟨_, if_neg ?_, rfl, rfl, fun v i j hi hj => ?_⟩
  · have h1 := hnx.two
    have h2 := hny.two
    rintro (h | h | h)
    · omega
    · omega
    · obtain ⟨h3, h4⟩ := h
      change px = false at h3
      subst h3
      simp only [Enough, freeLen, Bool.false_eq_true, if_false] at hnx h4
      omega
  · rw [coo_rowSum]
    · rw [rowSum_grid _ _ (fun i j => quadRow (perCoords px xs) (freeLen px xs.length) px .x
        (freeLen px xs.length) (freeLen py ys.length) i j) _ v hi hj]
      · rw [quadRow_x hi hj]
        exact quadRow1_sum hx hnx hi (fun m => m + freeLen px xs.length * j) v
      · intro i j hi hj
        rw [quadRow_x hi hj]
        exact quadRow1_row
    · intro t ht
      simp only [List.mem_flatMap, List.mem_range] at ht
      obtain ⟨i, hi, j, hj, ht⟩ := ht
      rw [quadRow_x hi hj] at ht
      refine quadRow1_col (C := fun m => m + freeLen px xs.length * j) hi (fun h => ?_)
        (fun m hm => idx_lt hm hj) t ht
      unfold Enough at hnx
      simpa [h, freeLen] using hnx

theorem makeDmatrixQuad_y {xs ys : List K} {per : Bool × Bool} (hy : Increasing ys)
    (hnx : Enough per.1 xs.length) (hny : Enough per.2 ys.length) :
    ∃ D : SpMat K, makeDmatrixQuad xs ys .y per = .ok D ∧
      D.rows = freeLen per.1 xs.length * freeLen per.2 ys.length ∧ D.cols = D.rows ∧
      ∀ v i j, i < freeLen per.1 xs.length → j < freeLen per.2 ys.length →
        D.mulVec v (i + freeLen per.1 xs.length * j)
          = slope per.2 ys (fun m => v (i + freeLen per.1 xs.length * m)) j := by
  obtain ⟨px, py⟩ := per
  simp only [] at hnx hny ⊢
  refine ⟨_, if_neg ?_, rfl, rfl, fun v i j hi hj => ?_⟩
  · have h1 := hnx.two
    have h2 := hny.two
    rintro (h | h | h)
    · omega
    · omega
    · obtain ⟨h3, h4⟩ := h
      change py = false at h3
      subst h3
      simp only [Enough, freeLen, Bool.false_eq_true, if_false] at hny h4
      omega
  · rw [coo_rowSum]
    · rw [rowSum_grid _ _ (fun i j => quadRow (perCoords py ys) (freeLen py ys.length) py .y
        (freeLen px xs.length) (freeLen py ys.length) i j) _ v hi hj]
      · rw [quadRow_y hi hj]
        exact quadRow1_sum hy hny hj (fun m => i + freeLen px xs.length * m) v
      · intro i j hi hj
        rw [quadRow_y hi hj]
        exact quadRow1_row
    · intro t ht
      simp only [List.mem_flatMap, List.mem_range] at ht
      obtain ⟨i, hi, j, hj, ht⟩ := ht
      rw [quadRow_y hi hj] at ht
      refine quadRow1_col (C := fun m => i + freeLen px xs.length * m) hj (fun h => ?_)
        (fun m hm => idx_lt hi hm) t ht
      unfold Enough at hny
      simpa [h, freeLen] using hny

end Verif.Cubic
