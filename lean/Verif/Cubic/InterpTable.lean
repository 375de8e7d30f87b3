import Verif.Cubic.InterpLemmas

/-!
# Lemmas: the table of `MakeAcubic`, row by row
-/

set_option linter.unusedVariables false
set_option linter.unusedSectionVars false
set_option linter.unusedSimpArgs false

namespace Verif.Cubic

open Finset

variable {K : Type*} [Field K]

theorem aRow0 (g : Nat → K) :
    ∑ c ∈ range 16, (((aSingle.getD 0 []).getD c 0 : Int) : K) * g c =
      (1) * g 0 := by
  simp [Finset.sum_range_succ, aSingle]

theorem aRow1 (g : Nat → K) :
    ∑ c ∈ range 16, (((aSingle.getD 1 []).getD c 0 : Int) : K) * g c =
      (1) * g 4 := by
  simp [Finset.sum_range_succ, aSingle]

theorem aRow2 (g : Nat → K) :
    ∑ c ∈ range 16, (((aSingle.getD 2 []).getD c 0 : Int) : K) * g c =
      (-3) * g 0 + (3) * g 1 + (-2) * g 4 + (-1) * g 5 := by
  simp [Finset.sum_range_succ, aSingle]

theorem aRow3 (g : Nat → K) :
    ∑ c ∈ range 16, (((aSingle.getD 3 []).getD c 0 : Int) : K) * g c =
      (2) * g 0 + (-2) * g 1 + (1) * g 4 + (1) * g 5 := by
  simp [Finset.sum_range_succ, aSingle]

theorem aRow4 (g : Nat → K) :
    ∑ c ∈ range 16, (((aSingle.getD 4 []).getD c 0 : Int) : K) * g c =
      (1) * g 8 := by
  simp [Finset.sum_range_succ, aSingle]

theorem aRow5 (g : Nat → K) :
    ∑ c ∈ range 16, (((aSingle.getD 5 []).getD c 0 : Int) : K) * g c =
      (1) * g 12 := by
  simp [Finset.sum_range_succ, aSingle]

theorem aRow6 (g : Nat → K) :
    ∑ c ∈ range 16, (((aSingle.getD 6 []).getD c 0 : Int) : K) * g c =
      (-3) * g 8 + (3) * g 9 + (-2) * g 12 + (-1) * g 13 := by
  simp [Finset.sum_range_succ, aSingle]

theorem aRow7 (g : Nat → K) :
    ∑ c ∈ range 16, (((aSingle.getD 7 []).getD c 0 : Int) : K) * g c =
      (2) * g 8 + (-2) * g 9 + (1) * g 12 + (1) * g 13 := by
  simp [Finset.sum_range_succ, aSingle]

theorem aRow8 (g : Nat → K) :
    ∑ c ∈ range 16, (((aSingle.getD 8 []).getD c 0 : Int) : K) * g c =
      (-3) * g 0 + (3) * g 2 + (-2) * g 8 + (-1) * g 10 := by
  simp [Finset.sum_range_succ, aSingle]

theorem aRow9 (g : Nat → K) :
    ∑ c ∈ range 16, (((aSingle.getD 9 []).getD c 0 : Int) : K) * g c =
      (-3) * g 4 + (3) * g 6 + (-2) * g 12 + (-1) * g 14 := by
  simp [Finset.sum_range_succ, aSingle]

theorem aRow10 (g : Nat → K) :
    ∑ c ∈ range 16, (((aSingle.getD 10 []).getD c 0 : Int) : K) * g c =
      (9) * g 0 + (-9) * g 1 + (-9) * g 2 + (9) * g 3 + (6) * g 4 + (3) * g 5 + (-6) * g 6 + (-3) * g 7 + (6) * g 8 + (-6) * g 9 + (3) * g 10 + (-3) * g 11 + (4) * g 12 + (2) * g 13 + (2) * g 14 + (1) * g 15 := by
  simp [Finset.sum_range_succ, aSingle]

theorem aRow11 (g : Nat → K) :
    ∑ c ∈ range 16, (((aSingle.getD 11 []).getD c 0 : Int) : K) * g c =
      (-6) * g 0 + (6) * g 1 + (6) * g 2 + (-6) * g 3 + (-3) * g 4 + (-3) * g 5 + (3) * g 6 + (3) * g 7 + (-4) * g 8 + (4) * g 9 + (-2) * g 10 + (2) * g 11 + (-2) * g 12 + (-2) * g 13 + (-1) * g 14 + (-1) * g 15 := by
  simp [Finset.sum_range_succ, aSingle]

theorem aRow12 (g : Nat → K) :
    ∑ c ∈ range 16, (((aSingle.getD 12 []).getD c 0 : Int) : K) * g c =
      (2) * g 0 + (-2) * g 2 + (1) * g 8 + (1) * g 10 := by
  simp [Finset.sum_range_succ, aSingle]

theorem aRow13 (g : Nat → K) :
    ∑ c ∈ range 16, (((aSingle.getD 13 []).getD c 0 : Int) : K) * g c =
      (2) * g 4 + (-2) * g 6 + (1) * g 12 + (1) * g 14 := by
  simp [Finset.sum_range_succ, aSingle]

theorem aRow14 (g : Nat → K) :
    ∑ c ∈ range 16, (((aSingle.getD 14 []).getD c 0 : Int) : K) * g c =
      (-6) * g 0 + (6) * g 1 + (6) * g 2 + (-6) * g 3 + (-4) * g 4 + (-2) * g 5 + (4) * g 6 + (2) * g 7 + (-3) * g 8 + (3) * g 9 + (-3) * g 10 + (3) * g 11 + (-2) * g 12 + (-1) * g 13 + (-2) * g 14 + (-1) * g 15 := by
  simp [Finset.sum_range_succ, aSingle]

theorem aRow15 (g : Nat → K) :
    ∑ c ∈ range 16, (((aSingle.getD 15 []).getD c 0 : Int) : K) * g c =
      (4) * g 0 + (-4) * g 1 + (-4) * g 2 + (4) * g 3 + (2) * g 4 + (2) * g 5 + (-2) * g 6 + (-2) * g 7 + (2) * g 8 + (-2) * g 9 + (2) * g 10 + (-2) * g 11 + (1) * g 12 + (1) * g 13 + (1) * g 14 + (1) * g 15 := by
  simp [Finset.sum_range_succ, aSingle]

end Verif.Cubic
