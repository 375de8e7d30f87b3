import Verif.Schema.Arrays
import Mathlib.Algebra.BigOperators.Group.List.Basic
import Mathlib.Data.List.GetD
import Mathlib.Tactic.Linarith
/-
Property C108: arrays and complex numbers in saved plans.
-/
namespace Verif.Schema.Arrays

variable {α : Type}

/-! ### Specification -/

/-- An array has as many entries as its shape says. -/
def Arr.Valid (a : Arr α) : Prop := a.data.length = a.shape.prod

/-- The shape up to its first axis of length zero. -/
def cut : List Nat → List Nat
  | [] => []
  | 0 :: _ => [0]
  | (n + 1) :: s => (n + 1) :: cut s

/-! ### Lemmas -/

theorem shapesOf_map {ι : Type} (l : List ι) (f : ι → Nested α) (s : List Nat) (h : ∀ i ∈ l, shapeOf (f i) = some s) :
    shapesOf (l.map f) = some (List.replicate l.length s) := by
  induction l with
  | nil => rfl
  | cons a l ih =>
    simp only [List.map_cons, shapesOf]
    rw [h a (by simp), ih fun i hi => h i (by simp [hi])]
    rfl

theorem flats_map {ι : Type} (l : List ι) (f : ι → Nested α) : flats (l.map f) = l.flatMap fun i => flat (f i) := by
  induction l with
  | nil => rfl
  | cons a l ih => simp [flats, ih]

theorem blocks (n p : Nat) (d : List α) (h : d.length = n * p) :
    ((List.range n).flatMap fun i => (d.drop (i * p)).take p) = d := by
  induction n generalizing d with
  | zero => simp at h; simp [h]
  | succ n ih =>
    have hd : (d.drop p).length = n * p := by rw [List.length_drop, h, Nat.succ_mul]; omega
    rw [List.range_succ_eq_map, List.flatMap_cons, List.flatMap_map]
    have := ih (d.drop p) hd
    simp only [List.drop_drop] at this
    rw [Nat.zero_mul, List.drop_zero]
    have e : ((List.range n).flatMap fun i => (d.drop ((i + 1) * p)).take p) = d.drop p := by
      rw [← this]
      congr 1
      funext i
      rw [Nat.succ_mul, Nat.add_comm p]
    simp only [Nat.succ_eq_add_one]
    rw [e, List.take_append_drop]

theorem block_length (n p i : Nat) (d : List α) (h : d.length = n * p) (hi : i < n) : ((d.drop (i * p)).take p).length = p := by
  rw [List.length_take, List.length_drop, h]
  have : (i + 1) * p ≤ n * p := Nat.mul_le_mul_right p hi
  rw [Nat.succ_mul] at this
  omega

theorem shapeOf_tolist [Inhabited α] (s : List Nat) (d : List α) : shapeOf (tolist s d) = some (cut s) := by
  induction s generalizing d with
  | nil => rfl
  | cons n s ih =>
    rw [tolist, shapeOf, shapesOf_map _ _ (cut s) fun i _ => ih _]
    cases n with
    | zero => rfl
    | succ n =>
      simp only [List.length_range, List.replicate_succ, List.length_replicate]
      rw [if_pos]
      · rfl
      · simp

theorem flat_tolist [Inhabited α] (s : List Nat) (d : List α) (h : d.length = s.prod) : flat (tolist s d) = d := by
  induction s generalizing d with
  | nil =>
    obtain ⟨x, rfl⟩ := List.length_eq_one_iff.1 h
    rfl
  | cons n s ih =>
    rw [List.prod_cons] at h
    rw [tolist, flat, flats_map]
    conv_rhs => rw [← blocks n s.prod d h]
    refine List.flatMap_congr ?_
    intro i hi
    exact ih _ (block_length n s.prod i d h (List.mem_range.1 hi))

theorem cut_eq_self (s : List Nat) : cut s = s ↔ 0 ∉ s.dropLast := by
  induction s with
  | nil => simp [cut]
  | cons n s ih =>
    cases n with
    | zero =>
      cases s with
      | nil => simp [cut]
      | cons m s => simp [cut]
    | succ n =>
      cases s with
      | nil => simp [cut]
      | cons m s =>
        rw [cut, List.dropLast_cons_cons]
        simp only [List.cons.injEq, true_and, List.mem_cons, not_or]
        rw [ih]
        simp

/-! ### C108 -/

/-- C108: an array that is saved and loaded has the same entries in the same order, and the shape up to its first axis of length
zero. -/
theorem array_round_trip [Inhabited α] (a : Arr α) (h : a.Valid) : asarray (tolist a.shape a.data) = some ⟨cut a.shape, a.data⟩ := by
  rw [asarray, shapeOf_tolist, flat_tolist _ _ h]; rfl

/-- C108 (partial): an array whose axes, except possibly for the last one, are not of length zero is the same after saving and
loading, whether real or complex. Missing: other arrays without entries, see `array_shape_false`. -/
theorem value_round_trip_partial (v : Value)
    (h : match v with
      | .real a => a.Valid ∧ 0 ∉ a.shape.dropLast
      | .complex a => a.Valid ∧ 0 ∉ a.shape.dropLast) : toNative (toPrimitive v) = some v := by
  cases v with
  | real a =>
    simp only [toPrimitive, toNative]
    rw [array_round_trip a h.1, (cut_eq_self _).2 h.2]; rfl
  | complex a =>
    have h1 := array_round_trip (⟨a.shape, a.data.map Complex.re⟩ : Arr ℝ) (by simpa [Arr.Valid] using h.1)
    have h2 := array_round_trip (⟨a.shape, a.data.map Complex.im⟩ : Arr ℝ) (by simpa [Arr.Valid] using h.1)
    simp only at h1 h2
    simp only [toPrimitive, toNative, h1, h2, if_true, (cut_eq_self _).2 h.2]
    congr 2
    cases a with
    | mk s d =>
      simp only [Arr.mk.injEq, true_and, List.zipWith_map]
      induction d with
      | nil => rfl
      | cons z d _ =>
        have : ∀ l : List ℂ, List.zipWith (fun x y : ℂ => (x.re : ℂ) + Complex.I * (y.im : ℂ)) l l = l := by
          intro l
          induction l with
          | nil => rfl
          | cons w l ih => simp only [List.zipWith_cons_cons, ih]; rw [mul_comm, Complex.re_add_im]
        exact this _

/-- C108 (refuted): an array of shape (0, 3) is loaded with the shape (0). -/
theorem array_shape_false : toNative (toPrimitive (.real ⟨[0, 3], []⟩)) = some (.real ⟨[0], []⟩) := by
  simp [toPrimitive, toNative, array_round_trip (⟨[0, 3], []⟩ : Arr ℝ) rfl, cut]

theorem all_eq_replicate {β : Type} [DecidableEq β] (l : List β) (s : β) (h : (l.all fun t => decide (t = s)) = true) :
    l = List.replicate l.length s := by
  rw [List.eq_replicate_iff]
  exact ⟨rfl, fun t ht => by simpa using List.all_eq_true.1 h t ht⟩

mutual
/-- Nested lists that `np.array` accepts are what `tolist` gives for the array. -/
theorem tolist_of_asarray [Inhabited α] : ∀ (j : Nested α) (s : List Nat), shapeOf j = some s →
    tolist s (flat j) = j ∧ (flat j).length = s.prod
  | .leaf x, s, h => by
    simp only [shapeOf, Option.some.injEq] at h
    subst h
    exact ⟨rfl, rfl⟩
  | .list l, s, h => by
    rw [shapeOf] at h
    split at h
    · cases h
    · next hs =>
      simp only [Option.some.injEq] at h
      subst h
      cases l with
      | nil => exact ⟨rfl, rfl⟩
      | cons x xs =>
        simp only [shapesOf] at hs
        split at hs <;> simp at hs
    · next t ts hs =>
      split at h
      · next hall =>
        simp only [Option.some.injEq] at h
        subst h
        have hrep := all_eq_replicate ts t hall
        have hs' : shapesOf l = some (List.replicate (ts.length + 1) t) := by rw [hs, List.replicate_succ, ← hrep]
        obtain ⟨h1, h2⟩ := tolist_of_lists l t (ts.length + 1) hs'
        refine ⟨?_, by rw [flat, h2, List.prod_cons]⟩
        rw [tolist, flat, h1]
      · cases h
theorem tolist_of_lists [Inhabited α] : ∀ (l : List (Nested α)) (s : List Nat) (n : Nat), shapesOf l = some (List.replicate n s) →
    ((List.range n).map fun i => tolist s (((flats l).drop (i * s.prod)).take s.prod)) = l ∧ (flats l).length = n * s.prod
  | [], s, n, h => by
    simp only [shapesOf, Option.some.injEq] at h
    cases n with
    | zero => simp [flats]
    | succ n => simp [List.replicate_succ] at h
  | x :: xs, s, n, h => by
    simp only [shapesOf] at h
    split at h
    · next s' ss hx hxs =>
      cases n with
      | zero => simp at h
      | succ n =>
        simp only [Option.some.injEq, List.replicate_succ, List.cons.injEq] at h
        obtain ⟨rfl, rfl⟩ := h
        obtain ⟨a1, a2⟩ := tolist_of_asarray x s' hx
        obtain ⟨b1, b2⟩ := tolist_of_lists xs s' n hxs
        refine ⟨?_, by rw [flats, List.length_append, a2, b2, Nat.succ_mul]; omega⟩
        rw [List.range_succ_eq_map, List.map_cons, List.map_map, flats]
        congr 1
        · rw [Nat.zero_mul, List.drop_zero, List.take_left' a2, a1]
        · refine Eq.trans (List.map_congr_left ?_) b1
          intro i _
          simp only [Function.comp_apply, Nat.succ_eq_add_one]
          rw [Nat.succ_mul, Nat.add_comm, ← a2, ← List.drop_drop, List.drop_left]
    · cases h
end

/-- C108: nested lists that are read from a file as an array are written as the same nested lists again, and everything that is
read has as many entries as its shape says. -/
theorem array_saved_again [Inhabited α] (j : Nested α) (a : Arr α) (h : asarray j = some a) :
    tolist a.shape a.data = j ∧ a.Valid := by
  simp only [asarray, Option.map_eq_some_iff] at h
  obtain ⟨s, hs, rfl⟩ := h
  exact tolist_of_asarray j s hs

/-- C108: complex numbers are the same after saving and loading. -/
theorem complex_round_trip (z : ℂ) : complexToNative (complexToPrimitive z) = some z := by
  simp only [complexToPrimitive, complexToNative]
  rw [mul_comm, Complex.re_add_im]

/-- C108: lists that are not of length two are not accepted as complex numbers. -/
theorem complex_rejects (l : List ℝ) (h : l.length ≠ 2) : complexToNative l = none := by
  match l, h with
  | [], _ => rfl
  | [_], _ => rfl
  | [_, _], h => exact absurd rfl h
  | _ :: _ :: _ :: _, _ => rfl

/-- C108: a list of two is accepted and written as it was. -/
theorem complex_saved_again (a b : ℝ) : (complexToNative [a, b]).map complexToPrimitive = some [a, b] := by
  simp [complexToNative, complexToPrimitive]

/-! ### The hypotheses are met -/

/-- A complex array of shape (2, 2, 0) and one of shape (1, 2). -/
example : (⟨[2, 2, 0], []⟩ : Arr ℂ).Valid ∧ 0 ∉ [2, 2, 0].dropLast ∧ (⟨[1, 2], [1, Complex.I]⟩ : Arr ℂ).Valid := by
  refine ⟨rfl, by decide, rfl⟩

/-- Two lists of the same length are accepted, lists of different lengths are not. -/
example : (asarray (.list [.list [.leaf 1, .leaf 2], .list [.leaf (3 : Nat), .leaf 4]])) = some ⟨[2, 2], [1, 2, 3, 4]⟩ ∧
    (asarray (.list [.list [.leaf 1, .leaf 2], .list [.leaf (3 : Nat)]])) = none := by
  constructor <;> rfl

end Verif.Schema.Arrays
