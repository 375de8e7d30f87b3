import Verif.Fdfd.Mirror
import Verif.Fdfd.Cells
/-
Property C46: shifts with mirrored continuation.
-/
namespace Verif.Fdfd
open Matrix

/-! ### Specification -/

/-- Continuation of `0, ..., n - 1` by reflection at both ends, period `2 n`: `..., 1, 0, 0, 1, ..., n-1, n-1, n-2, ...`. -/
def reflect (n : Nat) (x : Int) : Nat :=
  let m := x % (2 * n)
  if m < n then m.toNat else (2 * n - 1 - m).toNat

/-- Flat position of a cell given by its indices. -/
def at_ (s : List Nat) (idx : List Nat) (h : Inside s idx) : Fin (numel s) := ⟨ravelF s idx, ravelF_lt s idx h⟩

/-! ### Lemmas -/

theorem mirroredRange_eq (n : Nat) (s : Int) (i : Nat) (hi : i < n) (h1 : -(n : Int) ≤ s) (h2 : s < n) :
    mirroredRange n s i = reflect n (i + s) := by
  have hr : (reflect n (i + s) : Int) =
      if ((i : Int) + s) % (2 * n) < n then ((i : Int) + s) % (2 * n) else 2 * n - 1 - ((i : Int) + s) % (2 * n) := by
    have a := Int.emod_nonneg ((i : Int) + s) (b := 2 * (n : Int)) (by omega)
    have b := Int.emod_lt_of_pos ((i : Int) + s) (b := 2 * (n : Int)) (by omega)
    unfold reflect
    dsimp only
    split
    · rw [Int.toNat_of_nonneg a]
    · rw [Int.toNat_of_nonneg (by omega)]
  rw [hr]
  unfold mirroredRange
  dsimp only
  rcases Int.lt_or_le ((i : Int) + s) 0 with h | h
  · have e : ((i : Int) + s) % (2 * n) = i + s + 2 * n := by
      rw [← Int.add_emod_right, Int.emod_eq_of_lt (by omega) (by omega)]
    rw [e]
    split_ifs <;> omega
  · rw [Int.emod_eq_of_lt h (by omega)]
    rcases Int.lt_or_le ((i : Int) + s) n with h' | h'
    · rw [if_neg (by omega), if_neg (by omega), if_pos h']
    · rw [if_pos h', if_neg (by omega), if_neg (by omega)]
      omega

theorem mirroredRange_zero (n : Nat) (i : Nat) (hi : i < n) : mirroredRange n 0 i = i := by
  unfold mirroredRange
  dsimp only
  rw [if_neg (by omega), if_neg (by omega)]
  omega

theorem reflect_lt (n : Nat) (x : Int) (hn : 0 < n) : reflect n x < n := by
  have a := Int.emod_nonneg x (b := 2 * (n : Int)) (by omega)
  have b := Int.emod_lt_of_pos x (b := 2 * (n : Int)) (by omega)
  unfold reflect
  dsimp only
  split <;> omega

theorem mirrorIdx_eq (axis : Nat) (s : Int) (shape idx : List Nat) (hl : shape.length = 2 ∨ shape.length = 3)
    (ha : axis < shape.length) (hi : Inside shape idx) (h1 : -((shape.getD axis 0 : Nat) : Int) ≤ s)
    (h2 : s < (shape.getD axis 0 : Nat)) :
    mirrorIdx axis s shape idx = idx.set axis (reflect (shape.getD axis 0) ((idx.getD axis 0 : Nat) + s)) := by
  have key : ∀ (n i : Nat), i < n → -(n : Int) ≤ s → s < n → (mirroredRange n s i).toNat = reflect n (i + s) := by
    intro n i hi a b
    rw [mirroredRange_eq n s i hi a b]; rfl
  have key0 : ∀ (n i : Nat), i < n → (mirroredRange n 0 i).toNat = i := by
    intro n i hi
    rw [mirroredRange_zero n i hi]; rfl
  have hr : (List.range 3).map (fun a => if a = axis then s else 0) =
      [if 0 = axis then s else 0, if 1 = axis then s else 0, if 2 = axis then s else 0] := rfl
  unfold mirrorIdx
  rw [hr]
  cases hi with
  | nil => simp at hl
  | cons a0 t0 =>
    cases t0 with
    | nil => simp at hl
    | cons a1 t1 =>
      cases t1 with
      | nil =>
        match axis, ha with
        | 0, _ =>
          simp only [List.getD_cons_zero] at h1 h2 ⊢
          simp [key _ _ a0 h1 h2, key0 _ _ a1]
        | 1, _ =>
          simp only [List.getD_cons_zero, List.getD_cons_succ] at h1 h2 ⊢
          simp [key _ _ a1 h1 h2, key0 _ _ a0]
        | k + 2, ha => simp at ha
      | cons a2 t2 =>
        cases t2 with
        | cons a3 t3 => simp at hl
        | nil =>
          match axis, ha with
          | 0, _ =>
            simp only [List.getD_cons_zero] at h1 h2 ⊢
            simp [key _ _ a0 h1 h2, key0 _ _ a1, key0 _ _ a2]
          | 1, _ =>
            simp only [List.getD_cons_zero, List.getD_cons_succ] at h1 h2 ⊢
            simp [key _ _ a1 h1 h2, key0 _ _ a0, key0 _ _ a2]
          | 2, _ =>
            simp only [List.getD_cons_zero, List.getD_cons_succ] at h1 h2 ⊢
            simp [key _ _ a2 h1 h2, key0 _ _ a0, key0 _ _ a1]
          | k + 3, ha => simp at ha

theorem inside_set {s idx : List Nat} (h : Inside s idx) (a : Nat) (x : Nat) (hx : a < s.length → x < s.getD a 0) :
    Inside s (idx.set a x) := by
  induction h generalizing a with
  | nil => exact .nil
  | cons h0 ht ih =>
    cases a with
    | zero => exact .cons (by simpa using hx (by simp)) ht
    | succ a => exact .cons h0 (ih a (fun hl => by simpa using hx (by simpa using hl)))

theorem mirror_inside (axis : Nat) (s : Int) (shape idx : List Nat) (hl : shape.length = 2 ∨ shape.length = 3)
    (ha : axis < shape.length) (hi : Inside shape idx) (h1 : -((shape.getD axis 0 : Nat) : Int) ≤ s)
    (h2 : s < (shape.getD axis 0 : Nat)) : Inside shape (mirrorIdx axis s shape idx) := by
  rw [mirrorIdx_eq axis s shape idx hl ha hi h1 h2]
  exact inside_set hi axis _ (fun _ => reflect_lt _ _ (by omega))

theorem shiftWithMirror_eq (axis : Nat) (shape : List Nat) (s : Int) (hl : shape.length = 2 ∨ shape.length = 3)
    (ha : axis < shape.length) (h1 : -((shape.getD axis 0 : Nat) : Int) ≤ s) (h2 : s < (shape.getD axis 0 : Nat)) :
    shiftWithMirror axis shape s = some (csr (numel shape)
      ((idxF shape).map fun c => (1, ravelF shape c, ravelF shape (mirrorIdx axis s shape c)))) := by
  unfold shiftWithMirror
  rw [if_neg (by omega), if_neg (by omega), if_neg (by omega), if_neg]
  intro h
  obtain ⟨c, hc, hd⟩ := List.any_eq_true.1 h
  have := ravelF_lt shape _ (mirror_inside axis s shape c hl ha ((mem_idxF shape c).1 hc) h1 h2)
  have hd := of_decide_eq_true hd
  omega

/-! ### Theorems -/

/-- C46: the function accepts exactly the distances `-n ≤ s < n` along an existing axis of a two- or three-dimensional
grid of `n` cells along the axis. -/
theorem mirror_defined (axis : Nat) (shape : List Nat) (s : Int) (hpos : ∀ n ∈ shape, 0 < n) :
    (shiftWithMirror axis shape s).isSome ↔ (shape.length = 2 ∨ shape.length = 3) ∧ axis < shape.length ∧
      -((shape.getD axis 0 : Nat) : Int) ≤ s ∧ s < (shape.getD axis 0 : Nat) := by
  constructor
  · intro h
    have hl : shape.length = 2 ∨ shape.length = 3 := by
      apply Classical.byContradiction
      intro hn
      rw [shiftWithMirror, if_pos (by omega)] at h
      cases h
    have ha : axis < shape.length := by
      apply Classical.byContradiction
      intro hn
      rw [shiftWithMirror, if_neg (by omega), if_pos (by omega)] at h
      cases h
    have h2 : s < (shape.getD axis 0 : Nat) := by
      apply Classical.byContradiction
      intro hn
      rw [shiftWithMirror, if_neg (by omega), if_neg (by omega), if_pos (by omega)] at h
      cases h
    refine ⟨hl, ha, ?_, h2⟩
    apply Classical.byContradiction
    intro hn
    rw [shiftWithMirror, if_neg (by omega), if_neg (by omega), if_neg (by omega), if_pos] at h
    · cases h
    · -- the cell at the low end of the axis and the high end of the others leads outside
      have hm : ∀ n : Nat, 0 < n → s < -(n : Int) → n ≤ (mirroredRange n s 0).toNat := by
        intro n h0 hs
        unfold mirroredRange
        dsimp only
        split_ifs <;> omega
      have hr : (List.range 3).map (fun a => if a = axis then s else 0) =
          [if 0 = axis then s else 0, if 1 = axis then s else 0, if 2 = axis then s else 0] := rfl
      have key0 : ∀ (n i : Nat), i < n → (mirroredRange n 0 i).toNat = i := by
        intro n i hi
        rw [mirroredRange_zero n i hi]; rfl
      have big : ∀ n m q : Nat, 0 < m → n ≤ q → n * m ≤ q + n * (m - 1) := by
        intro n m q hm hq
        obtain ⟨m', rfl⟩ : ∃ m', m = m' + 1 := ⟨m - 1, by omega⟩
        rw [Nat.mul_add, Nat.add_sub_cancel]; omega
      have mono : ∀ n q m : Nat, 0 < n → q ≥ m → n * m ≤ (n - 1) + n * q := by
        intro n q m _ h
        have := Nat.mul_le_mul_left n h
        omega
      rw [List.any_eq_true]
      refine ⟨(shape.map (· - 1)).set axis 0, (mem_idxF _ _).2 ?_, ?_⟩
      · refine inside_set ?_ axis 0 (fun h => ?_)
        · clear hl ha h2 hn h
          induction shape with
          | nil => exact .nil
          | cons n t ih =>
            have := hpos n (by simp)
            exact .cons (show n - 1 < n by omega) (ih fun m hm => hpos m (by simp [hm]))
        · rw [List.getD_eq_getElem?_getD, List.getElem?_eq_getElem ha]
          exact hpos _ (List.getElem_mem _)
      · apply decide_eq_true
        unfold mirrorIdx
        rw [hr]
        match shape, hl with
        | [], hl => simp at hl
        | [_], hl => simp at hl
        | [n0, n1], _ =>
          have p0 := hpos n0 (by simp)
          have p1 := hpos n1 (by simp)
          match axis, ha with
          | 0, _ =>
            have hq := hm n0 p0 (by simpa using hn)
            simp only [List.map_cons, List.map_nil, List.set_cons_zero, List.zip_cons_cons, List.zip_nil_left,
              List.zipWith_cons_cons, List.zipWith_nil_left, ravelF, numel, if_true]
            rw [if_neg (by omega), key0 n1 (n1 - 1) (by omega)]
            simpa using big n0 n1 _ p1 hq
          | 1, _ =>
            have hq := hm n1 p1 (by simpa using hn)
            simp only [List.map_cons, List.map_nil, List.set_cons_zero, List.set_cons_succ, List.zip_cons_cons,
              List.zip_nil_left, List.zipWith_cons_cons, List.zipWith_nil_left, ravelF, numel, if_true]
            rw [if_neg (by omega), key0 n0 (n0 - 1) (by omega)]
            simpa using mono n0 _ n1 p0 hq
          | k + 2, ha => simp at ha
        | [n0, n1, n2], _ =>
          have p0 := hpos n0 (by simp)
          have p1 := hpos n1 (by simp)
          have p2 := hpos n2 (by simp)
          match axis, ha with
          | 0, _ =>
            have hq := hm n0 p0 (by simpa using hn)
            simp only [List.map_cons, List.map_nil, List.set_cons_zero, List.zip_cons_cons, List.zip_nil_left,
              List.zipWith_cons_cons, List.zipWith_nil_left, ravelF, numel, if_true]
            rw [if_neg (by omega), if_neg (by omega), key0 n1 (n1 - 1) (by omega), key0 n2 (n2 - 1) (by omega)]
            have e : n1 - 1 + n1 * (n2 - 1) = n1 * n2 - 1 := by
              obtain ⟨m', rfl⟩ : ∃ m', n2 = m' + 1 := ⟨n2 - 1, by omega⟩
              rw [Nat.mul_add, Nat.add_sub_cancel, Nat.mul_one]; omega
            simp only [Nat.mul_zero, Nat.add_zero, Nat.mul_one]
            rw [e]
            exact big n0 (n1 * n2) _ (Nat.mul_pos p1 p2) hq
          | 1, _ =>
            have hq := hm n1 p1 (by simpa using hn)
            simp only [List.map_cons, List.map_nil, List.set_cons_zero, List.set_cons_succ, List.zip_cons_cons,
              List.zip_nil_left, List.zipWith_cons_cons, List.zipWith_nil_left, ravelF, numel, if_true]
            rw [if_neg (by omega), if_neg (by omega), key0 n0 (n0 - 1) (by omega), key0 n2 (n2 - 1) (by omega)]
            simp only [Nat.mul_zero, Nat.add_zero, Nat.mul_one]
            exact mono n0 _ _ p0 (big n1 n2 _ p2 hq)
          | 2, _ =>
            have hq := hm n2 p2 (by simpa using hn)
            simp only [List.map_cons, List.map_nil, List.set_cons_zero, List.set_cons_succ, List.zip_cons_cons,
              List.zip_nil_left, List.zipWith_cons_cons, List.zipWith_nil_left, ravelF, numel, if_true]
            rw [if_neg (by omega), if_neg (by omega), key0 n0 (n0 - 1) (by omega), key0 n1 (n1 - 1) (by omega)]
            simp only [Nat.mul_zero, Nat.add_zero, Nat.mul_one]
            exact mono n0 _ _ p0 (mono n1 _ _ p1 hq)
          | k + 3, ha => simp at ha
        | _ :: _ :: _ :: _ :: _, hl => simp at hl
  · rintro ⟨hl, ha, h1, h2⟩
    rw [shiftWithMirror_eq axis shape s hl ha h1 h2]; rfl

/-- C46: whenever the function returns, the shifted array holds at every cell the value of the cell at distance `s`
along the axis in the mirrored continuation of the grid. -/
theorem mirror_action (axis : Nat) (shape : List Nat) (s : Int) (hpos : ∀ n ∈ shape, 0 < n) (M : Mat (numel shape))
    (hM : shiftWithMirror axis shape s = some M) (v : Fin (numel shape) → ℂ) (c c' : List Nat) (hc : Inside shape c)
    (hc' : Inside shape c')
    (hcc : c' = c.set axis (reflect (shape.getD axis 0) ((c.getD axis 0 : Nat) + s))) :
    (M *ᵥ v) (at_ shape c hc) = v (at_ shape c' hc') := by
  obtain ⟨hl, ha, h1, h2⟩ := (mirror_defined axis shape s hpos).1 (by rw [hM]; rfl)
  rw [shiftWithMirror_eq axis shape s hl ha h1 h2] at hM
  cases hM
  have hin := fun c hc => mirror_inside axis s shape c hl ha hc h1 h2
  have happ : ∀ j, csr (numel shape) ((idxF shape).map fun c => (1, ravelF shape c, ravelF shape (mirrorIdx axis s shape c)))
      (at_ shape c hc) j = if j = at_ shape c' hc' then 1 else 0 := by
    intro j
    obtain ⟨d, hd, hr⟩ := (ravelF_bijective shape).2.2 j.val j.isLt
    have hj : j = ⟨ravelF shape d, ravelF_lt shape d hd⟩ := Fin.ext hr.symm
    have hcs := csr_apply shape (mirrorIdx axis s shape) (fun _ => 1) hin c d hc hd
    rw [hj]
    refine hcs.trans ?_
    rw [mirrorIdx_eq axis s shape c hl ha hc h1 h2, ← hcc]
    by_cases he : d = c'
    · subst he; rw [if_pos rfl, if_pos]; rfl
    · rw [if_neg he, if_neg]
      intro e
      exact he ((ravelF_bijective shape).2.1 _ _ hd hc' (congrArg Fin.val e))
  rw [Matrix.mulVec, dotProduct]
  simp only [happ, ite_mul, one_mul, zero_mul, Finset.sum_ite_eq', Finset.mem_univ, if_true]

/-- The continuation read off: inside the grid nothing changes, one step outside is the edge cell again. -/
example : (List.map (fun x : Int => reflect 3 x) [-3, -2, -1, 0, 1, 2, 3, 4, 5]) = [2, 1, 0, 0, 1, 2, 2, 1, 0] := by decide

/-- Distances of both signs that are accepted. -/
example : (shiftWithMirror 1 [2, 3] (-3)).isSome ∧ (shiftWithMirror 2 [2, 3, 4] 3).isSome := by
  constructor
  · exact (mirror_defined 1 [2, 3] (-3) (by decide)).2 (by decide)
  · exact (mirror_defined 2 [2, 3, 4] 3 (by decide)).2 (by decide)

end Verif.Fdfd
