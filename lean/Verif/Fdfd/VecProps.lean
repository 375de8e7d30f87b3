import Verif.Fdfd.Vec
import Mathlib.Data.List.Forall2
/-
Property C18: vectorisation of fields.
-/
namespace Verif.Fdfd
variable {α : Type}

/-! ### Specification -/

/-- A multi-index inside the shape. -/
def Inside (s idx : List Nat) : Prop := List.Forall₂ (fun i n => i < n) idx s

/-- Two arrays of shape `s` are equal. -/
def SameArr (s : List Nat) (a b : List Nat → α) : Prop := ∀ idx, Inside s idx → a idx = b idx

/-- Two fields are equal: the same number of components, equal component by component. -/
def SameField (s : List Nat) (f g : List (List Nat → α)) : Prop := List.Forall₂ (SameArr s) f g

/-! ### Lemmas -/

theorem flatMap_uniform_length {β : Type} (l : List β) (f : β → List α) (n : Nat)
    (h : ∀ x ∈ l, (f x).length = n) : (l.flatMap f).length = n * l.length := by
  induction l with
  | nil => simp
  | cons x l ih =>
    rw [List.flatMap_cons, List.length_append, h x (by simp),
      ih (fun y hy => h y (List.mem_cons_of_mem _ hy)), List.length_cons, Nat.mul_succ]
    omega

theorem flatMap_uniform_get {β : Type} (l : List β) (f : β → List α) (n : Nat)
    (h : ∀ x ∈ l, (f x).length = n) (i q : Nat) (hi : i < n) :
    (l.flatMap f)[i + n * q]? = (l[q]?).bind (fun x => (f x)[i]?) := by
  induction l generalizing q with
  | nil => simp
  | cons x l ih =>
    have hx := h x (by simp)
    rw [List.flatMap_cons]
    cases q with
    | zero =>
      rw [Nat.mul_zero, Nat.add_zero, List.getElem?_append_left (by rw [hx]; exact hi)]
      rfl
    | succ q =>
      rw [List.getElem?_append_right (by rw [hx, Nat.mul_succ]; omega), hx]
      have : i + n * (q + 1) - n = i + n * q := by rw [Nat.mul_succ]; omega
      rw [this, ih (fun y hy => h y (List.mem_cons_of_mem _ hy))]
      rfl

theorem idxF_length (s : List Nat) : (idxF s).length = numel s := by
  induction s with
  | nil => rfl
  | cons n s ih =>
    rw [idxF, flatMap_uniform_length _ _ n (fun x _ => by simp), ih, numel]

theorem ravelF_lt (s idx : List Nat) (h : Inside s idx) : ravelF s idx < numel s := by
  induction h with
  | nil => exact Nat.one_pos
  | @cons i n r s hi _ ih =>
    rw [ravelF, numel]
    calc i + n * ravelF s r < n + n * ravelF s r := by omega
      _ = n * (ravelF s r + 1) := by rw [Nat.mul_succ]; omega
      _ ≤ n * numel s := Nat.mul_le_mul_left _ ih

theorem idxF_get (s idx : List Nat) (h : Inside s idx) : (idxF s)[ravelF s idx]? = some idx := by
  induction h with
  | nil => rfl
  | @cons i n r s hi _ ih =>
    rw [idxF, ravelF, flatMap_uniform_get _ _ n (fun x _ => by simp) _ _ hi, ih]
    simp [hi]

theorem idxF_inside (s idx : List Nat) (h : idx ∈ idxF s) : Inside s idx := by
  induction s generalizing idx with
  | nil =>
    simp only [idxF, List.mem_singleton] at h
    subst h
    exact List.Forall₂.nil
  | cons n s ih =>
    simp only [idxF, List.mem_flatMap, List.mem_map, List.mem_range] at h
    obtain ⟨r, hr, i, hi, rfl⟩ := h
    exact List.Forall₂.cons hi (ih r hr)

theorem mem_idxF (s idx : List Nat) : idx ∈ idxF s ↔ Inside s idx :=
  ⟨idxF_inside s idx, fun h => List.mem_of_getElem? (idxF_get s idx h)⟩

theorem ravelF_idxF (s : List Nat) (k : Nat) (hk : k < numel s) :
    ∃ idx, (idxF s)[k]? = some idx ∧ Inside s idx ∧ ravelF s idx = k := by
  induction s generalizing k with
  | nil =>
    have : k = 0 := by rw [numel] at hk; omega
    subst this
    exact ⟨[], rfl, List.Forall₂.nil, rfl⟩
  | cons n s ih =>
    rw [numel] at hk
    have hn : 0 < n := Nat.pos_of_ne_zero (fun h => by rw [h, Nat.zero_mul] at hk; omega)
    obtain ⟨r, h1, h2, h3⟩ := ih (k / n) (Nat.div_lt_of_lt_mul hk)
    have hm : k % n < n := Nat.mod_lt k hn
    have hidx : Inside (n :: s) (k % n :: r) := List.Forall₂.cons hm h2
    have hr : ravelF (n :: s) (k % n :: r) = k := by
      rw [ravelF, h3]; exact Nat.mod_add_div k n
    refine ⟨k % n :: r, ?_, hidx, hr⟩
    have := idxF_get _ _ hidx
    rwa [hr] at this

theorem flattenF_length (s : List Nat) (a : List Nat → α) : (flattenF s a).length = numel s := by
  rw [flattenF, List.length_map, idxF_length]

theorem flattenF_get (s : List Nat) (a : List Nat → α) (idx : List Nat) (h : Inside s idx) :
    (flattenF s a)[ravelF s idx]? = some (a idx) := by
  rw [flattenF, List.getElem?_map, idxF_get s idx h]; rfl

theorem reshapeF_flattenF [Inhabited α] (s : List Nat) (a : List Nat → α) :
    ∃ b, reshapeF s (flattenF s a) = some b ∧ SameArr s a b := by
  refine ⟨_, if_pos (flattenF_length s a), fun idx h => ?_⟩
  rw [List.getD_eq_getElem?_getD, flattenF_get s a idx h]; rfl

theorem flattenF_reshapeF [Inhabited α] (s : List Nat) (v : List α) (a : List Nat → α)
    (h : reshapeF s v = some a) : flattenF s a = v := by
  unfold reshapeF at h
  split at h
  · rename_i hl
    cases h
    apply List.ext_getElem?
    intro k
    rcases Nat.lt_or_ge k (numel s) with hk | hk
    · obtain ⟨idx, h1, h2, h3⟩ := ravelF_idxF s k hk
      rw [flattenF, List.getElem?_map, h1]
      simp only [Option.map_some, h3]
      rw [List.getElem?_eq_getElem (by rw [hl]; exact hk), List.getD_eq_getElem?_getD,
        List.getElem?_eq_getElem (by rw [hl]; exact hk)]
      rfl
    · rw [List.getElem?_eq_none (by rw [flattenF_length]; exact hk),
        List.getElem?_eq_none (by rw [hl]; exact hk)]
  · cases h

/-! ### Theorems -/

/-- C18: `unvec(vec(f), shape) = f` for every three-component field, of every shape and number of
dimensions. -/
theorem unvec_vec [Inhabited α] (s : List Nat) (f : List (List Nat → α)) (hf : f.length = 3) :
    ∃ g, unvec s (vec s (some f)) = some (some g) ∧ SameField s f g := by
  match f, hf with
  | [a, b, c], _ =>
    obtain ⟨a', ha, sa⟩ := reshapeF_flattenF s a
    obtain ⟨b', hb, sb⟩ := reshapeF_flattenF s b
    obtain ⟨c', hc, sc⟩ := reshapeF_flattenF s c
    refine ⟨[a', b', c'], ?_, List.Forall₂.cons sa (.cons sb (.cons sc .nil))⟩
    have hl : (flattenF s a ++ (flattenF s b ++ flattenF s c)).length = 3 * numel s := by
      simp only [List.length_append, flattenF_length]; omega
    have h1 : (3 * numel s) % 3 = 0 := Nat.mul_mod_right 3 _
    have h2 : (3 * numel s) / 3 = numel s := Nat.mul_div_cancel_left _ (by decide)
    have t1 : (flattenF s a ++ (flattenF s b ++ flattenF s c)).take (numel s) = flattenF s a := by
      rw [List.take_left' (flattenF_length s a)]
    have d1 : (flattenF s a ++ (flattenF s b ++ flattenF s c)).drop (numel s) =
        flattenF s b ++ flattenF s c := by
      rw [List.drop_left' (flattenF_length s a)]
    have d2 : (flattenF s a ++ (flattenF s b ++ flattenF s c)).drop (2 * numel s) =
        flattenF s c := by
      rw [← List.append_assoc, List.drop_left']
      rw [List.length_append, flattenF_length, flattenF_length]; omega
    simp only [vec, List.flatMap_cons, List.flatMap_nil, List.append_nil, unvec, split3, hl, h1,
      if_true, h2, t1, d1, d2, Option.bind_some, reshapeAll, ha]
    rw [List.take_left' (flattenF_length s b), List.take_of_length_le
      (Nat.le_of_eq (flattenF_length s c)), hb, hc]
    rfl

/-- C18: `unvec` accepts exactly the vectors of length `3 * nx * ny * nz`, and `vec` gives the vector
back. -/
theorem vec_unvec [Inhabited α] (s : List Nat) (v : List α) :
    (v.length = 3 * numel s → ∃ f, unvec s (some v) = some (some f) ∧ f.length = 3) ∧
    ∀ f, unvec s (some v) = some (some f) → vec s (some f) = some v ∧ v.length = 3 * numel s := by
  constructor
  · intro hl
    have h1 : (3 * numel s) % 3 = 0 := Nat.mul_mod_right 3 _
    have h2 : (3 * numel s) / 3 = numel s := Nat.mul_div_cancel_left _ (by decide)
    have l1 : (v.take (numel s)).length = numel s := by rw [List.length_take]; omega
    have l2 : ((v.drop (numel s)).take (numel s)).length = numel s := by
      rw [List.length_take, List.length_drop]; omega
    have l3 : ((v.drop (2 * numel s)).take (numel s)).length = numel s := by
      rw [List.length_take, List.length_drop]; omega
    obtain ⟨a, ha⟩ : ∃ a, reshapeF s (v.take (numel s)) = some a := ⟨_, if_pos l1⟩
    obtain ⟨b, hb⟩ : ∃ b, reshapeF s ((v.drop (numel s)).take (numel s)) = some b := ⟨_, if_pos l2⟩
    obtain ⟨c, hc⟩ : ∃ c, reshapeF s ((v.drop (2 * numel s)).take (numel s)) = some c :=
      ⟨_, if_pos l3⟩
    refine ⟨[a, b, c], ?_, rfl⟩
    simp only [unvec, split3, hl, h1, if_true, h2, Option.bind_some, reshapeAll, ha, hb, hc,
      Option.map_some]
  · intro f hf
    simp only [unvec, split3] at hf
    split at hf
    · rename_i h3
      simp only [Option.bind_some, reshapeAll] at hf
      generalize ha : reshapeF s (v.take (v.length / 3)) = ra at hf
      cases ra with
      | none => simp at hf
      | some a =>
        generalize hb : reshapeF s ((v.drop (v.length / 3)).take (v.length / 3)) = rb at hf
        cases rb with
        | none => simp at hf
        | some b =>
          generalize hc : reshapeF s ((v.drop (2 * (v.length / 3))).take (v.length / 3)) = rc at hf
          cases rc with
          | none => simp at hf
          | some c =>
            simp only [Option.bind_some, Option.map_some, Option.some.injEq] at hf
            subst hf
            have e1 := flattenF_reshapeF s _ _ ha
            have e2 := flattenF_reshapeF s _ _ hb
            have e3 := flattenF_reshapeF s _ _ hc
            have hn : v.length / 3 = numel s := by
              have := congrArg List.length e1
              rw [flattenF_length, List.length_take] at this
              omega
            constructor
            · simp only [vec, List.flatMap_cons, List.flatMap_nil, List.append_nil, e1, e2, e3]
              congr 1
              have hd : (v.drop (v.length / 3)).drop (v.length / 3) = v.drop (2 * (v.length / 3)) := by
                rw [List.drop_drop]; congr 1; omega
              rw [List.take_of_length_le (l := v.drop (2 * (v.length / 3)))
                (by rw [List.length_drop]; omega), ← hd, List.take_append_drop,
                List.take_append_drop]
            · omega
    · simp at hf

/-- C18: the components are contiguous and each is in Fortran order: component `c` at
`(i, j, k)` is at position `c * N + (i + nx * (j + ny * k))`. -/
theorem vec_position (s : List Nat) (f : List (List Nat → α)) (v : List α)
    (hv : vec s (some f) = some v) (c : Nat) (a : List Nat → α) (hc : f[c]? = some a)
    (idx : List Nat) (h : Inside s idx) : v[c * numel s + ravelF s idx]? = some (a idx) := by
  simp only [vec, Option.some.injEq] at hv
  rw [← hv, Nat.add_comm, Nat.mul_comm,
    flatMap_uniform_get _ _ _ (fun x _ => flattenF_length s x) _ _ (ravelF_lt s idx h), hc]
  exact flattenF_get s a idx h

/-- C18: the position is a bijection between the cells and `0, ..., N - 1`. -/
theorem ravelF_bijective (s : List Nat) :
    (∀ idx, Inside s idx → ravelF s idx < numel s) ∧
    (∀ idx idx', Inside s idx → Inside s idx' → ravelF s idx = ravelF s idx' → idx = idx') ∧
    (∀ k, k < numel s → ∃ idx, Inside s idx ∧ ravelF s idx = k) := by
  refine ⟨ravelF_lt s, fun idx idx' h h' he => ?_, fun k hk => ?_⟩
  · have h1 := idxF_get s idx h
    rw [he, idxF_get s idx' h'] at h1
    exact (Option.some.inj h1).symm
  · obtain ⟨idx, _, h2, h3⟩ := ravelF_idxF s k hk
    exact ⟨idx, h2, h3⟩

/-- Three dimensions written out. -/
theorem ravelF_three (nx ny nz i j k : Nat) :
    ravelF [nx, ny, nz] [i, j, k] = i + nx * (j + ny * k) := by
  simp [ravelF]

/-- `None` is passed through. -/
theorem vec_none [Inhabited α] (s : List Nat) :
    vec s (none : Option (List (List Nat → α))) = none ∧
    unvec s (none : Option (List α)) = some none := ⟨rfl, rfl⟩

/-- A field on a 2 by 1 by 2 grid. -/
example : vec [2, 1, 2] (some [fun idx => (0, idx), fun idx => (1, idx), fun idx => (2, idx)]) =
    some [(0, [0, 0, 0]), (0, [1, 0, 0]), (0, [0, 0, 1]), (0, [1, 0, 1]),
      (1, [0, 0, 0]), (1, [1, 0, 0]), (1, [0, 0, 1]), (1, [1, 0, 1]),
      (2, [0, 0, 0]), (2, [1, 0, 0]), (2, [0, 0, 1]), (2, [1, 0, 1])] := rfl

example : Inside [2, 1, 2] [1, 0, 1] := by
  repeat first | exact List.Forall₂.nil | refine List.Forall₂.cons (by decide) ?_

/-- A vector of the wrong length raises. -/
example : unvec [2, 1, 2] (some [1, 2, 3, 4]) = (none : Option (Option (List (List Nat → Nat)))) := rfl

end Verif.Fdfd
