import Verif.Render.View
import Verif.Render.GridProps
import Verif.Render.DirectionProps
import Verif.Fdfd.VecProps
import Mathlib.Tactic.FinCases
/-
C90: the part of an array that a monitor records and that the plots show.
-/
namespace Verif.Render.View
open Verif.Fdfd

/-! ### Specification -/

/-- `b` is the part of `a` with index `k` along axis `ax` (of three), for arrays with three axes; that axis is kept with
one entry. -/
def IsLayer {α : Type} (a b : Arr α) (ax : Fin 3) (k : Nat) : Prop :=
  a.shape.length = 3 ∧ b.shape = a.shape.set ax 1 ∧
    ∀ idx, Inside b.shape idx → b.get idx = a.get (idx.set ax k) ∧ Inside a.shape (idx.set ax k)

/-- Equal arrays. -/
def Same {α : Type} (a b : Arr α) : Prop := a.shape = b.shape ∧ ∀ idx, Inside b.shape idx → a.get idx = b.get idx

/-- Cell `k` of the edges `e` contains the position; the position of the last edge belongs to the last cell, and with one
cell any position does. -/
def Contains (e : List ℝ) (k : Nat) (r : ℝ) : Prop :=
  k + 1 < e.length ∧ (e.length = 2 ∨ (at' e k ≤ r ∧ (r < at' e (k + 1) ∨ (k + 2 = e.length ∧ r = at' e (k + 1)))))

/-! ### Lemmas -/

theorem inside3 {a b c : Nat} {idx : List Nat} (h : Inside [a, b, c] idx) :
    ∃ i j k, idx = [i, j, k] ∧ i < a ∧ j < b ∧ k < c := by
  unfold Inside at h
  match idx, h with
  | [i, j, k], .cons h1 (.cons h2 (.cons h3 .nil)) => exact ⟨i, j, k, rfl, h1, h2, h3⟩

theorem insideOf3 {a b c i j k : Nat} (h1 : i < a) (h2 : j < b) (h3 : k < c) : Inside [a, b, c] [i, j, k] :=
  .cons h1 (.cons h2 (.cons h3 .nil))

theorem range_full (n : Nat) : (Sl.mk (some 0) none).range n = (0, n) := by simp [Sl.range, bound]

theorem range_none (n : Nat) : (Sl.mk none none).range n = (0, n) := by simp [Sl.range]

theorem range_one {n k : Nat} (h : k < n) : (Sl.mk (some (k : Int)) (some ((k : Int) + 1))).range n = (k, k + 1) := by
  simp only [Sl.range, bound, Option.map_some, Option.getD_some]
  rw [if_neg (by omega), if_neg (by omega)]
  congr 1 <;> omega

theorem cut_three {α : Type} (a b c : Nat) (f : List Nat → α) (s t u : Sl) {s0 s1 t0 t1 u0 u1 : Nat}
    (hs : s.range a = (s0, s1)) (ht : t.range b = (t0, t1)) (hu : u.range c = (u0, u1)) :
    ((Arr.mk [a, b, c] f).cut [s, t, u]).shape = [s1 - s0, t1 - t0, u1 - u0] ∧
    ∀ i j k, ((Arr.mk [a, b, c] f).cut [s, t, u]).get [i, j, k] = f [s0 + i, t0 + j, u0 + k] := by
  constructor
  · simp [Arr.cut, hs, ht, hu]
  · intro i j k
    simp [Arr.cut, hs, ht, hu]

theorem layer_of_cut {α : Type} (a b c : Nat) (f : List Nat → α) (ax : Fin 3) (k : Nat) (s : Fin 3 → Sl)
    (hk : k < [a, b, c].getD ax 0) (h1 : (s ax).range ([a, b, c].getD ax 0) = (k, k + 1))
    (h2 : ∀ x, x ≠ ax → (s x).range ([a, b, c].getD x 0) = (0, [a, b, c].getD x 0)) :
    IsLayer (Arr.mk [a, b, c] f) ((Arr.mk [a, b, c] f).cut [s 0, s 1, s 2]) ax k := by
  have h20 := h2 0
  have h21 := h2 1
  have h22 := h2 2
  fin_cases ax <;> simp at hk h1 h20 h21 h22
  · obtain ⟨e1, e2⟩ := cut_three a b c f (s 0) (s 1) (s 2) h1 h21 h22
    refine ⟨rfl, by rw [e1]; simp, ?_⟩
    rw [e1]
    intro idx hidx
    obtain ⟨i, j, l, rfl, h3, h4, h5⟩ := inside3 hidx
    rw [e2]
    refine ⟨?_, insideOf3 hk (by omega) (by omega)⟩
    have : i = 0 := by omega
    subst this
    simp
  · obtain ⟨e1, e2⟩ := cut_three a b c f (s 0) (s 1) (s 2) h20 h1 h22
    refine ⟨rfl, by rw [e1]; simp, ?_⟩
    rw [e1]
    intro idx hidx
    obtain ⟨i, j, l, rfl, h3, h4, h5⟩ := inside3 hidx
    rw [e2]
    refine ⟨?_, insideOf3 (by omega) hk (by omega)⟩
    have : j = 0 := by omega
    subst this
    simp
  · obtain ⟨e1, e2⟩ := cut_three a b c f (s 0) (s 1) (s 2) h20 h21 h1
    refine ⟨rfl, by rw [e1]; simp, ?_⟩
    rw [e1]
    intro idx hidx
    obtain ⟨i, j, l, rfl, h3, h4, h5⟩ := inside3 hidx
    rw [e2]
    refine ⟨?_, insideOf3 (by omega) (by omega) hk⟩
    have : l = 0 := by omega
    subst this
    simp

theorem pos2ind_contains (e : List ℝ) (hs : e.Pairwise (· < ·)) (hn : 2 ≤ e.length) (r : ℝ)
    (hb : inBounds (e.length - 1) e r = true) : Contains e (pos2ind e r) r := by
  by_cases h2 : e.length = 2
  · exact ⟨by unfold pos2ind; omega, .inl h2⟩
  have hb' : at' e 0 ≤ r ∧ r ≤ at' e (e.length - 1) := by
    simp only [inBounds, decide_eq_true_eq] at hb
    have := not_and.1 hb (by omega)
    push Not at this
    exact this
  rcases hb'.2.lt_or_eq with h | h
  · obtain ⟨c1, c2, c3⟩ := pos2ind_cell e hs hn r hb'.1 h
    exact ⟨c1, .inr ⟨c2, .inl c3⟩⟩
  · have hp := (pos2ind_outside e hs hn r).2 h.ge
    refine ⟨by omega, .inr ⟨?_, .inr ⟨by omega, ?_⟩⟩⟩
    · rw [hp, h]
      have l1 : e.length - 2 < e.length := by omega
      have l2 : e.length - 1 < e.length := by omega
      simp only [at', List.getD_eq_getElem?_getD, List.getElem?_eq_getElem l1, List.getElem?_eq_getElem l2,
        Option.getD_some]
      exact (List.pairwise_iff_getElem.1 hs _ _ l1 l2 (by omega)).le
    · rw [hp, h]
      congr 1
      omega

/-! ### Monitors -/

/-- **C90**, monitors. For every field, a field monitor with a point and a normal along an axis records for each of the
three components the layer of cells that contains the point. -/
theorem field_monitor_layer {α : Type} [Inhabited α] (e : Fin 3 → List ℝ) (hs : ∀ a, (e a).Pairwise (· < ·))
    (hn : ∀ a, 2 ≤ (e a).length) (p v : Fin 3 → ℝ) (ax : Fin 3) (hv : axisvec2axis v = some ax)
    (hp : ∀ a, inBounds ((e a).length - 1) (e a) (p a) = true) (f : List (List Nat → α)) (hf : f.length = 3)
    (dims : List Nat) (hd : dims = [(e 0).length - 1, (e 1).length - 1, (e 2).length - 1]) :
    ∃ k s r w, Contains (e ax) k (p ax) ∧ monitorSlices e (some p) (some v) = some s ∧ vec dims (some f) = some w ∧
      monitorEval dims s w = some r ∧
      List.Forall₂ (fun g b => IsLayer (Arr.mk dims g) b ax k) f r := by
  have hc := pos2ind_contains (e ax) (hs ax) (hn ax) (p ax) (hp ax)
  obtain ⟨g, hg, hfg⟩ := unvec_vec dims f hf
  refine ⟨pos2ind (e ax) (p ax), _, _, f.flatMap (flattenF dims), hc, by
    unfold monitorSlices; simp only [hv, Option.bind_some]; rw [if_pos (show ∀ a, _ from hp)], rfl, by
    unfold monitorEval; rw [show unvec dims (some (f.flatMap (flattenF dims))) = some (some g) from hg], ?_⟩
  simp only
  rw [List.forall₂_map_right_iff]
  unfold SameField at hfg
  refine hfg.imp fun a b hab => ?_
  generalize hk : pos2ind (e ax) (p ax) = k at *
  have hlen : k < dims.getD ax 0 := by
    have := hc.1
    subst hd
    fin_cases ax <;> simp at this ⊢ <;> omega
  have key := layer_of_cut ((e 0).length - 1) ((e 1).length - 1) ((e 2).length - 1) b ax k
    (fun x => if x = ax then ⟨some k, some (k + 1)⟩ else ⟨some 0, none⟩) (by rw [← hd]; exact hlen)
    (by simp only [if_true]; exact range_one (by rw [← hd]; exact hlen))
    (fun x hx => by simp only [if_neg hx]; exact range_full _)
  rw [← hd] at key
  have hsl : (((List.range 3).map fun _ => Sl.mk (some 0) none).set ax.1 ⟨some (k : Int), some ((k : Int) + 1)⟩) =
      [(if (0 : Fin 3) = ax then ⟨some (k : Int), some ((k : Int) + 1)⟩ else ⟨some 0, none⟩),
       (if (1 : Fin 3) = ax then ⟨some (k : Int), some ((k : Int) + 1)⟩ else ⟨some 0, none⟩),
       (if (2 : Fin 3) = ax then ⟨some (k : Int), some ((k : Int) + 1)⟩ else ⟨some 0, none⟩)] := by
    fin_cases ax <;> rfl
  rw [hsl]
  obtain ⟨k1, k2, k3⟩ := key
  refine ⟨k1, k2, fun idx hidx => ?_⟩
  obtain ⟨k4, k5⟩ := k3 idx hidx
  refine ⟨?_, k5⟩
  rw [k4]
  exact (hab _ k5).symm

/-- Without a point or without a normal the monitor records the whole field. -/
theorem field_monitor_whole {α : Type} [Inhabited α] (e : Fin 3 → List ℝ) (p v : Option (Fin 3 → ℝ))
    (h : p = none ∨ v = none) (dims : List Nat) (f : List (List Nat → α)) (hf : f.length = 3) :
    ∃ r w, monitorSlices e p v = some none ∧ vec dims (some f) = some w ∧ monitorEval dims none w = some r ∧
      List.Forall₂ (fun g b => Same (Arr.mk dims g) b) f r := by
  obtain ⟨g, hg, hfg⟩ := unvec_vec dims f hf
  refine ⟨_, f.flatMap (flattenF dims), by rcases h with rfl | rfl; rfl; cases p <;> rfl, rfl, by
    unfold monitorEval; rw [show unvec dims (some (f.flatMap (flattenF dims))) = some (some g) from hg], ?_⟩
  simp only
  rw [List.forall₂_map_right_iff]
  unfold SameField at hfg
  exact hfg.imp fun a b hab => ⟨rfl, hab⟩

/-- A point outside of the grid along an axis with more than one cell, or a normal along no axis, is refused when the
monitor is created. -/
theorem field_monitor_refuses (e : Fin 3 → List ℝ) (p v : Fin 3 → ℝ) (a : Fin 3)
    (h : axisvec2axis v = none ∨
      (2 < (e a).length ∧ (p a < at' (e a) 0 ∨ at' (e a) ((e a).length - 1) < p a))) :
    monitorSlices e (some p) (some v) = none := by
  unfold monitorSlices
  rcases h with h | ⟨h1, h2⟩
  · simp [h]
  · cases hv : axisvec2axis v with
    | none => simp [hv]
    | some ax =>
      simp only [hv, Option.bind_some]
      rw [if_neg]
      intro hall
      have := hall a
      simp only [inBounds, decide_eq_true_eq, not_and] at this
      exact this (by omega) (by rcases h2 with h2 | h2; exact .inl h2; exact .inr h2)

/-! ### Plots -/

/-- What a coordinate asks for on an axis with `n` entries. -/
def Coord.asks (n : Nat) : Coord → Option Nat
  | .ind i => if 0 ≤ i then some i.toNat else Option.none
  | .center => some (n / 2)
  | .none => Option.none

theorem coord_range {n : Nat} {c : Coord} {k : Nat} (hc : c.asks n = some k) (hk : k < n) (h0 : c = .ind 0 → n = 1) :
    (coordSlice c n).range n = (k, k + 1) := by
  cases c with
  | none => exact nomatch hc
  | center =>
    have hc : n / 2 = k := by simpa [Coord.asks] using hc
    subst hc
    by_cases hz : n / 2 = 0
    · have : n = 1 := by omega
      subst this
      rfl
    · simp only [coordSlice]
      rw [if_neg (by omega)]
      exact range_one hk
  | ind i =>
    simp only [Coord.asks] at hc
    split_ifs at hc with hi
    have hc : i.toNat = k := by simpa using hc
    by_cases hz : i = 0
    · have hn := h0 (by rw [hz])
      subst hn hz
      simp at hc
      subst hc
      rfl
    · simp only [coordSlice]
      rw [if_neg hz]
      have : i = (k : Int) := by omega
      rw [this]
      exact range_one hk

theorem coord_none (n : Nat) : (coordSlice .none n).range n = (0, n) := by simp [coordSlice, range_none]

/-- **C90**, plots of the permittivity, the part that holds: with one coordinate given, the plot shows the layer with that
index, or the middle layer for `"center"`. The index 0 is left out (unless the axis has one entry), and so are negative
indices: see `view_first_false` and `view_last_false`. -/
theorem shown_eps_layer_partial {α : Type} (a b c : Nat) (f : List Nat → α) (ax : Fin 3) (q : Coord) (k : Nat)
    (hq : q.asks ([a, b, c].getD ax 0) = some k) (hk : k < [a, b, c].getD ax 0)
    (h0 : q = .ind 0 → [a, b, c].getD ax 0 = 1) :
    IsLayer (Arr.mk [a, b, c] f) (shownEps (Arr.mk [a, b, c] f) (if ax = 0 then q else .none)
      (if ax = 1 then q else .none) (if ax = 2 then q else .none)) ax k := by
  have h1 := coord_range hq hk h0
  exact layer_of_cut a b c f ax k
    (fun x => coordSlice (if ax = x then q else .none) ([a, b, c].getD x 0)) hk (by simpa using h1)
    (fun x hx => by rw [if_neg (Ne.symm hx)]; exact coord_none _)

/-- Several coordinates select together. -/
theorem shown_eps_point_partial {α : Type} (a b c : Nat) (f : List Nat → α) (x y z : Coord) (i j k : Nat)
    (hx : x.asks a = some i) (hy : y.asks b = some j) (hz : z.asks c = some k) (hi : i < a) (hj : j < b) (hk : k < c)
    (x0 : x = .ind 0 → a = 1) (y0 : y = .ind 0 → b = 1) (z0 : z = .ind 0 → c = 1) :
    (shownEps (Arr.mk [a, b, c] f) x y z).shape = [1, 1, 1] ∧
      (shownEps (Arr.mk [a, b, c] f) x y z).get [0, 0, 0] = f [i, j, k] := by
  have := cut_three a b c f (coordSlice x a) (coordSlice y b) (coordSlice z c) (coord_range hx hi x0)
    (coord_range hy hj y0) (coord_range hz hk z0)
  simp at this
  exact ⟨this.1, this.2 0 0 0⟩

/-- **C90** is false for the first layer: asked for `x=0`, the plot shows the whole array. -/
theorem view_first_false {α : Type} (a b c : Nat) (f : List Nat → α) :
    (shownEps (Arr.mk [a, b, c] f) (.ind 0) .none .none).shape = [a, b, c] := by
  have := (cut_three a b c f (coordSlice (.ind 0) a) (coordSlice .none b) (coordSlice .none c)
    (s0 := 0) (s1 := a) (by simp [coordSlice, range_none]) (coord_none b) (coord_none c)).1
  simp only [Nat.sub_zero] at this
  exact this

/-- **C90** is false for the last layer, asked for as `x=-1`: the plot is empty. -/
theorem view_last_false {α : Type} (a b c : Nat) (f : List Nat → α) :
    (shownEps (Arr.mk [a, b, c] f) (.ind (-1)) .none .none).shape = [0, b, c] := by
  have := (cut_three a b c f (coordSlice (.ind (-1)) a) (coordSlice .none b) (coordSlice .none c)
    (s0 := a - 1) (s1 := 0) (by simp [coordSlice, Sl.range, bound]; omega) (coord_none b) (coord_none c)).1
  simp only [Nat.sub_zero, Nat.zero_sub] at this
  exact this

/-- **C90**, plots of fields, the part that holds: with one index given, the plots show that layer of each component.
Left out are the index 0, and `"center"`, see `field_center_false`. -/
theorem shown_field_layer_partial {α : Type} (a b c : Nat) (f : List Nat → α) (m : Nat) (ax : Fin 3) (k : Nat)
    (hk : k < [a, b, c].getD ax 0) (h0 : 0 < k) :
    IsLayer (Arr.mk [a, b, c] fun idx => f (m :: idx)) (shownField (Arr.mk [3, a, b, c] f) m
      (if ax = 0 then .ind k else .none) (if ax = 1 then .ind k else .none) (if ax = 2 then .ind k else .none)) ax k := by
  have hc : ∀ n n', coordSlice (.ind (k : Int)) n = coordSlice (.ind (k : Int)) n' := fun _ _ => rfl
  have key := layer_of_cut a b c (fun idx => f (m :: idx)) ax k
    (fun x => coordSlice (if ax = x then .ind (k : Int) else .none) ([3, a, b, c].getD x 0)) hk
    (by
      simp only [if_true]
      rw [hc _ ([a, b, c].getD ax 0)]
      exact coord_range (by simp [Coord.asks]) hk (by intro h; simp at h; omega))
    (fun x hx => by
      simp only [if_neg (Ne.symm hx)]
      simp [coordSlice, range_none])
  exact key

/-- **C90** is false for the middle of a field: asked for the centre in x, the plots show the layer 1 whatever the size
of the grid, since the shape passed on starts with the number of components. -/
theorem field_center_false {α : Type} (a b c : Nat) (ha : 4 ≤ a) (f : List Nat → α) (m : Nat) :
    IsLayer (Arr.mk [a, b, c] fun idx => f (m :: idx)) (shownField (Arr.mk [3, a, b, c] f) m .center .none .none) 0 1 ∧
      1 ≠ a / 2 := by
  refine ⟨?_, by omega⟩
  have := layer_of_cut a b c (fun idx => f (m :: idx)) 0 1
    (fun x => coordSlice (if x = 0 then .center else .none) ([3, a, b, c].getD x 0)) (by simp; omega)
    (by
      have : coordSlice .center ([3, a, b, c].getD ((0 : Fin 3) : Nat) 0) = ⟨some ((1 : Nat) : Int), some (((1 : Nat) : Int) + 1)⟩ := by
        simp [coordSlice]
      simp only [if_true]
      rw [this]
      exact range_one (by simp; omega))
    (fun x hx => by
      simp only [if_neg hx]
      simp [coordSlice, range_none])
  exact this

/-! The hypotheses are met. -/

example : axisvec2axis (Pi.single 2 (1 : ℝ)) = some 2 := (axis_unit 2 1 one_ne_zero).1
example : Coord.asks 5 .center = some 2 ∧ Coord.asks 5 (.ind 3) = some 3 := by decide
example : ([0, 1, 2] : List ℝ).Pairwise (· < ·) ∧ inBounds 2 ([0, 1, 2] : List ℝ) 2 = true := by
  constructor
  · simp
  · simp [inBounds, at']

end Verif.Render.View
