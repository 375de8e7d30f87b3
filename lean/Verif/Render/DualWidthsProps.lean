import Verif.Render.DualWidths
/-
Property C124, the grids of simulations: the dual cells of an axis are as long together as its cells, as the periodic
difference operators need it. The widths are those of the edges `e`.
-/
namespace Verif.Render

variable {K : Type} [Field K] [LinearOrder K] [IsStrictOrderedRing K]

/-! ### Specification -/

/-- The dual cell `i` of a periodic axis reaches from the middle of the cell before it to the middle of cell `i`. -/
def IsDual (w h : List K) : Prop := h.length = w.length ∧
  ∀ i, i < w.length → at' h i = (at' w (if i = 0 then w.length - 1 else i - 1) + at' w i) / 2

/-! ### Lemmas -/

theorem half_sums (f : K → K → K) (hf : ∀ a b, f a b = a * (1 - 1 / 2) + b * (1 / 2)) (h2 : (2 : K) ≠ 0) (l : List K) :
    ∀ x, (List.zipWith f (x :: l).dropLast l).sum = (x :: l).sum - (x + (x :: l).getLast (List.cons_ne_nil x l)) / 2 := by
  induction l with
  | nil => intro x; simp
  | cons y l ih =>
    intro x
    rw [List.dropLast_cons_cons, List.zipWith_cons_cons, List.sum_cons, ih y, List.getLast_cons (List.cons_ne_nil y l), hf,
      List.sum_cons (a := x)]
    field_simp
    ring

omit [IsStrictOrderedRing K] in
theorem autoshifted_cons (p : Bool) (e : List K) (x : K) (l : List K) (hw : widths e = x :: l) (h2 : (2 : K) ≠ 0) :
    autoshifted p e = ((if p then x else (x :: l).getLast (List.cons_ne_nil x l)) * (1 - 1 / 2) + x * (1 / 2)) ::
      List.zipWith (fun a b => a * (1 - 1 / 2) + b * (1 / 2)) (x :: l).dropLast l := by
  have hlast : at' (x :: l) l.length = (x :: l).getLast (List.cons_ne_nil x l) := by
    rw [at', List.getLast_eq_getElem, List.getD_eq_getElem?_getD, List.getElem?_eq_getElem (by simp)]
    simp
  have hhalf : ¬ (1 / 2 : K) = 0 := by
    rw [one_div]; exact inv_ne_zero h2
  have hg : widthsGhost p e = (x :: l) ++ [if p then x else (x :: l).getLast (List.cons_ne_nil x l)] := by
    rw [widthsGhost, hw]
    congr 2
    cases p
    · simp only [Bool.false_eq_true, if_false]
      rw [← hlast]
      simp
    · simp [at']
  rw [autoshifted, compWidths, hg]
  simp only [if_neg hhalf]
  generalize (if p then x else (x :: l).getLast (List.cons_ne_nil x l)) = g
  have h1 : at' (x :: l ++ [g]) ((x :: l ++ [g]).length - 1) = g := by simp [at']
  have h3 : at' (x :: l ++ [g]) 0 = x := by simp [at']
  rw [h1, h3, List.dropLast_concat]
  have ht : (x :: l ++ [g]).tail = l ++ [g] := rfl
  rw [ht]
  have hz : ∀ (l : List K) (x : K) (f : K → K → K), (List.zipWith f (x :: l) (l ++ [g])) =
      List.zipWith f (x :: l).dropLast l ++ [f ((x :: l).getLast (List.cons_ne_nil x l)) g] := by
    intro l
    induction l with
    | nil => intro x f; rfl
    | cons y l ih =>
      intro x f
      rw [List.cons_append, List.zipWith_cons_cons, ih y f, List.dropLast_cons_cons, List.zipWith_cons_cons, List.cons_append,
        List.getLast_cons (List.cons_ne_nil y l)]
  rw [hz, ← List.cons_append, List.dropLast_concat]

/-! ### Theorems -/

/-- For a grid that is not marked periodic (the default, and what every simulation uses) the dual cells are those of the
periodic axis, and they add up to the length of the axis. -/
theorem dual_widths_partial (e : List K) (hn : 2 ≤ e.length) :
    IsDual (widths e) (autoshifted false e) ∧ (autoshifted false e).sum = (widths e).sum := by
  have h2 : (2 : K) ≠ 0 := two_ne_zero
  obtain ⟨x, l, hw⟩ : ∃ x l, widths e = x :: l := by
    cases h : widths e with
    | nil =>
      have := widths_length e
      rw [h] at this
      simp at this
      omega
    | cons x l => exact ⟨x, l, rfl⟩
  have hc := autoshifted_cons false e x l hw h2
  simp only [Bool.false_eq_true, if_false] at hc
  refine ⟨⟨?_, fun i hi => ?_⟩, ?_⟩
  · rw [hc, hw]
    simp
  · rw [hc, hw] at *
    have hlast : at' (x :: l) l.length = (x :: l).getLast (List.cons_ne_nil x l) := by
      rw [at', List.getLast_eq_getElem, List.getD_eq_getElem?_getD, List.getElem?_eq_getElem (by simp)]
      simp
    cases i with
    | zero =>
      rw [if_pos rfl]
      have : (x :: l).length - 1 = l.length := by simp
      rw [this, hlast]
      simp only [at', List.getD_cons_zero]
      field_simp
      ring
    | succ i =>
      rw [if_neg (by omega)]
      have hi' : i < l.length := by simpa using hi
      have : at' ((((x :: l).getLast (List.cons_ne_nil x l)) * (1 - 1 / 2) + x * (1 / 2)) ::
          List.zipWith (fun a b => a * (1 - 1 / 2) + b * (1 / 2)) (x :: l).dropLast l) (i + 1) =
          at' (List.zipWith (fun a b => a * (1 - 1 / 2) + b * (1 / 2)) (x :: l).dropLast l) i := by simp [at']
      rw [this, at'_zipWith _ _ _ _ (by simpa using hi') hi', at'_dropLast _ _ (by simpa using hi')]
      have h4 : at' (x :: l) (i + 1) = at' l i := by simp [at']
      rw [h4, Nat.add_sub_cancel]
      field_simp
      ring
  · rw [hc, hw, List.sum_cons, half_sums _ (fun _ _ => rfl) h2]
    field_simp
    ring

/-- For a grid marked periodic the first dual cell is the first cell itself, so that the dual cells are longer than the axis by
half the difference of the first and the last cell. -/
theorem dual_widths_periodic (e : List K) (x : K) (l : List K) (hw : widths e = x :: l) :
    (autoshifted true e).sum = (widths e).sum + (x - (x :: l).getLast (List.cons_ne_nil x l)) / 2 := by
  have h2 : (2 : K) ≠ 0 := two_ne_zero
  rw [autoshifted_cons true e x l hw h2, hw, List.sum_cons, half_sums _ (fun _ _ => rfl) h2]
  simp only [if_true]
  field_simp
  ring

/-- It is not true that the dual cells of a grid marked periodic are those of a periodic axis. -/
theorem dual_widths_false : ∃ e : List ℚ, e.Pairwise (· < ·) ∧ ¬ IsDual (widths e) (autoshifted true e) ∧
    (autoshifted true e).sum ≠ (widths e).sum := by
  refine ⟨[0, 1, 3], by decide +kernel, fun h => ?_, ?_⟩
  · have := h.2 0 (by decide +kernel)
    revert this
    decide +kernel
  · decide +kernel

/-- The dual widths of a grid, for the arguments `periodic`: `False` and lists give the dual cells of periodic axes, `True` does not. -/
theorem dual_widths_of_argument (arg : PeriodicArg) (e : Fin 3 → List K) (a : Fin 3) (x : K) (l : List K) (hw : widths (e a) = x :: l)
    (hn : 2 ≤ (e a).length) :
    (arg ≠ .scalar true → IsDual (widths (e a)) (dualWidths arg e a)) ∧
    (arg = .scalar true → (dualWidths arg e a).sum = (widths (e a)).sum + (x - (x :: l).getLast (List.cons_ne_nil x l)) / 2) := by
  constructor
  · intro h
    have hf : periodicFlags arg a = false := by
      cases arg with
      | list _ => rfl
      | scalar b => cases b with
        | false => rfl
        | true => exact absurd rfl h
    rw [dualWidths, hf]
    exact (dual_widths_partial (e a) hn).1
  · rintro rfl
    exact dual_widths_periodic (e a) x l hw

/-- It is not true that the axes can be marked one by one: a list of flags is ignored. -/
theorem periodic_list_false : ∃ (l : Fin 3 → Bool), periodicFlags (.list l) ≠ l :=
  ⟨fun _ => true, fun h => absurd (congrFun h 0) (by decide)⟩

/-- A mesh of unequal cells. -/
example : 2 ≤ ([0, 1, 3, 7] : List ℚ).length ∧ widths ([0, 1, 3, 7] : List ℚ) = [1, 2, 4] ∧
    autoshifted false ([0, 1, 3, 7] : List ℚ) = [5 / 2, 3 / 2, 3] := by
  refine ⟨by decide, by decide +kernel, by decide +kernel⟩

end Verif.Render
