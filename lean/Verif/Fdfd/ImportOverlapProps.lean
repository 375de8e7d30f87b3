import Verif.Fdfd.ImportOverlap
import Mathlib.Tactic.Linarith
import Mathlib.Tactic.FieldSimp
import Mathlib.Tactic.LinearCombination
import Mathlib.Tactic.FinCases
import Mathlib.Tactic.IntervalCases
import Mathlib.Data.List.GetD
/-
Property C106: overlaps that are imported from a file.
-/
namespace Verif.Fdfd.Import

/-! ### Specification -/

/-- The trilinear function of the box between the samples `i` and `i + 1`: `s` are the fractions of the way along the axes. -/
noncomputable def trilinear (v : Data) (i : Fin 3 → Nat) (s : Fin 3 → ℝ) : ℂ :=
  (1 - s 0) * ((1 - s 1) * ((1 - s 2) * v (i 0) (i 1) (i 2) + s 2 * v (i 0) (i 1) (i 2 + 1)) +
    s 1 * ((1 - s 2) * v (i 0) (i 1 + 1) (i 2) + s 2 * v (i 0) (i 1 + 1) (i 2 + 1))) +
  s 0 * ((1 - s 1) * ((1 - s 2) * v (i 0 + 1) (i 1) (i 2) + s 2 * v (i 0 + 1) (i 1) (i 2 + 1)) +
    s 1 * ((1 - s 2) * v (i 0 + 1) (i 1 + 1) (i 2) + s 2 * v (i 0 + 1) (i 1 + 1) (i 2 + 1)))

/-- The point at the fraction `s` of the way from the sample `i` to the next one. -/
noncomputable def between (g : List ℝ) (i : Nat) (s : ℝ) : ℝ := (1 - s) * g.getD i 0 + s * g.getD (i + 1) 0

/-- The samples are strictly increasing (otherwise scipy raises). -/
def Increasing (g : List ℝ) : Prop := ∀ i j, i < j → j < g.length → g.getD i 0 < g.getD j 0

/-! ### Lemmas -/

theorem countP_eq {g : List ℝ} {p : ℝ → Bool} {k : Nat} (hk : k ≤ g.length) (h1 : ∀ j, j < k → p (g.getD j 0) = true)
    (h2 : ∀ j, k ≤ j → j < g.length → p (g.getD j 0) = false) : g.countP p = k := by
  induction g generalizing k with
  | nil => simp at hk; simp [hk]
  | cons a l ih =>
    cases k with
    | zero =>
      rw [List.countP_eq_zero]
      intro x hx
      obtain ⟨j, hj, rfl⟩ := List.getElem_of_mem hx
      have := h2 j (Nat.zero_le _) hj
      rw [List.getD_eq_getElem _ _ hj] at this
      rw [this]; exact Bool.false_ne_true
    | succ k =>
      have h0 := h1 0 (Nat.succ_pos _)
      rw [List.getD_cons_zero] at h0
      rw [List.countP_cons_of_pos h0, ih (k := k) (by simpa using hk)]
      · intro j hj
        have := h1 (j + 1) (by omega)
        rwa [List.getD_cons_succ] at this
      · intro j hj hl
        have := h2 (j + 1) (by omega) (by simpa using hl)
        rwa [List.getD_cons_succ] at this

/-- One axis: the cell and the fraction that are found give the value of every box. -/
theorem axis_value {g : List ℝ} (hg : Increasing g) {i : Nat} (hi : i + 1 < g.length) {s : ℝ} (h0 : 0 ≤ s) (h1 : s ≤ 1)
    (f : Nat → ℂ) :
    (1 - normDistance g (between g i s) : ℝ) * f (cellOf g (between g i s)) +
      (normDistance g (between g i s) : ℝ) * f (cellOf g (between g i s) + 1) = (1 - s) * f i + s * f (i + 1) := by
  classical
  have hlt := hg i (i + 1) (Nat.lt_succ_self i) hi
  have mono : ∀ j k, j ≤ k → k < g.length → g.getD j 0 ≤ g.getD k 0 := by
    intro j k hjk hk
    rcases Nat.lt_or_eq_of_le hjk with h | h
    · exact le_of_lt (hg j k h hk)
    · rw [h]
  rcases eq_or_lt_of_le h0 with hs | hs
  · -- at the sample
    subst hs
    have hx : between g i 0 = g.getD i 0 := by rw [between]; ring
    have hc : g.countP (fun y => decide (y < g.getD i 0)) = i := by
      refine countP_eq (by omega) ?_ ?_
      · intro j hj; exact decide_eq_true (hg j i hj (by omega))
      · intro j hj hl; exact decide_eq_false (not_lt.2 (mono i j hj hl))
    cases i with
    | zero =>
      have hcell : cellOf g (between g 0 0) = 0 := by rw [cellOf, hx, hc]; simp
      rw [hcell, normDistance, hcell, hx]
      simp
    | succ i =>
      have hcell : cellOf g (between g (i + 1) 0) = i := by
        rw [cellOf, hx, hc]; simp only [Nat.add_sub_cancel]; omega
      have hlt' := hg i (i + 1) (Nat.lt_succ_self i) (by omega)
      have hd : normDistance g (between g (i + 1) 0) = 1 := by
        rw [normDistance, hcell, hx]
        exact div_self (by linarith [sub_pos.2 hlt'])
      rw [hcell, hd]
      simp
  · have hx1 : g.getD i 0 < between g i s := by rw [between]; nlinarith
    have hx2 : between g i s ≤ g.getD (i + 1) 0 := by rw [between]; nlinarith
    have hc : g.countP (fun y => decide (y < between g i s)) = i + 1 := by
      refine countP_eq (by omega) ?_ ?_
      · intro j hj; exact decide_eq_true (lt_of_le_of_lt (mono j i (by omega) (by omega)) hx1)
      · intro j hj hl; exact decide_eq_false (not_lt.2 (le_trans hx2 (mono (i + 1) j hj hl)))
    have hcell : cellOf g (between g i s) = i := by
      rw [cellOf, hc]; simp only [Nat.add_sub_cancel]; omega
    have hne : g.getD (i + 1) 0 - g.getD i 0 ≠ 0 := by linarith [sub_pos.2 hlt]
    have hd : normDistance g (between g i s) = s := by
      rw [normDistance, hcell, div_eq_iff hne, between]; ring
    rw [hcell, hd]
    push_cast; ring

theorem between_inside {g : List ℝ} (hg : Increasing g) {i : Nat} (hi : i + 1 < g.length) {s : ℝ} (h0 : 0 ≤ s) (h1 : s ≤ 1) :
    ¬ OutOfBounds g (between g i s) := by
  have mono : ∀ j k, j ≤ k → k < g.length → g.getD j 0 ≤ g.getD k 0 := by
    intro j k hjk hk
    rcases Nat.lt_or_eq_of_le hjk with h | h
    · exact le_of_lt (hg j k h hk)
    · rw [h]
  have a1 := mono 0 i (Nat.zero_le _) (by omega)
  have a2 := mono (i + 1) (g.length - 1) (by omega) (by omega)
  have a3 := mono i (i + 1) (Nat.le_succ _) hi
  rw [OutOfBounds, between]
  intro h
  rcases h with h | h
  · nlinarith
  · nlinarith

/-! ### C106 -/

/-- C106: between the samples the interpolation is trilinear, in each box between neighbouring samples. -/
theorem interp_box {g : Fin 3 → List ℝ} (hg : ∀ a, Increasing (g a)) (v : Data) (i : Fin 3 → Nat)
    (hi : ∀ a, i a + 1 < (g a).length) (s : Fin 3 → ℝ) (hs : ∀ a, 0 ≤ s a ∧ s a ≤ 1) :
    interp g v (fun a => between (g a) (i a) (s a)) = trilinear v i s := by
  have hin : ¬ ∃ a, OutOfBounds (g a) (between (g a) (i a) (s a)) := by
    rintro ⟨a, h⟩
    exact between_inside (hg a) (hi a) (hs a).1 (hs a).2 h
  have ax := fun a => axis_value (hg a) (hi a) (hs a).1 (hs a).2
  rw [interp, if_neg hin]
  simp only [Fintype.sum_bool, if_true, Bool.false_eq_true, if_false]
  generalize hc0 : cellOf (g 0) (between (g 0) (i 0) (s 0)) = c0
  generalize hc1 : cellOf (g 1) (between (g 1) (i 1) (s 1)) = c1
  generalize hc2 : cellOf (g 2) (between (g 2) (i 2) (s 2)) = c2
  generalize hd0 : normDistance (g 0) (between (g 0) (i 0) (s 0)) = d0
  generalize hd1 : normDistance (g 1) (between (g 1) (i 1) (s 1)) = d1
  generalize hd2 : normDistance (g 2) (between (g 2) (i 2) (s 2)) = d2
  have ax0 := fun f => ax 0 f
  have ax1 := fun f => ax 1 f
  have ax2 := fun f => ax 2 f
  rw [hc0, hd0] at ax0
  rw [hc1, hd1] at ax1
  rw [hc2, hd2] at ax2
  have e2 : ∀ p q, (1 - d2 : ℝ) * v p q c2 + (d2 : ℝ) * v p q (c2 + 1) = (1 - s 2) * v p q (i 2) + s 2 * v p q (i 2 + 1) :=
    fun p q => ax2 fun l => v p q l
  have e1 : ∀ p, (1 - d1 : ℝ) * ((1 - s 2) * v p c1 (i 2) + s 2 * v p c1 (i 2 + 1)) +
      (d1 : ℝ) * ((1 - s 2) * v p (c1 + 1) (i 2) + s 2 * v p (c1 + 1) (i 2 + 1)) =
      (1 - s 1) * ((1 - s 2) * v p (i 1) (i 2) + s 2 * v p (i 1) (i 2 + 1)) +
      s 1 * ((1 - s 2) * v p (i 1 + 1) (i 2) + s 2 * v p (i 1 + 1) (i 2 + 1)) :=
    fun p => ax1 fun q => (1 - s 2) * v p q (i 2) + s 2 * v p q (i 2 + 1)
  have e0 := ax0 fun p => (1 - s 1) * ((1 - s 2) * v p (i 1) (i 2) + s 2 * v p (i 1) (i 2 + 1)) +
      s 1 * ((1 - s 2) * v p (i 1 + 1) (i 2) + s 2 * v p (i 1 + 1) (i 2 + 1))
  rw [trilinear, ← e0, ← e1, ← e1, ← e2, ← e2, ← e2, ← e2]
  push_cast
  ring

/-- C106: outside of the samples the overlap is zero. -/
theorem interp_outside (g : Fin 3 → List ℝ) (v : Data) (x : Fin 3 → ℝ) (a : Fin 3)
    (h : x a < (g a).getD 0 0 ∨ (g a).getD ((g a).length - 1) 0 < x a) : interp g v x = 0 := by
  rw [interp, if_pos ⟨a, h⟩]

/-- Where a position `x` lies along an axis of the file: between the samples `i` and `i + 1` at the fraction `s` of the way, all
moved by the centre; or, if the file has only one plane, within half a cell `h` of it. -/
def Located (l : List ℝ) (center h x : ℝ) (i : Nat) (s : ℝ) : Prop :=
  (l.length ≠ 1 ∧ i + 1 < l.length ∧ 0 ≤ s ∧ s ≤ 1 ∧ x = center + between l i s) ∨
  (l.length = 1 ∧ |x - (l.getD 0 0 + center)| ≤ h / 2 ∧ i = 0 ∧ s = 0)

/-- A position that is outside of the samples, or more than half a cell away from the only one. -/
def Outside (l : List ℝ) (center h x : ℝ) : Prop :=
  (l.length ≠ 1 ∧ (x < l.getD 0 0 + center ∨ l.getD (l.length - 1) 0 + center < x)) ∨
  (l.length = 1 ∧ h / 2 < |x - (l.getD 0 0 + center)|)

theorem getD_map_add (l : List ℝ) (c : ℝ) {n : Nat} (hn : n < l.length) : (l.map (· + c)).getD n 0 = l.getD n 0 + c := by
  rw [List.getD_eq_getElem _ _ (by simpa using hn), List.getD_eq_getElem _ _ hn, List.getElem_map]

theorem coords_plane {f : File} {center dx0 : Fin 3 → ℝ} {a : Fin 3} (h : (f.coords a).length = 1) :
    coords f center dx0 a = [(f.coords a).getD 0 0 + center a - dx0 a / 2, (f.coords a).getD 0 0 + center a,
      (f.coords a).getD 0 0 + center a + dx0 a / 2] := by
  obtain ⟨c, hc⟩ := List.length_eq_one_iff.1 h
  rw [coords, hc]; rfl

theorem coords_many {f : File} {center dx0 : Fin 3 → ℝ} {a : Fin 3} (h : (f.coords a).length ≠ 1) :
    coords f center dx0 a = (f.coords a).map (· + center a) := by
  rw [coords]
  split
  · next c hc =>
    exfalso; apply h
    have := congrArg List.length hc
    simpa using this
  · rfl

theorem coords_increasing {f : File} {center dx0 : Fin 3 → ℝ} {a : Fin 3} (hf : Increasing (f.coords a)) (hd : 0 < dx0 a) :
    Increasing (coords f center dx0 a) := by
  by_cases h : (f.coords a).length = 1
  · rw [coords_plane h]
    intro i j hij hj
    simp only [List.length_cons, List.length_nil] at hj
    have : (i = 0 ∧ j = 1) ∨ (i = 0 ∧ j = 2) ∨ (i = 1 ∧ j = 2) := by omega
    rcases this with ⟨rfl, rfl⟩ | ⟨rfl, rfl⟩ | ⟨rfl, rfl⟩ <;> simp [List.getD] <;> linarith
  · rw [coords_many h]
    intro i j hij hj
    rw [List.length_map] at hj
    rw [getD_map_add _ _ (by omega), getD_map_add _ _ hj]
    linarith [hf i j hij hj]

/-- The index into the data of the file. -/
def fileIdx (l : List ℝ) (n : Nat) : Nat := if l.length = 1 then 0 else n

theorem located_axis {f : File} {center dx0 : Fin 3 → ℝ} {a : Fin 3} (hd : 0 < dx0 a) {x : ℝ} {i : Nat} {s : ℝ}
    (hl : Located (f.coords a) (center a) (dx0 a) x i s) :
    ∃ i' s', i' + 1 < (coords f center dx0 a).length ∧ (0 ≤ s' ∧ s' ≤ 1) ∧ x = between (coords f center dx0 a) i' s' ∧
      ∀ F : Nat → ℂ, (1 - s' : ℝ) * F (fileIdx (f.coords a) i') + s' * F (fileIdx (f.coords a) (i' + 1)) =
        (1 - s : ℝ) * F i + s * F (i + 1) := by
  rcases hl with ⟨h1, hi, h0, hs1, hx⟩ | ⟨h1, habs, rfl, rfl⟩
  · refine ⟨i, s, ?_, ⟨h0, hs1⟩, ?_, ?_⟩
    · rw [coords_many h1, List.length_map]; exact hi
    · rw [coords_many h1, between, getD_map_add _ _ (by omega), getD_map_add _ _ hi, hx, between]; ring
    · intro F; simp only [fileIdx, if_neg h1]
  · rw [abs_le] at habs
    set c := (f.coords a).getD 0 0 + center a with hc
    rw [coords_plane h1, ← hc]
    have hd' : dx0 a ≠ 0 := ne_of_gt hd
    rcases le_total x c with hle | hle
    · refine ⟨0, (x - (c - dx0 a / 2)) / (dx0 a / 2), by simp, ⟨?_, ?_⟩, ?_, ?_⟩
      · exact div_nonneg (by linarith) (by linarith)
      · rw [div_le_one (by linarith)]; linarith
      · simp only [between, List.getD_cons_zero, List.getD_cons_succ]; field_simp; ring
      · intro F; simp only [fileIdx, if_pos h1]; push_cast; ring
    · refine ⟨1, (x - c) / (dx0 a / 2), by simp, ⟨?_, ?_⟩, ?_, ?_⟩
      · exact div_nonneg (by linarith) (by linarith)
      · rw [div_le_one (by linarith)]; linarith
      · simp only [between, List.getD_cons_zero, List.getD_cons_succ]; field_simp; ring
      · intro F; simp only [fileIdx, if_pos h1]; push_cast; ring

/-- C106: component `k` of an imported overlap at a cell is the trilinear interpolation of that component of the file at the
position of the component on the Yee grid, relative to the centre; along an axis with a single plane it is the value of the plane
for positions within half a cell of it. -/
theorem import_overlap_value (f : File) (center : Fin 3 → ℝ) (edges : Fin 3 → List ℝ) (k : Fin 3) (c : Fin 3 → Nat)
    (hf : ∀ a, Increasing (f.coords a)) (hd : ∀ a, 0 < cellSize edges a 0) (i : Fin 3 → Nat) (s : Fin 3 → ℝ)
    (hl : ∀ a, Located (f.coords a) (center a) (cellSize edges a 0) (yeePos edges k a (c a)) (i a) (s a)) :
    importOverlap f center edges k c = trilinear (f.field k) i s := by
  choose i' s' hi' hs' hx' hF using fun a => located_axis (dx0 := fun a => cellSize edges a 0) (hd a) (hl a)
  have hbox := interp_box (g := coords f center fun a => cellSize edges a 0) (fun a => coords_increasing (hf a) (hd a))
    (repeated f k) i' hi' s' hs'
  have hpos : (fun a => yeePos edges k a (c a)) =
      fun a => between (coords f center (fun a => cellSize edges a 0) a) (i' a) (s' a) := funext hx'
  rw [importOverlap, hpos, hbox]
  have hrep : ∀ p q r, repeated f k p q r =
      f.field k (fileIdx (f.coords 0) p) (fileIdx (f.coords 1) q) (fileIdx (f.coords 2) r) := fun _ _ _ => rfl
  simp only [trilinear, hrep]
  have e2 : ∀ p q, _ = _ := fun p q => hF 2 fun l => f.field k p q l
  have e1 : ∀ p, _ = _ := fun p => hF 1 fun q => (1 - s 2 : ℝ) * f.field k p q (i 2) + s 2 * f.field k p q (i 2 + 1)
  have e0 := hF 0 fun p => (1 - s 1 : ℝ) * ((1 - s 2 : ℝ) * f.field k p (i 1) (i 2) + s 2 * f.field k p (i 1) (i 2 + 1)) +
      s 1 * ((1 - s 2 : ℝ) * f.field k p (i 1 + 1) (i 2) + s 2 * f.field k p (i 1 + 1) (i 2 + 1))
  push_cast at e0 e1 e2
  rw [← e0, ← e1, ← e1, ← e2, ← e2, ← e2, ← e2]

/-- C106: outside of the file's samples the overlap is zero. -/
theorem import_overlap_outside (f : File) (center : Fin 3 → ℝ) (edges : Fin 3 → List ℝ) (k : Fin 3) (c : Fin 3 → Nat) (a : Fin 3)
    (hne : f.coords a ≠ [])
    (h : Outside (f.coords a) (center a) (cellSize edges a 0) (yeePos edges k a (c a))) :
    importOverlap f center edges k c = 0 := by
  rw [importOverlap]
  refine interp_outside _ _ _ a ?_
  have hpos : 0 < (f.coords a).length := List.length_pos_iff.2 hne
  rcases h with ⟨h1, h2⟩ | ⟨h1, h2⟩
  · rw [coords_many h1, getD_map_add _ _ hpos, List.length_map, getD_map_add _ _ (by omega)]
    exact h2
  · rw [coords_plane h1]
    rw [lt_abs] at h2
    simp only [List.getD_cons_zero, List.length_cons, List.length_nil]
    show _ < _ ∨ (f.coords a).getD 0 0 + center a + cellSize edges a 0 / 2 < _
    rcases h2 with h2 | h2
    · right; linarith
    · left; linarith

/-- Moving everything: the edges of a grid moved by `t`. -/
def movedEdges (edges : Fin 3 → List ℝ) (t : Fin 3 → ℝ) : Fin 3 → List ℝ := fun a => (edges a).map (· + t a)

theorem yeePos_moved (edges : Fin 3 → List ℝ) (t : Fin 3 → ℝ) (k a : Fin 3) {n : Nat} (hn : n + 1 < (edges a).length) :
    yeePos (movedEdges edges t) k a n = yeePos edges k a n + t a := by
  simp only [yeePos, cellCenter, cellSize, movedEdges]
  rw [getD_map_add _ _ hn, getD_map_add _ _ (by omega)]
  ring

/-- C106: only the position of the centre relative to the grid matters: moving the centre and the grid alike changes nothing. -/
theorem import_overlap_moved (f : File) (center t : Fin 3 → ℝ) (edges : Fin 3 → List ℝ) (k : Fin 3) (c : Fin 3 → Nat)
    (hf : ∀ a, Increasing (f.coords a)) (hd : ∀ a, 0 < cellSize edges a 0) (hc : ∀ a, c a + 1 < (edges a).length)
    (i : Fin 3 → Nat) (s : Fin 3 → ℝ)
    (hl : ∀ a, Located (f.coords a) (center a) (cellSize edges a 0) (yeePos edges k a (c a)) (i a) (s a)) :
    importOverlap f (fun a => center a + t a) (movedEdges edges t) k c = importOverlap f center edges k c := by
  have hsz : ∀ a, cellSize (movedEdges edges t) a 0 = cellSize edges a 0 := by
    intro a
    have := hc a
    simp only [cellSize, movedEdges]
    rw [getD_map_add _ _ (by omega), getD_map_add _ _ (by omega)]; ring
  rw [import_overlap_value f center edges k c hf hd i s hl]
  refine import_overlap_value f _ _ k c hf (fun a => by rw [hsz]; exact hd a) i s fun a => ?_
  rw [hsz, yeePos_moved _ _ _ _ (hc a)]
  rcases hl a with ⟨h1, hi, h0, hs1, hx⟩ | ⟨h1, habs, h2, h3⟩
  · exact Or.inl ⟨h1, hi, h0, hs1, by rw [hx]; ring⟩
  · refine Or.inr ⟨h1, ?_, h2, h3⟩
    rw [show yeePos edges k a (c a) + t a - ((f.coords a).getD 0 0 + (center a + t a)) =
      yeePos edges k a (c a) - ((f.coords a).getD 0 0 + center a) by ring]
    exact habs

/-- C106: the interpolated value is never larger than the largest sample of the box. -/
theorem trilinear_le (v : Data) (i : Fin 3 → Nat) (s : Fin 3 → ℝ) (hs : ∀ a, 0 ≤ s a ∧ s a ≤ 1) {M : ℝ}
    (hM : ∀ p q r, (p = i 0 ∨ p = i 0 + 1) → (q = i 1 ∨ q = i 1 + 1) → (r = i 2 ∨ r = i 2 + 1) → ‖v p q r‖ ≤ M) :
    ‖trilinear v i s‖ ≤ M := by
  have lin : ∀ (t : ℝ) (z w : ℂ), 0 ≤ t → t ≤ 1 → ‖z‖ ≤ M → ‖w‖ ≤ M → ‖(1 - t) * z + t * w‖ ≤ M := by
    intro t z w h0 h1 hz hw
    have e1 : ‖((1 - t : ℂ)) * z‖ = (1 - t) * ‖z‖ := by
      rw [norm_mul, show (1 - t : ℂ) = ((1 - t : ℝ) : ℂ) by push_cast; rfl, Complex.norm_real, Real.norm_of_nonneg (by linarith)]
    have e2 : ‖(t : ℂ) * w‖ = t * ‖w‖ := by rw [norm_mul, Complex.norm_real, Real.norm_of_nonneg h0]
    calc _ ≤ ‖((1 - t : ℂ)) * z‖ + ‖(t : ℂ) * w‖ := norm_add_le _ _
      _ = (1 - t) * ‖z‖ + t * ‖w‖ := by rw [e1, e2]
      _ ≤ (1 - t) * M + t * M := by
          exact add_le_add (mul_le_mul_of_nonneg_left hz (by linarith)) (mul_le_mul_of_nonneg_left hw h0)
      _ = M := by ring
  rw [trilinear]
  refine lin _ _ _ (hs 0).1 (hs 0).2 (lin _ _ _ (hs 1).1 (hs 1).2 (lin _ _ _ (hs 2).1 (hs 2).2 ?_ ?_)
    (lin _ _ _ (hs 2).1 (hs 2).2 ?_ ?_)) (lin _ _ _ (hs 1).1 (hs 1).2 (lin _ _ _ (hs 2).1 (hs 2).2 ?_ ?_)
    (lin _ _ _ (hs 2).1 (hs 2).2 ?_ ?_)) <;> exact hM _ _ _ (by simp) (by simp) (by simp)

/-! ### Single planes on uniform grids -/

/-- The edges of a uniform axis with `m` cells of size `h`. -/
def uniformEdges (e0 h : ℝ) (m : Nat) : List ℝ := (List.range (m + 1)).map fun n : Nat => e0 + (n : ℝ) * h

theorem uniform_getD (e0 h : ℝ) {m n : Nat} (hn : n ≤ m) : (uniformEdges e0 h m).getD n 0 = e0 + n * h := by
  rw [uniformEdges, List.getD_eq_getElem _ _ (by simp; omega)]
  simp

theorem uniform_pos {edges : Fin 3 → List ℝ} {a : Fin 3} {e0 h : ℝ} {m : Nat} (he : edges a = uniformEdges e0 h m) (k : Fin 3)
    {n : Nat} (hn : n < m) : yeePos edges k a n = e0 + n * h + h / 2 + (if a = k then h / 2 else 0) := by
  simp only [yeePos, cellCenter, cellSize, he]
  rw [uniform_getD _ _ (by omega), uniform_getD _ _ (by omega)]
  push_cast
  split <;> ring

theorem uniform_size {edges : Fin 3 → List ℝ} {a : Fin 3} {e0 h : ℝ} {m : Nat} (he : edges a = uniformEdges e0 h m) (hm : 0 < m) :
    cellSize edges a 0 = h := by
  simp only [cellSize, he]
  rw [uniform_getD _ _ (by omega), uniform_getD _ _ (by omega)]
  push_cast; ring

/-- C106 (partial): on a uniform grid an overlap that the file gives on a single plane is put on at most one plane of cells, namely
one whose positions are less than half a cell away, unless the plane lies exactly halfway between two of them. Missing: the
halfway case, see `import_overlap_double_false`. -/
theorem import_overlap_single_plane_partial (f : File) (center : Fin 3 → ℝ) (edges : Fin 3 → List ℝ) (k a : Fin 3) {e0 h : ℝ}
    {m : Nat} (he : edges a = uniformEdges e0 h m) (hh : 0 < h) (h1 : (f.coords a).length = 1)
    (hhalf : ∀ n < m, |yeePos edges k a n - ((f.coords a).getD 0 0 + center a)| ≠ h / 2)
    (c c' : Fin 3 → Nat) (hc : c a < m) (hc' : c' a < m) (hz : importOverlap f center edges k c ≠ 0)
    (hz' : importOverlap f center edges k c' ≠ 0) :
    c a = c' a ∧ |yeePos edges k a (c a) - ((f.coords a).getD 0 0 + center a)| < h / 2 := by
  have hne : f.coords a ≠ [] := by intro h0; rw [h0] at h1; simp at h1
  have near : ∀ d : Fin 3 → Nat, d a < m → importOverlap f center edges k d ≠ 0 →
      |yeePos edges k a (d a) - ((f.coords a).getD 0 0 + center a)| < h / 2 := by
    intro d hd hnz
    refine lt_of_le_of_ne ?_ (hhalf _ hd)
    by_contra hlt
    rw [not_le] at hlt
    refine hnz (import_overlap_outside f center edges k d a hne (Or.inr ⟨h1, ?_⟩))
    rw [uniform_size he (by omega)]; exact hlt
  have n1 := near c hc hz
  have n2 := near c' hc' hz'
  refine ⟨?_, n1⟩
  rw [uniform_pos he k hc, abs_lt] at n1
  rw [uniform_pos he k hc', abs_lt] at n2
  have key : ∀ p q : Nat, (p : ℝ) * h - q * h < h → p ≤ q := by
    intro p q hpq
    by_contra hlt
    have : (q : ℝ) + 1 ≤ p := by exact_mod_cast (by omega : q + 1 ≤ p)
    nlinarith
  exact le_antisymm (key _ _ (by linarith [n1.2, n2.1])) (key _ _ (by linarith [n2.2, n1.1]))

/-- C106: and it is not lost: a plane between the first and the last positions is within half a cell of some plane of cells. -/
theorem import_overlap_not_lost {edges : Fin 3 → List ℝ} {a : Fin 3} {e0 h : ℝ} {m : Nat} (he : edges a = uniformEdges e0 h m)
    (k : Fin 3) {x : ℝ} (hm : 0 < m) (h0 : yeePos edges k a 0 - h / 2 ≤ x)
    (h1 : x ≤ yeePos edges k a (m - 1) + h / 2) : ∃ n < m, |yeePos edges k a n - x| ≤ h / 2 := by
  have hmm : ∀ j, j < m → (x ≤ yeePos edges k a j + h / 2) → ∃ n < m, |yeePos edges k a n - x| ≤ h / 2 := by
    intro j
    induction j with
    | zero =>
      intro hj hx
      exact ⟨0, hj, by rw [abs_le]; constructor <;> linarith⟩
    | succ j ih =>
      intro hj hx
      by_cases hx' : x ≤ yeePos edges k a j + h / 2
      · exact ih (by omega) hx'
      · refine ⟨j + 1, hj, ?_⟩
        rw [not_le] at hx'
        have e : yeePos edges k a (j + 1) = yeePos edges k a j + h := by
          rw [uniform_pos he k hj, uniform_pos he k (by omega)]; push_cast; ring
        rw [abs_le]; constructor <;> linarith
  exact hmm (m - 1) (by omega) h1

/-! ### Witnesses -/

/-- A file with one plane in z: `Ex = 1` on the square from (0, 0) to (1, 1). -/
noncomputable def planeFile : File where
  coords := fun a => if a = 2 then [0] else [0, 1]
  field := fun k _ _ _ => if k = 0 then 1 else 0

/-- A grid of 1 x 1 x 4 unit cells with edges at 0. -/
noncomputable def unitEdges : Fin 3 → List ℝ := fun a => if a = 2 then uniformEdges 0 1 4 else uniformEdges 0 1 1

theorem plane_increasing (a : Fin 3) : Increasing (planeFile.coords a) := by
  intro i j hij hj
  by_cases h : a = 2
  · simp only [planeFile, h, if_true, List.length_singleton] at hj; omega
  · simp only [planeFile, h, if_false, List.length_cons, List.length_nil] at hj
    obtain ⟨rfl, rfl⟩ : i = 0 ∧ j = 1 := by omega
    simp [planeFile, h]

theorem unit_edges (a : Fin 3) : unitEdges a = uniformEdges 0 1 (if a = 2 then 4 else 1) := by
  rw [unitEdges]; split <;> rfl

theorem unit_size (a : Fin 3) : cellSize unitEdges a 0 = 1 := uniform_size (unit_edges a) (by split <;> omega)

/-- With the plane at height `z`, component `Ex` at the cell `n` along z, if within half a cell. -/
theorem plane_value (z : ℝ) (n : Nat) (hn : n < 4) (hz : |(n : ℝ) + 1 / 2 - z| ≤ 1 / 2) :
    importOverlap planeFile (fun a => if a = 2 then z else 0) unitEdges 0 (fun a => if a = 2 then n else 0) = 1 := by
  rw [import_overlap_value planeFile _ unitEdges 0 _ plane_increasing (fun a => by rw [unit_size]; norm_num) (fun _ => 0)
    (fun a => if a = 0 then 1 else if a = 1 then 1 / 2 else 0)]
  · simp [trilinear, planeFile]
  · intro a
    rw [unit_size, uniform_pos (unit_edges a) 0 (by split <;> omega)]
    fin_cases a
    · left; simp [planeFile, between]; norm_num
    · left; simp [planeFile, between]; norm_num
    · right
      refine ⟨by simp [planeFile], ?_, rfl, by simp⟩
      simp [planeFile]
      rw [show (2⁻¹ : ℝ) = 1 / 2 by norm_num]
      exact hz

/-- C106 (refuted): a plane at an edge between two cells is halfway between the positions of the tangential components, and is put
on both planes of cells: the overlap is counted twice. -/
theorem import_overlap_double_false :
    ∃ (f : File) (center : Fin 3 → ℝ) (edges : Fin 3 → List ℝ) (c c' : Fin 3 → Nat), (f.coords 2).length = 1 ∧
      (∀ a, Increasing (f.coords a)) ∧ edges 2 = uniformEdges 0 1 4 ∧ c 2 = 1 ∧ c' 2 = 2 ∧ (∀ a ≠ 2, c a = c' a) ∧
      importOverlap f center edges 0 c = 1 ∧ importOverlap f center edges 0 c' = 1 :=
  ⟨planeFile, fun a => if a = 2 then 2 else 0, unitEdges, fun a => if a = 2 then 1 else 0, fun a => if a = 2 then 2 else 0,
    by simp [planeFile], plane_increasing, by simp [unitEdges], by simp, by simp, fun a ha => by simp [ha],
    plane_value 2 1 (by norm_num) (by rw [abs_le]; constructor <;> norm_num),
    plane_value 2 2 (by norm_num) (by rw [abs_le]; constructor <;> norm_num)⟩

/-- The hypotheses of `import_overlap_single_plane_partial` are met: the plane at 1.7 is put on the cells from 1 to 2 only. -/
example : importOverlap planeFile (fun a => if a = 2 then 1.7 else 0) unitEdges 0 (fun a => if a = 2 then 1 else 0) ≠ 0 ∧
    ∀ n < 4, |yeePos unitEdges 0 2 n - ((planeFile.coords 2).getD 0 0 + 1.7)| ≠ (1 : ℝ) / 2 := by
  constructor
  · rw [plane_value 1.7 1 (by norm_num) (by rw [abs_le]; constructor <;> norm_num)]; exact one_ne_zero
  · intro n hn
    rw [uniform_pos (unit_edges 2) 0 (by simpa using hn)]
    intro h
    rcases (abs_eq (by norm_num)).1 h with h | h <;>
    · interval_cases n <;> simp [planeFile] at h <;> norm_num at h

/-- The hypotheses of `interp_box` are met. -/
example : Increasing [0, 1, 3] ∧ 1 + 1 < [(0 : ℝ), 1, 3].length := by
  refine ⟨?_, by simp⟩
  intro i j hij hj
  simp only [List.length_cons, List.length_nil] at hj
  have : (i = 0 ∧ j = 1) ∨ (i = 0 ∧ j = 2) ∨ (i = 1 ∧ j = 2) := by omega
  rcases this with ⟨rfl, rfl⟩ | ⟨rfl, rfl⟩ | ⟨rfl, rfl⟩ <;> simp [List.getD]

end Verif.Fdfd.Import
