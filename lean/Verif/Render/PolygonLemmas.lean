import Verif.Render.Polygon
import Verif.Render.GridProps
import Mathlib.Data.List.GetD
/-
Lemmas for C86: the sum of the segments of a closed path inside the pixels, and what the steps of `raster_2D` do to it.
-/
set_option linter.unusedVariables false
set_option linter.unusedSectionVars false
namespace Verif.Render.Polygon

open Verif.Render

/-! ### Paths -/

section paths

variable {A : Type} {B : Type}

/-- The sum of a function of the segments along a path. -/
def pathSum {M : Type} [AddCommMonoid M] (f : A → A → M) : A → List A → M
  | _, [] => 0
  | u, v :: l => f u v + pathSum f v l

/-- A relation between the ends of all segments along a path. -/
def Along (R : A → A → Prop) : A → List A → Prop
  | _, [] => True
  | u, v :: l => R u v ∧ Along R v l

/-- The segments of a path. -/
def pairs : A → List A → List (A × A)
  | _, [] => []
  | u, v :: l => (u, v) :: pairs v l

theorem pathSum_pairs {M : Type} [AddCommMonoid M] (f : A → A → M) (u : A) (l : List A) :
    ((pairs u l).map fun s => f s.1 s.2).sum = pathSum f u l := by
  induction l generalizing u with
  | nil => rfl
  | cons v l ih => simp [pairs, pathSum, ih]

theorem along_pairs (R : A → A → Prop) (u : A) (l : List A) : Along R u l ↔ ∀ s ∈ pairs u l, R s.1 s.2 := by
  induction l generalizing u with
  | nil => simp [pairs, Along]
  | cons v l ih => simp only [pairs, Along, List.mem_cons, forall_eq_or_imp, ih]

theorem pathSum_append {M : Type} [AddCommMonoid M] (f : A → A → M) (u v : A) (l m : List A) :
    pathSum f u (l ++ v :: m) = pathSum f u (l ++ [v]) + pathSum f v m := by
  induction l generalizing u with
  | nil => simp [pathSum]
  | cons w l ih => simp only [List.cons_append, pathSum, ih, add_assoc]

theorem along_append (R : A → A → Prop) (u v : A) (l m : List A) :
    Along R u (l ++ v :: m) ↔ Along R u (l ++ [v]) ∧ Along R v m := by
  induction l generalizing u with
  | nil => simp [Along]
  | cons w l ih => simp only [List.cons_append, Along, ih, and_assoc]

theorem pathSum_map {M : Type} [AddCommMonoid M] (g : B → A) (f : A → A → M) (u : B) (l : List B) :
    pathSum f (g u) (l.map g) = pathSum (fun a b => f (g a) (g b)) u l := by
  induction l generalizing u with
  | nil => rfl
  | cons v l ih => simp only [List.map_cons, pathSum, ih]

theorem along_map (g : B → A) (R : A → A → Prop) (u : B) (l : List B) :
    Along R (g u) (l.map g) ↔ Along (fun a b => R (g a) (g b)) u l := by
  induction l generalizing u with
  | nil => rfl
  | cons v l ih => simp only [List.map_cons, Along, ih]

theorem along_mono {R S : A → A → Prop} (h : ∀ a b, R a b → S a b) (u : A) (l : List A) (hl : Along R u l) :
    Along S u l := by
  induction l generalizing u with
  | nil => trivial
  | cons v l ih => exact ⟨h _ _ hl.1, ih _ hl.2⟩

theorem pairs_zip (u : A) (l : List A) (z : A) : pairs u (l ++ [z]) = (u :: l).zip (l ++ [z]) := by
  induction l generalizing u with
  | nil => rfl
  | cons v l ih =>
    simp only [List.cons_append, pairs, List.zip_cons_cons, ih]

/-- A property that passes on along all segments of a closed path and holds somewhere holds everywhere. -/
theorem along_end {Q : A → Prop} (u : A) (l : List A) (z : A) (h : Along (fun a b => Q a → Q b) u (l ++ [z]))
    (hq : ∃ w ∈ u :: l, Q w) : Q z := by
  induction l generalizing u with
  | nil =>
    obtain ⟨w, hw, hq⟩ := hq
    simp only [List.mem_singleton] at hw
    subst hw
    exact h.1 hq
  | cons v l ih =>
    refine ih v h.2 ?_
    obtain ⟨w, hw, hq⟩ := hq
    rcases List.mem_cons.1 hw with rfl | hw
    · exact ⟨v, List.mem_cons_self, h.1 hq⟩
    · exact ⟨w, hw, hq⟩

theorem along_all {Q : A → Prop} (u : A) (l : List A) (h : Along (fun a b => Q a → Q b) u l) (hu : Q u) :
    ∀ w ∈ l, Q w := by
  induction l generalizing u with
  | nil => simp
  | cons v l ih =>
    intro w hw
    rcases List.mem_cons.1 hw with rfl | hw
    · exact h.1 hu
    · exact ih v h.2 (h.1 hu) w hw

end paths

variable {K : Type} [Field K] [LinearOrder K]

theorem edges_eq (u : K × K) (l : List (K × K)) : edges (u :: l) = pairs u (l ++ [u]) := by
  simp only [edges, List.tail_cons, List.head?_cons, Option.toList_some]
  exact (pairs_zip u l u).symm

variable [IsStrictOrderedRing K]

/-! ### Clipping -/

theorem clip_le {x a b : K} (hab : a ≤ b) (h : x ≤ a) : clip x a b = a := by
  rw [clip, max_eq_right h, min_eq_left hab]

theorem clip_ge {x a b : K} (h : b ≤ x) : clip x a b = b := by
  rw [clip, min_eq_right (le_trans h (le_max_left _ _))]

theorem clip_mid {x a b : K} (h1 : a ≤ x) (h2 : x ≤ b) : clip x a b = x := by
  rw [clip, max_eq_left h1, min_eq_left h2]

theorem clip_mem {x a b : K} (hab : a ≤ b) : a ≤ clip x a b ∧ clip x a b ≤ b :=
  ⟨le_min (le_max_right _ _) hab, min_le_right _ _⟩

theorem clip_clip {x a b c d : K} (h1 : a ≤ c) (h2 : c ≤ d) (h3 : d ≤ b) : clip (clip x a b) c d = clip x c d := by
  rcases le_total x a with h | h
  · rw [clip_le (le_trans h1 (le_trans h2 h3)) h, clip_le h2 h1, clip_le h2 (le_trans h h1)]
  · rcases le_total x b with h' | h'
    · rw [clip_mid h h']
    · rw [clip_ge h', clip_ge h3, clip_ge (le_trans h3 h')]

theorem clip_lt {x a b c : K} (h1 : a ≤ c) (h2 : c ≤ b) : clip x a b < c → x < c := by
  intro h
  by_contra hx
  push Not at hx
  have : c ≤ clip x a b := le_min (le_trans hx (le_max_left _ _)) h2
  exact absurd h (not_lt.2 this)

theorem lt_clip {x a b c : K} (h1 : a ≤ c) (h2 : c ≤ b) : c < clip x a b → c < x := by
  intro h
  by_contra hx
  push Not at hx
  have : clip x a b ≤ c := le_trans (min_le_left _ _) (max_le hx h1)
  exact absurd h (not_lt.2 this)

/-! ### The value of a segment in a pixel -/

/-- The area to the right of a segment inside a pixel `[a, b] × [c, d]`, if the segment crosses none of the lines of its
sides. -/
def cellArea (a b c d : K) (u v : K × K) : K :=
  ((b - clip u.1 a b) + (b - clip v.1 a b)) / 2 * (clip v.2 c d - clip u.2 c d)

theorem cellArea_self (a b c d : K) (u : K × K) : cellArea a b c d u u = 0 := by simp [cellArea]

/-- No line of the list is strictly between the numbers. -/
def NotBetween (cs : List K) (x y : K) : Prop := ∀ c ∈ cs, ¬ (x < c ∧ c < y) ∧ ¬ (y < c ∧ c < x)

/-- No line of the grid separates the points. -/
def Near (gx gy : List K) (u v : K × K) : Prop := NotBetween gx u.1 v.1 ∧ NotBetween gy u.2 v.2

/-- The second number is on the same side of all lines as the first, or on the line itself. -/
def Closer (cs : List K) (x y : K) : Prop := ∀ c ∈ cs, (x < c → y ≤ c) ∧ (c < x → c ≤ y) ∧ (x = c → y = c)

/-- The same for points. -/
def Touch (gx gy : List K) (u v : K × K) : Prop := Closer gx u.1 v.1 ∧ Closer gy u.2 v.2

theorem NotBetween.symm {cs : List K} {x y : K} (h : NotBetween cs x y) : NotBetween cs y x :=
  fun c hc => ⟨(h c hc).2, (h c hc).1⟩

theorem Closer.notBetween {cs : List K} {x y : K} (h : Closer cs x y) : NotBetween cs x y := by
  intro c hc
  obtain ⟨h1, h2, h3⟩ := h c hc
  exact ⟨fun ⟨a, b⟩ => absurd b (not_lt.2 (h1 a)), fun ⟨a, b⟩ => absurd a (not_lt.2 (h2 b))⟩

theorem Closer.both {cs : List K} {x y z : K} (h1 : Closer cs x y) (h2 : Closer cs x z) : NotBetween cs y z := by
  intro c hc
  obtain ⟨a1, a2, a3⟩ := h1 c hc
  obtain ⟨b1, b2, b3⟩ := h2 c hc
  rcases lt_trichotomy x c with h | h | h
  · exact ⟨fun ⟨a, b⟩ => absurd b (not_lt.2 (b1 h)), fun ⟨a, b⟩ => absurd b (not_lt.2 (a1 h))⟩
  · exact ⟨fun ⟨a, b⟩ => absurd (a3 h) a.ne, fun ⟨a, b⟩ => absurd (b3 h) a.ne⟩
  · exact ⟨fun ⟨a, b⟩ => absurd a (not_lt.2 (a2 h)), fun ⟨a, b⟩ => absurd a (not_lt.2 (b2 h))⟩

theorem Closer.trans_of_symm {cs : List K} {x y z : K} (h1 : Closer cs x y) (h2 : Closer cs y x) (h3 : Closer cs x z) :
    Closer cs y z := by
  intro c hc
  obtain ⟨a1, a2, a3⟩ := h1 c hc
  obtain ⟨b1, b2, b3⟩ := h2 c hc
  obtain ⟨c1, c2, c3⟩ := h3 c hc
  rcases lt_trichotomy x c with h | h | h
  · have hy : y < c := lt_of_le_of_ne (a1 h) fun e => h.ne (b3 e)
    exact ⟨fun _ => c1 h, fun h' => absurd h' (not_lt.2 hy.le), fun e => absurd e hy.ne⟩
  · have hy : y = c := a3 h
    exact ⟨fun h' => absurd hy h'.ne, fun h' => absurd hy h'.ne', fun e => c3 h⟩
  · have hy : c < y := lt_of_le_of_ne (a2 h) fun e => h.ne' (b3 e.symm)
    exact ⟨fun h' => absurd h' (not_lt.2 hy.le), fun _ => c2 h, fun e => absurd e hy.ne'⟩

/-! ### A pixel of the grid -/

/-- The sides of a pixel. -/
structure Sides (gx gy : List K) (i j : Nat) : Prop where
  hx : gx.Pairwise (· < ·)
  hy : gy.Pairwise (· < ·)
  hi : i + 1 < gx.length
  hj : j + 1 < gy.length

theorem at'_mem (l : List K) {i : Nat} (hi : i < l.length) : at' l i ∈ l := by
  rw [at', List.getD_eq_getElem l 0 hi]
  exact List.getElem_mem hi

theorem mem_range {l : List K} (hl : l.Pairwise (· < ·)) {c : K} (hc : c ∈ l) :
    at' l 0 ≤ c ∧ c ≤ at' l (l.length - 1) := by
  obtain ⟨k, hk, rfl⟩ := List.getElem_of_mem hc
  have : l[k] = at' l k := (List.getD_eq_getElem l 0 hk).symm
  rw [this]
  exact ⟨at'_le hl (Nat.zero_le k) hk, at'_le hl (by omega) (by omega)⟩

theorem at'_widths (l : List K) {i : Nat} (hi : i + 1 < l.length) : at' (widths l) i = at' l (i + 1) - at' l i := by
  have h : i < (widths l).length := by simp [widths]; omega
  rw [at', List.getD_eq_getElem _ 0 h, at', at', List.getD_eq_getElem l 0 hi, List.getD_eq_getElem l 0 (by omega)]
  simp [widths]

/-- A segment which is removed because its middle is on the right or top edge has no part in the pixel. -/
theorem cellArea_edge {gx gy : List K} {i j : Nat} (h : Sides gx gy i j) {u v : K × K}
    (hu : onGrid gx gy u = true) (hv : onGrid gx gy v = true) (he : nonEdge gx gy (u, v) = false) :
    cellArea (at' gx i) (at' gx (i + 1)) (at' gy j) (at' gy (j + 1)) u v = 0 := by
  simp only [onGrid, decide_eq_true_eq] at hu hv
  obtain ⟨hu1, hu2, hu3, hu4⟩ := hu
  obtain ⟨hv1, hv2, hv3, hv4⟩ := hv
  have hxl : at' gx (i + 1) ≤ at' gx (gx.length - 1) := at'_le h.hx (by have := h.hi; omega) (by have := h.hi; omega)
  replace he := of_decide_eq_false he
  simp only [middle, not_and_or, not_lt] at he
  rcases he with he | he
  · have e1 : u.1 = at' gx (gx.length - 1) := by linarith
    have e2 : v.1 = at' gx (gx.length - 1) := by linarith
    rw [cellArea, e1, e2, clip_ge hxl]
    simp
  · have e1 : u.2 = at' gy (gy.length - 1) := by linarith
    have e2 : v.2 = at' gy (gy.length - 1) := by linarith
    rw [cellArea, e1, e2]
    simp

/-- The ends of a segment which no line separates are in the cell of its middle. -/
theorem in_cell {l : List K} (hl : l.Pairwise (· < ·)) {x y : K} (hx : at' l 0 ≤ x) (hy : at' l 0 ≤ y)
    (hn : NotBetween l x y) (hm : (x + y) * (1 / 2) < at' l (l.length - 1)) (hlen : 2 ≤ l.length) :
    ∃ m, m + 1 < l.length ∧ digitize l ((x + y) * (1 / 2)) - 1 = m ∧
      at' l m ≤ x ∧ at' l m ≤ y ∧ x ≤ at' l (m + 1) ∧ y ≤ at' l (m + 1) := by
  obtain ⟨d1, d2, d3⟩ := digitize_spec l hl ((x + y) * (1 / 2))
  have h0 : 1 ≤ digitize l ((x + y) * (1 / 2)) := by
    by_contra hc
    have := d3 0 (by omega) (by omega)
    linarith
  have h1 : digitize l ((x + y) * (1 / 2)) < l.length := by
    by_contra hc
    have := d2 (l.length - 1) (by omega)
    linarith
  refine ⟨digitize l ((x + y) * (1 / 2)) - 1, by omega, rfl, ?_⟩
  have a1 := d2 (digitize l ((x + y) * (1 / 2)) - 1) (by omega)
  have a2 := d3 (digitize l ((x + y) * (1 / 2)) - 1 + 1) (by omega) (by omega)
  have n1 := hn _ (at'_mem l (i := digitize l ((x + y) * (1 / 2)) - 1) (by omega))
  have n2 := hn _ (at'_mem l (i := digitize l ((x + y) * (1 / 2)) - 1 + 1) (by omega))
  generalize digitize l ((x + y) * (1 / 2)) - 1 = m at *
  refine ⟨?_, ?_, ?_, ?_⟩
  · by_contra hc
    exact n1.1 ⟨by linarith, by linarith⟩
  · by_contra hc
    exact n1.2 ⟨by linarith, by linarith⟩
  · by_contra hc
    exact n2.2 ⟨by linarith, by linarith⟩
  · by_contra hc
    exact n2.1 ⟨by linarith, by linarith⟩

/-- What a segment adds to the value of a pixel. -/
def segValue (gx gy : List K) (i j : Nat) (s : (K × K) × (K × K)) : K :=
  (if pixelOf gx gy s = (i, j) then - area gx gy s else 0) +
    ((List.range (i + 1)).map fun k => if pixelOf gx gy s = (k, j) then cover gx gy s else 0).sum

theorem sum_range_ite (n m : Nat) (x : K) :
    ((List.range n).map fun k => if m = k then x else 0).sum = if m < n then x else 0 := by
  induction n with
  | zero => simp
  | succ n ih =>
    rw [List.range_succ, List.map_append, List.sum_append, ih]
    simp only [List.map_cons, List.map_nil, List.sum_cons, List.sum_nil, add_zero]
    rcases lt_trichotomy m n with h | h | h
    · rw [if_pos h, if_neg (by omega), if_pos (by omega), add_zero]
    · rw [if_neg (by omega), if_pos h, if_pos (by omega), zero_add]
    · rw [if_neg (by omega), if_neg (by omega), if_neg (by omega), add_zero]

/-- A segment inside one pixel adds its area to the value of each pixel. -/
theorem segValue_eq {gx gy : List K} {i j : Nat} (h : Sides gx gy i j) {u v : K × K}
    (hu : onGrid gx gy u = true) (hv : onGrid gx gy v = true) (hn : Near gx gy u v)
    (he : nonEdge gx gy (u, v) = true) :
    segValue gx gy i j (u, v) * ((at' gx (i + 1) - at' gx i) * (at' gy (j + 1) - at' gy j)) =
      cellArea (at' gx i) (at' gx (i + 1)) (at' gy j) (at' gy (j + 1)) u v := by
  simp only [onGrid, decide_eq_true_eq] at hu hv
  obtain ⟨hu1, hu2, hu3, hu4⟩ := hu
  obtain ⟨hv1, hv2, hv3, hv4⟩ := hv
  replace he := of_decide_eq_true he
  simp only [middle] at he
  obtain ⟨m, hm, em, m1, m2, m3, m4⟩ := in_cell h.hx hu2 hv2 hn.1 he.1 (by have := h.hi; omega)
  obtain ⟨n, hn', en, n1, n2, n3, n4⟩ := in_cell h.hy hu4 hv4 hn.2 he.2 (by have := h.hj; omega)
  have hp : pixelOf gx gy (u, v) = (m, n) := by simp only [pixelOf, middle, em, en]
  have wx := at'_widths gx hm
  have wy := at'_widths gy hn'
  have hgi : at' gx i < at' gx (i + 1) := at'_lt h.hx (Nat.lt_succ_self i) h.hi
  have hgj : at' gy j < at' gy (j + 1) := at'_lt h.hy (Nat.lt_succ_self j) h.hj
  simp only [segValue, area, cover, hp, Prod.mk.injEq, wx, wy, middle]
  by_cases hnj : n = j
  · subst hnj
    simp only [and_true]
    rw [sum_range_ite]
    have hy' : at' gy (n + 1) - at' gy n ≠ 0 := by linarith
    rw [cellArea, clip_mid n2 n4, clip_mid n1 n3]
    rcases lt_trichotomy m i with hmi | hmi | hmi
    · have hle : at' gx (m + 1) ≤ at' gx i := at'_le h.hx (by omega) (by have := h.hi; omega)
      rw [if_neg (by omega), if_pos (by omega), clip_le hgi.le (le_trans m3 hle), clip_le hgi.le (le_trans m4 hle)]
      field_simp
      ring
    · subst hmi
      have hx' : at' gx (m + 1) - at' gx m ≠ 0 := by linarith
      rw [if_pos rfl, if_pos (by omega), clip_mid m1 m3, clip_mid m2 m4]
      field_simp
      ring
    · have hle : at' gx (i + 1) ≤ at' gx m := at'_le h.hx (by omega) (by omega)
      rw [if_neg (by omega), if_neg (by omega), clip_ge (le_trans hle m1), clip_ge (le_trans hle m2)]
      ring
  · simp only [hnj, and_false, if_false]
    have hc : clip v.2 (at' gy j) (at' gy (j + 1)) = clip u.2 (at' gy j) (at' gy (j + 1)) := by
      rcases lt_or_gt_of_ne hnj with hlt | hgt
      · have hle : at' gy (n + 1) ≤ at' gy j := at'_le h.hy (by omega) (by have := h.hj; omega)
        rw [clip_le hgj.le (le_trans n3 hle), clip_le hgj.le (le_trans n4 hle)]
      · have hle : at' gy (j + 1) ≤ at' gy n := at'_le h.hy (by omega) (by omega)
        rw [clip_ge (le_trans hle n1), clip_ge (le_trans hle n2)]
    rw [cellArea, hc]
    simp

theorem pixelSum_eq (gx gy : List K) (f : (K × K) × (K × K) → K) (segs : List ((K × K) × (K × K))) (i j : Nat) :
    pixelSum gx gy f segs i j = (segs.map fun s => if pixelOf gx gy s = (i, j) then f s else 0).sum := by
  unfold pixelSum
  induction segs with
  | nil => rfl
  | cons s l ih =>
    by_cases hs : pixelOf gx gy s = (i, j)
    · rw [List.filter_cons_of_pos (by simpa using hs), List.map_cons, List.sum_cons, ih, List.map_cons, List.sum_cons,
        if_pos hs]
    · rw [List.filter_cons_of_neg (by simpa using hs), ih, List.map_cons, List.sum_cons, if_neg hs, zero_add]

theorem sum_map_add' {B : Type} (l : List B) (f g : B → K) :
    (l.map fun b => f b + g b).sum = (l.map f).sum + (l.map g).sum := by
  induction l with
  | nil => simp
  | cons b l ih => simp only [List.map_cons, List.sum_cons, ih]; ring

theorem sum_comm' {B C : Type} (l : List B) (m : List C) (f : B → C → K) :
    (l.map fun b => (m.map fun c => f b c).sum).sum = (m.map fun c => (l.map fun b => f b c).sum).sum := by
  induction l with
  | nil => simp
  | cons b l ih =>
    simp only [List.map_cons, List.sum_cons, ih]
    rw [← sum_map_add']

theorem pixel_value (gx gy : List K) (segs : List ((K × K) × (K × K))) (i j : Nat) :
    pixelSum gx gy (fun s => - area gx gy s) segs i j +
      ((List.range (i + 1)).map fun k => pixelSum gx gy (cover gx gy) segs k j).sum =
    (segs.map (segValue gx gy i j)).sum := by
  simp only [pixelSum_eq]
  rw [sum_comm', ← sum_map_add']
  rfl

/-- The value of a pixel, for a closed path of which no segment crosses a line of the grid. -/
theorem pixel_area {gx gy : List K} {i j : Nat} (h : Sides gx gy i j) (segs : List ((K × K) × (K × K)))
    (hs : ∀ s ∈ segs, onGrid gx gy s.1 = true ∧ onGrid gx gy s.2 = true ∧ Near gx gy s.1 s.2) :
    (pixelSum gx gy (fun s => - area gx gy s) (segs.filter (nonEdge gx gy)) i j +
      ((List.range (i + 1)).map fun k => pixelSum gx gy (cover gx gy) (segs.filter (nonEdge gx gy)) k j).sum) *
        ((at' gx (i + 1) - at' gx i) * (at' gy (j + 1) - at' gy j)) =
    (segs.map fun s => cellArea (at' gx i) (at' gx (i + 1)) (at' gy j) (at' gy (j + 1)) s.1 s.2).sum := by
  rw [pixel_value]
  induction segs with
  | nil => simp
  | cons s l ih =>
    obtain ⟨h1, h2, h3⟩ := hs s List.mem_cons_self
    have ih' := ih fun t ht => hs t (List.mem_cons_of_mem _ ht)
    obtain ⟨u, v⟩ := s
    by_cases he : nonEdge gx gy (u, v) = true
    · rw [List.filter_cons_of_pos he, List.map_cons, List.sum_cons, add_mul, ih', segValue_eq h h1 h2 h3 he,
        List.map_cons, List.sum_cons]
    · rw [List.filter_cons_of_neg he, ih', List.map_cons, List.sum_cons,
        cellArea_edge h h1 h2 (by simpa using he), zero_add]

/-! ### Repeated points -/

theorem uniqAfter_sum (f : K × K → K × K → K) (hf : ∀ u, f u u = 0) (c : K × K) (l m : List (K × K)) :
    pathSum f c (uniqAfter c l ++ m) = pathSum f c (l ++ m) := by
  induction l generalizing c with
  | nil => rfl
  | cons p l ih =>
    by_cases hp : p = c
    · subst hp
      rw [uniqAfter, if_pos rfl, ih]
      simp only [List.cons_append, pathSum, hf, zero_add]
    · rw [uniqAfter, if_neg hp]
      simp only [List.cons_append, pathSum, ih]

theorem uniqAfter_along (R : K × K → K × K → Prop) (c : K × K) (l m : List (K × K)) (h : Along R c (l ++ m)) :
    Along R c (uniqAfter c l ++ m) := by
  induction l generalizing c with
  | nil => exact h
  | cons p l ih =>
    by_cases hp : p = c
    · subst hp
      rw [uniqAfter, if_pos rfl]
      exact ih p h.2
    · rw [uniqAfter, if_neg hp]
      exact ⟨h.1, ih p h.2⟩

theorem uniqAfter_mem (c : K × K) (l : List (K × K)) : ∀ p ∈ uniqAfter c l, p ∈ l := by
  induction l generalizing c with
  | nil => simp [uniqAfter]
  | cons q l ih =>
    intro p hp
    by_cases hq : q = c
    · rw [uniqAfter, if_pos hq] at hp
      exact List.mem_cons_of_mem _ (ih _ p hp)
    · rw [uniqAfter, if_neg hq] at hp
      rcases List.mem_cons.1 hp with rfl | hp
      · exact List.mem_cons_self
      · exact List.mem_cons_of_mem _ (ih _ p hp)

/-! ### Points outside of the grid -/

/-- A point of the expanded polygon before it is clipped; the flag tells the vertices of the polygon. -/
abbrev Step (K : Type) := (K × K) × Bool

/-- What is known of two neighbours. -/
def Linked (gx gy : List K) (s t : Step K) : Prop :=
  Near gx gy s.1 t.1 ∧ (s.2 = true → Touch gx gy s.1 t.1) ∧ (t.2 = true → Touch gx gy t.1 s.1)

/-- Whether a point is kept: all intersections, and the vertices on the grid. -/
def kept (gx gy : List K) (s : Step K) : Bool := !s.2 || onGrid gx gy s.1

/-- The way round by a point outside of the grid is the same as the direct one. -/
theorem cellArea_outside {gx gy : List K} {i j : Nat} (h : Sides gx gy i j) {u v w : K × K}
    (hv : onGrid gx gy v = false) (h1 : Touch gx gy v u) (h2 : Touch gx gy v w) :
    cellArea (at' gx i) (at' gx (i + 1)) (at' gy j) (at' gy (j + 1)) u v +
      cellArea (at' gx i) (at' gx (i + 1)) (at' gy j) (at' gy (j + 1)) v w =
    cellArea (at' gx i) (at' gx (i + 1)) (at' gy j) (at' gy (j + 1)) u w := by
  have li := h.hi
  have lj := h.hj
  have hgi : at' gx i < at' gx (i + 1) := at'_lt h.hx (Nat.lt_succ_self i) h.hi
  have hgj : at' gy j < at' gy (j + 1) := at'_lt h.hy (Nat.lt_succ_self j) h.hj
  have x0 : at' gx 0 ≤ at' gx i := at'_le h.hx (by omega) (by omega)
  have x1 : at' gx (i + 1) ≤ at' gx (gx.length - 1) := at'_le h.hx (by omega) (by omega)
  have y0 : at' gy 0 ≤ at' gy j := at'_le h.hy (by omega) (by omega)
  have y1 : at' gy (j + 1) ≤ at' gy (gy.length - 1) := at'_le h.hy (by omega) (by omega)
  have mx0 := at'_mem gx (i := 0) (by omega)
  have mx1 := at'_mem gx (i := gx.length - 1) (by omega)
  have my0 := at'_mem gy (i := 0) (by omega)
  have my1 := at'_mem gy (i := gy.length - 1) (by omega)
  simp only [onGrid, decide_eq_false_iff_not, not_and_or, not_le] at hv
  rcases hv with hv | hv | hv | hv
  · have a := (h1.1 _ mx1).2.1 hv
    have b := (h2.1 _ mx1).2.1 hv
    simp only [cellArea, clip_ge (le_trans x1 hv.le), clip_ge (le_trans x1 a), clip_ge (le_trans x1 b)]
    ring
  · have a := (h1.1 _ mx0).1 hv
    have b := (h2.1 _ mx0).1 hv
    simp only [cellArea, clip_le hgi.le (le_trans hv.le x0), clip_le hgi.le (le_trans a x0),
      clip_le hgi.le (le_trans b x0)]
    ring
  · have a := (h1.2 _ my1).2.1 hv
    have b := (h2.2 _ my1).2.1 hv
    simp only [cellArea, clip_ge (le_trans y1 hv.le), clip_ge (le_trans y1 a), clip_ge (le_trans y1 b)]
    ring
  · have a := (h1.2 _ my0).1 hv
    have b := (h2.2 _ my0).1 hv
    simp only [cellArea, clip_le hgj.le (le_trans hv.le y0), clip_le hgj.le (le_trans a y0),
      clip_le hgj.le (le_trans b y0)]
    ring

/-- The value of a segment of the expanded polygon. -/
def stepArea (gx gy : List K) (i j : Nat) (s t : Step K) : K :=
  cellArea (at' gx i) (at' gx (i + 1)) (at' gy j) (at' gy (j + 1)) s.1 t.1

/-- Leaving out the vertices outside of the grid changes nothing. -/
theorem drop_outside {gx gy : List K} {i j : Nat} (h : Sides gx gy i j) (l : List (Step K)) (z : Step K)
    (hz : kept gx gy z = true) :
    (∀ s, Along (Linked gx gy) s (l ++ [z]) →
      pathSum (stepArea gx gy i j) s (l ++ [z]) = pathSum (stepArea gx gy i j) s (l.filter (kept gx gy) ++ [z]) ∧
      Along (fun a b => Near gx gy a.1 b.1) s (l.filter (kept gx gy) ++ [z])) ∧
    (∀ s t, kept gx gy t = false → Touch gx gy t.1 s.1 → Along (Linked gx gy) t (l ++ [z]) →
      stepArea gx gy i j s t + pathSum (stepArea gx gy i j) t (l ++ [z]) =
        pathSum (stepArea gx gy i j) s (l.filter (kept gx gy) ++ [z]) ∧
      Along (fun a b => Near gx gy a.1 b.1) s (l.filter (kept gx gy) ++ [z])) := by
  have hout : ∀ t : Step K, kept gx gy t = false → t.2 = true ∧ onGrid gx gy t.1 = false := by
    intro t ht
    simpa [kept] using ht
  induction l with
  | nil =>
    refine ⟨fun s hs => ⟨rfl, hs.1.1, trivial⟩, fun s t ht hts hs => ?_⟩
    obtain ⟨t1, t2⟩ := hout t ht
    have hzt := hs.1.2.1 t1
    refine ⟨?_, ⟨hts.1.both hzt.1, hts.2.both hzt.2⟩, trivial⟩
    simp only [List.nil_append, List.filter_nil, pathSum, add_zero]
    exact cellArea_outside h t2 hts hzt
  | cons v l ih =>
    obtain ⟨ih1, ih2⟩ := ih
    refine ⟨fun s hs => ?_, fun s t ht hts hs => ?_⟩
    · by_cases hv : kept gx gy v = true
      · rw [List.filter_cons_of_pos hv]
        obtain ⟨a, b⟩ := ih1 v hs.2
        refine ⟨?_, hs.1.1, b⟩
        simp only [List.cons_append, pathSum, a]
      · rw [List.filter_cons_of_neg hv]
        have hv' : kept gx gy v = false := by simpa using hv
        exact ih2 s v hv' (hs.1.2.2 (hout v hv').1) hs.2
    · obtain ⟨t1, t2⟩ := hout t ht
      have hvt := hs.1.2.1 t1
      have hdir : stepArea gx gy i j s t + stepArea gx gy i j t v = stepArea gx gy i j s v :=
        cellArea_outside h t2 hts hvt
      by_cases hv : kept gx gy v = true
      · rw [List.filter_cons_of_pos hv]
        obtain ⟨a, b⟩ := ih1 v hs.2
        refine ⟨?_, ⟨hts.1.both hvt.1, hts.2.both hvt.2⟩, b⟩
        simp only [List.cons_append, pathSum, a, ← hdir, add_assoc]
      · rw [List.filter_cons_of_neg hv]
        have hv' : kept gx gy v = false := by simpa using hv
        have htv := hs.1.2.2 (hout v hv').1
        obtain ⟨a, b⟩ := ih2 s v hv' ⟨hvt.1.trans_of_symm htv.1 hts.1, hvt.2.trans_of_symm htv.2 hts.2⟩ hs.2
        refine ⟨?_, b⟩
        rw [← a]
        simp only [List.cons_append, pathSum, ← hdir, add_assoc]

/-! ### Clipping the points -/

theorem clip_notBetween {l : List K} (hl : l.Pairwise (· < ·)) {x y : K} (h : NotBetween l x y) :
    NotBetween l (clip x (at' l 0) (at' l (l.length - 1))) (clip y (at' l 0) (at' l (l.length - 1))) := by
  intro c hc
  obtain ⟨c1, c2⟩ := mem_range hl hc
  exact ⟨fun ⟨a, b⟩ => (h c hc).1 ⟨clip_lt c1 c2 a, lt_clip c1 c2 b⟩,
    fun ⟨a, b⟩ => (h c hc).2 ⟨clip_lt c1 c2 a, lt_clip c1 c2 b⟩⟩

theorem clip_near {gx gy : List K} (hx : gx.Pairwise (· < ·)) (hy : gy.Pairwise (· < ·)) {u v : K × K}
    (h : Near gx gy u v) : Near gx gy (clipPoint gx gy u) (clipPoint gx gy v) :=
  ⟨clip_notBetween hx h.1, clip_notBetween hy h.2⟩

theorem cellArea_clip {gx gy : List K} {i j : Nat} (h : Sides gx gy i j) (u v : K × K) :
    cellArea (at' gx i) (at' gx (i + 1)) (at' gy j) (at' gy (j + 1)) (clipPoint gx gy u) (clipPoint gx gy v) =
      cellArea (at' gx i) (at' gx (i + 1)) (at' gy j) (at' gy (j + 1)) u v := by
  have li := h.hi
  have lj := h.hj
  have hgi : at' gx i < at' gx (i + 1) := at'_lt h.hx (Nat.lt_succ_self i) h.hi
  have hgj : at' gy j < at' gy (j + 1) := at'_lt h.hy (Nat.lt_succ_self j) h.hj
  have x0 : at' gx 0 ≤ at' gx i := at'_le h.hx (by omega) (by omega)
  have x1 : at' gx (i + 1) ≤ at' gx (gx.length - 1) := at'_le h.hx (by omega) (by omega)
  have y0 : at' gy 0 ≤ at' gy j := at'_le h.hy (by omega) (by omega)
  have y1 : at' gy (j + 1) ≤ at' gy (gy.length - 1) := at'_le h.hy (by omega) (by omega)
  simp only [cellArea, clipPoint, clip_clip x0 hgi.le x1, clip_clip y0 hgj.le y1]

theorem clipPoint_onGrid {gx gy : List K} (hx : gx.Pairwise (· < ·)) (hy : gy.Pairwise (· < ·)) (lx : 2 ≤ gx.length)
    (ly : 2 ≤ gy.length) (u : K × K) : onGrid gx gy (clipPoint gx gy u) = true := by
  have x := clip_mem (x := u.1) (at'_le hx (Nat.zero_le (gx.length - 1)) (by omega))
  have y := clip_mem (x := u.2) (at'_le hy (Nat.zero_le (gy.length - 1)) (by omega))
  exact decide_eq_true ⟨x.2, x.1, y.2, y.1⟩

theorem clipPoint_self {gx gy : List K} {u : K × K} (h : onGrid gx gy u = true) : clipPoint gx gy u = u := by
  simp only [onGrid, decide_eq_true_eq] at h
  obtain ⟨h1, h2, h3, h4⟩ := h
  simp only [clipPoint, clip_mid h2 h1, clip_mid h4 h3]

end Verif.Render.Polygon
