import Verif.Gds.Boxes
import Verif.Gds.ImportProps
import Mathlib.Algebra.Order.Ring.Rat
import Mathlib.Tactic.Linarith
import Mathlib.Tactic.Ring

/-!
# C111: bounding boxes of imported polygons
-/

namespace Verif.Gds

set_option linter.unusedSectionVars false

variable {K : Type} [Field K] [LinearOrder K] [IsStrictOrderedRing K]

/-! ## Specification -/

/-- A point, in micrometers, lies in a box given in nanometers. -/
def InBox (b : Box K) (p : K × K) : Prop :=
  b.xMin ≤ 1000 * p.1 ∧ 1000 * p.1 ≤ b.xMax ∧ b.yMin ≤ 1000 * p.2 ∧ 1000 * p.2 ≤ b.yMax

/-- The points between the corners of a polygon: what is reached from the corners by
taking points on segments, again and again. -/
inductive Hull (poly : List (K × K)) : K × K → Prop
  | corner (p : K × K) : p ∈ poly → Hull poly p
  | between (p q : K × K) (t : K) : Hull poly p → Hull poly q → 0 ≤ t → t ≤ 1 →
      Hull poly ((1 - t) * p.1 + t * q.1, (1 - t) * p.2 + t * q.2)

/-! ## Helper lemmas -/

theorem foldl_max_spec (l : List K) (a : K) :
    l.foldl max a ∈ a :: l ∧ ∀ x ∈ a :: l, x ≤ l.foldl max a := by
  induction l generalizing a with
  | nil => simp
  | cons b l ih =>
    obtain ⟨h1, h2⟩ := ih (max a b)
    rw [List.foldl_cons]
    constructor
    · rcases List.mem_cons.1 h1 with h | h
      · rw [h]
        rcases max_choice a b with h' | h' <;> rw [h'] <;> simp
      · simp [h]
    · intro x hx
      have hm := h2 (max a b) (by simp)
      rcases List.mem_cons.1 hx with rfl | hx
      · exact le_trans (le_max_left _ _) hm
      · rcases List.mem_cons.1 hx with rfl | hx
        · exact le_trans (le_max_right _ _) hm
        · exact h2 x (by simp [hx])

theorem foldl_min_spec (l : List K) (a : K) :
    l.foldl min a ∈ a :: l ∧ ∀ x ∈ a :: l, l.foldl min a ≤ x := by
  induction l generalizing a with
  | nil => simp
  | cons b l ih =>
    obtain ⟨h1, h2⟩ := ih (min a b)
    rw [List.foldl_cons]
    constructor
    · rcases List.mem_cons.1 h1 with h | h
      · rw [h]
        rcases min_choice a b with h' | h' <;> rw [h'] <;> simp
      · simp [h]
    · intro x hx
      have hm := h2 (min a b) (by simp)
      rcases List.mem_cons.1 hx with rfl | hx
      · exact le_trans hm (min_le_left _ _)
      · rcases List.mem_cons.1 hx with rfl | hx
        · exact le_trans hm (min_le_right _ _)
        · exact h2 x (by simp [hx])

theorem pyMax_spec (l : List K) (h : l ≠ []) : ∃ m, pyMax l = some m ∧ m ∈ l ∧ ∀ x ∈ l, x ≤ m := by
  cases l with
  | nil => exact absurd rfl h
  | cons a l => exact ⟨_, rfl, foldl_max_spec l a⟩

theorem pyMin_spec (l : List K) (h : l ≠ []) : ∃ m, pyMin l = some m ∧ m ∈ l ∧ ∀ x ∈ l, m ≤ x := by
  cases l with
  | nil => exact absurd rfl h
  | cons a l => exact ⟨_, rfl, foldl_min_spec l a⟩

theorem boundingBox_spec (poly : List (K × K)) (h : poly ≠ []) :
    ∃ b, boundingBox poly = some b ∧ (∀ p ∈ poly, InBox b p) ∧
      (∃ p ∈ poly, b.xMin = 1000 * p.1) ∧ (∃ p ∈ poly, b.xMax = 1000 * p.1) ∧
      (∃ p ∈ poly, b.yMin = 1000 * p.2) ∧ (∃ p ∈ poly, b.yMax = 1000 * p.2) := by
  obtain ⟨xM, h1, h1m, h1b⟩ := pyMax_spec (poly.map (·.1)) (by simpa using h)
  obtain ⟨xm, h2, h2m, h2b⟩ := pyMin_spec (poly.map (·.1)) (by simpa using h)
  obtain ⟨yM, h3, h3m, h3b⟩ := pyMax_spec (poly.map (·.2)) (by simpa using h)
  obtain ⟨ym, h4, h4m, h4b⟩ := pyMin_spec (poly.map (·.2)) (by simpa using h)
  refine ⟨⟨xm * 1000, xM * 1000, ym * 1000, yM * 1000⟩, ?_, ?_, ?_, ?_, ?_, ?_⟩
  · simp only [boundingBox, h1, h2, h3, h4, Option.bind_some, Option.map_some]
  · intro p hp
    have a1 := h1b p.1 (List.mem_map.2 ⟨p, hp, rfl⟩)
    have a2 := h2b p.1 (List.mem_map.2 ⟨p, hp, rfl⟩)
    have a3 := h3b p.2 (List.mem_map.2 ⟨p, hp, rfl⟩)
    have a4 := h4b p.2 (List.mem_map.2 ⟨p, hp, rfl⟩)
    refine ⟨?_, ?_, ?_, ?_⟩ <;> simp only <;> linarith
  · obtain ⟨p, hp, rfl⟩ := List.mem_map.1 h2m
    exact ⟨p, hp, mul_comm _ _⟩
  · obtain ⟨p, hp, rfl⟩ := List.mem_map.1 h1m
    exact ⟨p, hp, mul_comm _ _⟩
  · obtain ⟨p, hp, rfl⟩ := List.mem_map.1 h4m
    exact ⟨p, hp, mul_comm _ _⟩
  · obtain ⟨p, hp, rfl⟩ := List.mem_map.1 h3m
    exact ⟨p, hp, mul_comm _ _⟩

theorem between_mem {t a b lo hi : K} (h0 : 0 ≤ t) (h1 : t ≤ 1) (ha : lo ≤ 1000 * a)
    (ha' : 1000 * a ≤ hi) (hb : lo ≤ 1000 * b) (hb' : 1000 * b ≤ hi) :
    lo ≤ 1000 * ((1 - t) * a + t * b) ∧ 1000 * ((1 - t) * a + t * b) ≤ hi := by
  have h2 : 0 ≤ 1 - t := sub_nonneg.2 h1
  constructor
  · have e1 := mul_le_mul_of_nonneg_left ha h2
    have e2 := mul_le_mul_of_nonneg_left hb h0
    linarith
  · have e1 := mul_le_mul_of_nonneg_left ha' h2
    have e2 := mul_le_mul_of_nonneg_left hb' h0
    linarith

/-! ## Bounding boxes -/

/-- **C111**: the box contains, in nanometers, every point of the polygon, corners and
all points between them. -/
theorem bounding_box_contains (poly : List (K × K)) (b : Box K) (h : boundingBox poly = some b) :
    ∀ p, Hull poly p → InBox b p := by
  have hne : poly ≠ [] := by rintro rfl; simp [boundingBox, pyMax] at h
  obtain ⟨b', h1, h2, _⟩ := boundingBox_spec poly hne
  rw [h] at h1
  cases h1
  intro p hp
  induction hp with
  | corner p hp => exact h2 p hp
  | between p q t _ _ h0 h1 ihp ihq =>
    obtain ⟨a1, a2, a3, a4⟩ := ihp
    obtain ⟨b1, b2, b3, b4⟩ := ihq
    obtain ⟨c1, c2⟩ := between_mem h0 h1 a1 a2 b1 b2
    obtain ⟨c3, c4⟩ := between_mem h0 h1 a3 a4 b3 b4
    exact ⟨c1, c2, c3, c4⟩

/-- **C111**: every box that contains the corners contains the bounding box: it is the
smallest. -/
theorem bounding_box_smallest (poly : List (K × K)) (b c : Box K) (h : boundingBox poly = some b)
    (hc : ∀ p ∈ poly, InBox c p) :
    c.xMin ≤ b.xMin ∧ b.xMax ≤ c.xMax ∧ c.yMin ≤ b.yMin ∧ b.yMax ≤ c.yMax := by
  have hne : poly ≠ [] := by rintro rfl; simp [boundingBox, pyMax] at h
  obtain ⟨b', h1, _, ⟨p1, m1, e1⟩, ⟨p2, m2, e2⟩, ⟨p3, m3, e3⟩, ⟨p4, m4, e4⟩⟩ :=
    boundingBox_spec poly hne
  rw [h] at h1
  cases h1
  rw [e1, e2, e3, e4]
  exact ⟨(hc p1 m1).1, (hc p2 m2).2.1, (hc p3 m3).2.2.1, (hc p4 m4).2.2.2⟩

/-- A box is returned for every polygon with a point. -/
theorem bounding_box_exists (poly : List (K × K)) :
    (∃ b, boundingBox poly = some b) ↔ poly ≠ [] := by
  constructor
  · rintro ⟨b, h⟩ rfl
    simp [boundingBox, pyMax] at h
  · intro h
    obtain ⟨b, h1, _⟩ := boundingBox_spec poly h
    exact ⟨b, h1⟩

/-- A triangle. -/
example : boundingBox (K := ℚ) [(0, 0), (2, 1), (-1, 3)] = some ⟨-1000, 2000, 0, 3000⟩ := by
  decide +kernel

/-- **C111**: the box does not depend on the order in which the corners are listed, nor
on their number of occurrences. -/
theorem bounding_box_set (poly poly' : List (K × K)) (h : ∀ p, p ∈ poly ↔ p ∈ poly') (b b' : Box K)
    (hb : boundingBox poly = some b) (hb' : boundingBox poly' = some b') : b = b' := by
  have h1 := bounding_box_smallest poly b b' hb
    (fun p hp => bounding_box_contains poly' b' hb' p (.corner p ((h p).1 hp)))
  have h2 := bounding_box_smallest poly' b' b hb'
    (fun p hp => bounding_box_contains poly b hb p (.corner p ((h p).2 hp)))
  obtain ⟨a1, a2, a3, a4⟩ := h1
  obtain ⟨b1, b2, b3, b4⟩ := h2
  cases b
  cases b'
  simp only [Box.mk.injEq]
  exact ⟨le_antisymm b1 a1, le_antisymm a2 b2, le_antisymm b3 a3, le_antisymm a4 b4⟩

/-- **C111**: a polygon that is moved has its box moved along: the center by as much (in
nanometers) and the extents unchanged. -/
theorem bounding_box_moved (poly : List (K × K)) (dx dy : K) (b : Box K)
    (hb : boundingBox poly = some b) :
    ∃ b', boundingBox (poly.map fun p => (p.1 + dx, p.2 + dy)) = some b' ∧
      b'.center = (b.center.1 + 1000 * dx, b.center.2 + 1000 * dy) ∧ b'.extents = b.extents := by
  have hne : poly ≠ [] := by rintro rfl; simp [boundingBox, pyMax] at hb
  obtain ⟨b', hb', h2, ⟨p1, m1, e1⟩, ⟨p2, m2, e2⟩, ⟨p3, m3, e3⟩, ⟨p4, m4, e4⟩⟩ :=
    boundingBox_spec (poly.map fun p => (p.1 + dx, p.2 + dy)) (by simpa using hne)
  obtain ⟨b0, hb0, g2, ⟨q1, n1, f1⟩, ⟨q2, n2, f2⟩, ⟨q3, n3, f3⟩, ⟨q4, n4, f4⟩⟩ :=
    boundingBox_spec poly hne
  rw [hb] at hb0
  cases hb0
  have up : ∀ q ∈ poly, InBox b' (q.1 + dx, q.2 + dy) := fun q hq =>
    h2 _ (List.mem_map.2 ⟨q, hq, rfl⟩)
  have dn : ∀ p ∈ poly.map (fun p => (p.1 + dx, p.2 + dy)), InBox b (p.1 - dx, p.2 - dy) := by
    intro p hp
    obtain ⟨q, hq, rfl⟩ := List.mem_map.1 hp
    simpa using g2 q hq
  have x1 : b'.xMin = b.xMin + 1000 * dx := by
    apply le_antisymm
    · have := (up q1 n1).1; simp only at this; linarith
    · have := (dn p1 m1).1; simp only at this; linarith
  have x2 : b'.xMax = b.xMax + 1000 * dx := by
    apply le_antisymm
    · have := (dn p2 m2).2.1; simp only at this; linarith
    · have := (up q2 n2).2.1; simp only at this; linarith
  have x3 : b'.yMin = b.yMin + 1000 * dy := by
    apply le_antisymm
    · have := (up q3 n3).2.2.1; simp only at this; linarith
    · have := (dn p3 m3).2.2.1; simp only at this; linarith
  have x4 : b'.yMax = b.yMax + 1000 * dy := by
    apply le_antisymm
    · have := (dn p4 m4).2.2.2; simp only at this; linarith
    · have := (up q4 n4).2.2.2; simp only at this; linarith
  refine ⟨b', hb', ?_, ?_⟩
  · simp only [Box.center, x1, x2, x3, x4, Prod.mk.injEq]
    constructor <;> ring
  · simp only [Box.extents, x1, x2, x3, x4, Prod.mk.injEq]
    constructor <;> ring

/-- **C111**: the box is given by its center and extents: it reaches half the extents to
each side of the center. -/
theorem bounding_box_center (b : Box K) :
    b.xMin = b.center.1 - b.extents.1 / 2 ∧ b.xMax = b.center.1 + b.extents.1 / 2 ∧
      b.yMin = b.center.2 - b.extents.2 / 2 ∧ b.yMax = b.center.2 + b.extents.2 / 2 := by
  simp only [Box.center, Box.extents]
  refine ⟨?_, ?_, ?_, ?_⟩ <;> ring

/-- **C111**: for a layer there is one box for each polygon that `get_polygons` returns, in
the same order; for a layer that does not exist there is none. -/
theorem bounding_boxes_layer (layers : List ((Nat × Nat) × List (List (K × K)))) (layer : Nat × Nat) :
    boundingBoxes layers layer = (getPolygons layers layer).mapM boundingBox := by
  unfold boundingBoxes getPolygons
  cases layers.find? fun x => x.1 = layer <;> simp

theorem mapM_getElem {α β : Type} (f : α → Option β) (l : List α) (r : List β)
    (h : l.mapM f = some r) : r.length = l.length ∧ ∀ i (h1 : i < l.length) (h2 : i < r.length),
      f l[i] = some r[i] := by
  induction l generalizing r with
  | nil => simp at h; subst h; simp
  | cons a l ih =>
    rw [List.mapM_cons] at h
    cases hf : f a with
    | none => rw [hf] at h; simp at h
    | some b =>
      rw [hf] at h
      cases hm : l.mapM f with
      | none => rw [hm] at h; simp at h
      | some r' =>
        rw [hm] at h
        simp at h
        subst h
        obtain ⟨e1, e2⟩ := ih r' hm
        refine ⟨by simp [e1], ?_⟩
        intro i h1 h2
        cases i with
        | zero => simpa using hf
        | succ i => simpa using e2 i (by simpa using h1) (by simpa using h2)

/-- **C111**: the boxes of an imported cell: box `i` of a layer contains every point of
polygon `i` of that layer and is the smallest to do so. -/
theorem bounding_boxes_cell (c : Cell (List (K × K))) (layer : Nat × Nat) (bs : List (Box K))
    (h : boundingBoxes (extractLayers c) layer = some bs) :
    bs.length = ((c.sets.filter fun s => s.key = layer).flatMap PolygonSet.polygons).length ∧
    ∀ (i : Nat) (poly : List (K × K)) (b : Box K), ((c.sets.filter fun s => s.key = layer).flatMap PolygonSet.polygons)[i]? = some poly →
      bs[i]? = some b → (∀ p, Hull poly p → InBox b p) ∧
        ∀ d : Box K, (∀ p ∈ poly, InBox d p) →
          d.xMin ≤ b.xMin ∧ b.xMax ≤ d.xMax ∧ d.yMin ≤ b.yMin ∧ b.yMax ≤ d.yMax := by
  rw [bounding_boxes_layer, layer_polygons] at h
  obtain ⟨h1, h2⟩ := mapM_getElem _ _ _ h
  refine ⟨h1, ?_⟩
  intro i poly b hp hb
  obtain ⟨i1, e1⟩ := List.getElem?_eq_some_iff.1 hp
  obtain ⟨i2, e2⟩ := List.getElem?_eq_some_iff.1 hb
  have := h2 i i1 i2
  rw [e1, e2] at this
  exact ⟨bounding_box_contains poly b this, fun d hd => bounding_box_smallest poly b d this hd⟩

/-- The hypothesis is met by a cell with two sets on a layer and one on another. -/
example : boundingBoxes (K := ℚ) (extractLayers ⟨0, false,
    [⟨(1, 0), [[(0, 0), (1, 1)]]⟩, ⟨(2, 0), [[(5, 5), (6, 6)]]⟩, ⟨(1, 0), [[(2, 3), (1, 4)]]⟩]⟩) (1, 0)
    = some [⟨0, 1000, 0, 1000⟩, ⟨1000, 2000, 3000, 4000⟩] := by
  decide +kernel

end Verif.Gds
