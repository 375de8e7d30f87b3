import Verif.Far.Mesh
/-
Lemmas: the corners of the triangles of a refined mesh.
-/
namespace Verif.Far
set_option linter.unusedVariables false

/-- The three corners of a triangle. -/
abbrev Corners := V3 × V3 × V3

def corners (pts : List V3) (t : Tri) : Corners := (pt pts t.1, pt pts t.2.1, pt pts t.2.2)

def Mesh.corners (m : Mesh) : List Corners := m.triangles.map (Far.corners m.points)

/-- The point of the sphere halfway between two points. -/
noncomputable def mid (a b : V3) : V3 := unit (fun i => a i + b i)

/-- The four triangles between the corners of a triangle and the middles of its sides. -/
noncomputable def split4 (t : Corners) : List Corners :=
  [(mid t.1 t.2.1, mid t.2.1 t.2.2, mid t.2.2 t.1), (t.1, mid t.1 t.2.1, mid t.2.2 t.1),
    (t.2.1, mid t.1 t.2.1, mid t.2.1 t.2.2), (t.2.2, mid t.2.2 t.1, mid t.2.1 t.2.2)]

/-- The index is one of the triangle. -/
def Tri.Has (t : Tri) (i : Nat) : Prop := i = t.1 ∨ i = t.2.1 ∨ i = t.2.2

/-- Every index of the triangle belongs to a list of `n` points. -/
def Tri.Below (t : Tri) (n : Nat) : Prop := t.1 < n ∧ t.2.1 < n ∧ t.2.2 < n

theorem pt_append {pts ext : List V3} {i : Nat} (h : i < pts.length) : pt (pts ++ ext) i = pt pts i := by
  rw [pt, pt, List.getD_append _ _ _ _ h]

theorem corners_append {pts ext : List V3} {t : Tri} (h : t.Below pts.length) : corners (pts ++ ext) t = corners pts t := by
  rw [corners, corners, pt_append h.1, pt_append h.2.1, pt_append h.2.2]

theorem addPoint_spec (pts : List V3) (p : V3) : ∃ ext, (addPoint pts p).1 = pts ++ ext ∧
    (addPoint pts p).2 < (addPoint pts p).1.length ∧ pt (addPoint pts p).1 (addPoint pts p).2 = p ∧
    (pts.Nodup → (addPoint pts p).1.Nodup) ∧ (∀ i, i < (addPoint pts p).1.length → i < pts.length ∨ i = (addPoint pts p).2) ∧
    (∀ q, q ∈ (addPoint pts p).1 → q ∈ pts ∨ q = p) := by
  classical
  by_cases h : p ∈ pts
  · have e : addPoint pts p = (pts, pts.idxOf p) := by
      rw [addPoint]
      simp only [h, if_true]
    have hl : pts.idxOf p < pts.length := List.idxOf_lt_length_iff.2 h
    rw [e]
    refine ⟨[], (List.append_nil _).symm, hl, ?_, id, fun i hi => Or.inl hi, fun q hq => Or.inl hq⟩
    show pts.getD (pts.idxOf p) 0 = p
    rw [List.getD_eq_getElem _ _ hl, List.getElem_idxOf]
  · have e : addPoint pts p = (pts ++ [p], pts.length) := by rw [addPoint]; simp only [h, if_false]
    rw [e]
    refine ⟨[p], rfl, by simp, ?_, fun hn => ?_, fun i hi => ?_, fun q hq => ?_⟩
    · show (pts ++ [p]).getD pts.length 0 = p
      simp [List.getD_eq_getElem?_getD]
    · exact List.nodup_append.2 ⟨hn, List.nodup_singleton _, fun a ha b hb => by
        rintro rfl; rw [List.mem_singleton] at hb; exact h (hb ▸ ha)⟩
    · simp only [List.length_append, List.length_cons, List.length_nil] at hi
      show i < pts.length ∨ i = pts.length
      omega
    · simpa using hq

/-- What the loop over the triangles keeps: `P` are the points at its beginning. -/
structure Inv (P : List V3) (s : List V3 × List Tri) : Prop where
  ext : ∃ ext, s.1 = P ++ ext
  nodup : s.1.Nodup
  below : ∀ t ∈ s.2, Tri.Below t s.1.length
  used : ∀ i, i < s.1.length → i < P.length ∨ ∃ t ∈ s.2, Tri.Has t i

theorem splitTri_step {P : List V3} {s : List V3 × List Tri} (h : Inv P s) (t : Tri) (ht : t.Below P.length) :
    Inv P (splitTri s t) ∧
    (splitTri s t).2.map (corners (splitTri s t).1) = s.2.map (corners s.1) ++ split4 (corners P t) ∧
    (∀ i, t.Has i → ∃ u ∈ (splitTri s t).2, Tri.Has u i) ∧ (∀ u ∈ s.2, u ∈ (splitTri s t).2) := by
  obtain ⟨e0, h0⟩ := h.ext
  have hpt : ∀ i, i < P.length → pt s.1 i = pt P i := fun i hi => by rw [h0, pt_append hi]
  have hm1 : unit (fun b => pt s.1 t.1 b + pt s.1 t.2.1 b) = mid (pt P t.1) (pt P t.2.1) := by rw [mid, hpt _ ht.1, hpt _ ht.2.1]
  have hm2 : unit (fun b => pt s.1 t.2.1 b + pt s.1 t.2.2 b) = mid (pt P t.2.1) (pt P t.2.2) := by rw [mid, hpt _ ht.2.2, hpt _ ht.2.1]
  have hm3 : unit (fun b => pt s.1 t.2.2 b + pt s.1 t.1 b) = mid (pt P t.2.2) (pt P t.1) := by rw [mid, hpt _ ht.1, hpt _ ht.2.2]
  have hdef : splitTri s t =
      ((addPoint (addPoint (addPoint s.1 (mid (pt P t.1) (pt P t.2.1))).1 (mid (pt P t.2.1) (pt P t.2.2))).1 (mid (pt P t.2.2) (pt P t.1))).1,
       s.2 ++ [((addPoint s.1 (mid (pt P t.1) (pt P t.2.1))).2,
          (addPoint (addPoint s.1 (mid (pt P t.1) (pt P t.2.1))).1 (mid (pt P t.2.1) (pt P t.2.2))).2,
          (addPoint (addPoint (addPoint s.1 (mid (pt P t.1) (pt P t.2.1))).1 (mid (pt P t.2.1) (pt P t.2.2))).1 (mid (pt P t.2.2) (pt P t.1))).2),
        (t.1, (addPoint s.1 (mid (pt P t.1) (pt P t.2.1))).2,
          (addPoint (addPoint (addPoint s.1 (mid (pt P t.1) (pt P t.2.1))).1 (mid (pt P t.2.1) (pt P t.2.2))).1 (mid (pt P t.2.2) (pt P t.1))).2),
        (t.2.1, (addPoint s.1 (mid (pt P t.1) (pt P t.2.1))).2,
          (addPoint (addPoint s.1 (mid (pt P t.1) (pt P t.2.1))).1 (mid (pt P t.2.1) (pt P t.2.2))).2),
        (t.2.2, (addPoint (addPoint (addPoint s.1 (mid (pt P t.1) (pt P t.2.1))).1 (mid (pt P t.2.1) (pt P t.2.2))).1 (mid (pt P t.2.2) (pt P t.1))).2,
          (addPoint (addPoint s.1 (mid (pt P t.1) (pt P t.2.1))).1 (mid (pt P t.2.1) (pt P t.2.2))).2)]) := by
    rw [splitTri]
    simp only [hm1, hm2, hm3]
  obtain ⟨e1, a1, b1, c1, d1, f1, g1⟩ := addPoint_spec s.1 (mid (pt P t.1) (pt P t.2.1))
  generalize addPoint s.1 (mid (pt P t.1) (pt P t.2.1)) = q1 at hdef a1 b1 c1 d1 f1 g1
  obtain ⟨e2, a2, b2, c2, d2, f2, g2⟩ := addPoint_spec q1.1 (mid (pt P t.2.1) (pt P t.2.2))
  generalize addPoint q1.1 (mid (pt P t.2.1) (pt P t.2.2)) = q2 at hdef a2 b2 c2 d2 f2 g2
  obtain ⟨e3, a3, b3, c3, d3, f3, g3⟩ := addPoint_spec q2.1 (mid (pt P t.2.2) (pt P t.1))
  generalize addPoint q2.1 (mid (pt P t.2.2) (pt P t.1)) = q3 at hdef a3 b3 c3 d3 f3 g3
  rw [hdef]
  have l0 : P.length ≤ s.1.length := by rw [h0, List.length_append]; omega
  have l1 : s.1.length ≤ q1.1.length := by rw [a1, List.length_append]; omega
  have l2 : q1.1.length ≤ q2.1.length := by rw [a2, List.length_append]; omega
  have l3 : q2.1.length ≤ q3.1.length := by rw [a3, List.length_append]; omega
  have k1 : pt q3.1 q1.2 = mid (pt P t.1) (pt P t.2.1) := by
    rw [a3, pt_append (by omega), a2, pt_append b1, c1]
  have k2 : pt q3.1 q2.2 = mid (pt P t.2.1) (pt P t.2.2) := by rw [a3, pt_append b2, c2]
  have kP : ∀ i, i < P.length → pt q3.1 i = pt P i := fun i hi => by
    rw [a3, pt_append (by omega), a2, pt_append (by omega), a1, pt_append (by omega), hpt i hi]
  refine ⟨⟨⟨e0 ++ e1 ++ e2 ++ e3, ?_⟩, d3 (d2 (d1 h.nodup)), ?_, ?_⟩, ?_, ?_, ?_⟩
  · show q3.1 = _
    rw [a3, a2, a1, h0]
    simp only [List.append_assoc]
  · intro u hu
    rcases List.mem_append.1 hu with hu | hu
    · obtain ⟨x, y, z⟩ := h.below u hu
      exact ⟨by show _ < q3.1.length; omega, by show _ < q3.1.length; omega, by show _ < q3.1.length; omega⟩
    · simp only [List.mem_cons, List.not_mem_nil, or_false] at hu
      obtain ⟨x, y, z⟩ := ht
      rcases hu with rfl | rfl | rfl | rfl <;>
        exact ⟨by show _ < q3.1.length; dsimp only; omega, by show _ < q3.1.length; dsimp only; omega, by show _ < q3.1.length; dsimp only; omega⟩
  · intro i hi
    rcases f3 i hi with hi | hi
    · rcases f2 i hi with hi | hi
      · rcases f1 i hi with hi | hi
        · rcases h.used i hi with hi | ⟨u, hu, hui⟩
          · exact Or.inl hi
          · exact Or.inr ⟨u, List.mem_append_left _ hu, hui⟩
        · exact Or.inr ⟨(q1.2, q2.2, q3.2), List.mem_append_right _ (by simp), Or.inl hi⟩
      · exact Or.inr ⟨(q1.2, q2.2, q3.2), List.mem_append_right _ (by simp), Or.inr (Or.inl hi)⟩
    · exact Or.inr ⟨(q1.2, q2.2, q3.2), List.mem_append_right _ (by simp), Or.inr (Or.inr hi)⟩
  · rw [List.map_append]
    congr 1
    · refine List.map_congr_left fun u hu => ?_
      have hb := h.below u hu
      show corners q3.1 u = _
      rw [a3, a2, a1, List.append_assoc, List.append_assoc, corners_append hb]
    · simp only [List.map_cons, List.map_nil, corners, k1, k2, c3, kP _ ht.1, kP _ ht.2.1, kP _ ht.2.2, split4]
  · rintro i (rfl | rfl | rfl)
    · exact ⟨(t.1, q1.2, q3.2), List.mem_append_right _ (by simp), Or.inl rfl⟩
    · exact ⟨(t.2.1, q1.2, q2.2), List.mem_append_right _ (by simp), Or.inl rfl⟩
    · exact ⟨(t.2.2, q3.2, q2.2), List.mem_append_right _ (by simp), Or.inl rfl⟩
  · exact fun u hu => List.mem_append_left _ hu

theorem splitTri_fold {P : List V3} : ∀ (ts : List Tri) {s : List V3 × List Tri}, Inv P s → (∀ t ∈ ts, Tri.Below t P.length) →
    Inv P (ts.foldl splitTri s) ∧
    (ts.foldl splitTri s).2.map (corners (ts.foldl splitTri s).1) = s.2.map (corners s.1) ++ ts.flatMap (fun t => split4 (corners P t)) ∧
    (∀ t ∈ ts, ∀ i, Tri.Has t i → ∃ u ∈ (ts.foldl splitTri s).2, Tri.Has u i) ∧ (∀ u ∈ s.2, u ∈ (ts.foldl splitTri s).2)
  | [], s, h, _ => ⟨h, by simp, by simp, fun u hu => hu⟩
  | t :: ts, s, h, hb => by
    obtain ⟨h1, h2, h3, h4⟩ := splitTri_step h t (hb t (by simp))
    obtain ⟨k1, k2, k3, k4⟩ := splitTri_fold ts h1 (fun u hu => hb u (List.mem_cons_of_mem _ hu))
    refine ⟨k1, ?_, ?_, fun u hu => k4 u (h4 u hu)⟩
    · rw [List.foldl_cons, k2, h2, List.append_assoc, List.flatMap_cons]
    · intro u hu i hi
      rcases List.mem_cons.1 hu with rfl | hu
      · obtain ⟨v, hv, hvi⟩ := h3 i hi
        exact ⟨v, k4 v hv, hvi⟩
      · exact k3 u hu i hi

/-- A mesh whose indices are in range, whose points are distinct and all used. -/
structure Mesh.Proper (m : Mesh) : Prop where
  nodup : m.points.Nodup
  below : ∀ t ∈ m.triangles, Tri.Below t m.points.length
  used : ∀ i, i < m.points.length → ∃ t ∈ m.triangles, Tri.Has t i

theorem refine_proper {m : Mesh} (h : m.Proper) : (refine m).Proper ∧ (refine m).corners = m.corners.flatMap split4 ∧
    (refine m).triangles.length = 4 * m.triangles.length := by
  obtain ⟨k1, k2, k3, _⟩ := splitTri_fold (P := m.points) m.triangles (s := (m.points, []))
    ⟨⟨[], (List.append_nil _).symm⟩, h.nodup, by simp, fun i hi => Or.inl hi⟩ h.below
  have hc : (refine m).corners = m.corners.flatMap split4 := by
    show (refine m).triangles.map (Far.corners (refine m).points) = _
    refine Eq.trans k2 ?_
    rw [List.map_nil, List.nil_append, Mesh.corners, List.flatMap_map]
  refine ⟨⟨k1.nodup, k1.below, fun i hi => ?_⟩, hc, ?_⟩
  · rcases k1.used i hi with hi | hi
    · obtain ⟨t, ht, hti⟩ := h.used i hi
      exact k3 t ht i hti
    · exact hi
  · have := congrArg List.length hc
    rw [Mesh.corners, List.length_map, List.length_flatMap, Mesh.corners, List.map_map] at this
    rw [this]
    have h4 : ((fun a => (split4 a).length) ∘ Far.corners m.points) = fun _ => 4 := rfl
    rw [h4, List.map_const', List.sum_replicate, smul_eq_mul, mul_comm]

end Verif.Far
