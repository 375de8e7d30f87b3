import Verif.Far.MeshGeom
import Mathlib.Tactic.IntervalCases
/-
Property C95: the meshes of directions.
-/
namespace Verif.Far
set_option linter.unusedVariables false

/-- The triangles tile a region of directions: they are nice, every direction of the region is in one, none is inside two. -/
structure Tile (e : ℝ) (region : V3 → Prop) (l : List Corners) : Prop where
  nice : ∀ t ∈ l, NiceT e t
  cover : ∀ x, region x → ∃ t ∈ l, Within t x
  apart : l.Pairwise Apart

theorem Tile.split {e : ℝ} {region : V3 → Prop} {l : List Corners} (h : Tile e region l) (he0 : 0 ≤ e) (he : e ≤ 1) :
    Tile (e / (4 - 2 * e)) region (l.flatMap split4) where
  nice := fun u hu => by
    obtain ⟨t, ht, hu⟩ := List.mem_flatMap.1 hu
    exact split_nice (h.nice t ht) he0 he u hu
  cover := fun x hx => by
    obtain ⟨t, ht, hx⟩ := h.cover x hx
    obtain ⟨u, hu, hx⟩ := split_within (h.nice t ht) he hx
    exact ⟨u, List.mem_flatMap.2 ⟨t, ht, hu⟩, hx⟩
  apart := by
    rw [List.pairwise_flatMap]
    refine ⟨fun t ht => split_apart (h.nice t ht) he, ?_⟩
    refine List.Pairwise.imp_of_mem ?_ h.apart
    rintro s t hs ht hst u hu v hv x ⟨h1, h2⟩
    exact hst x ⟨split_sub (h.nice s hs) he u hu x h1, split_sub (h.nice t ht) he v hv x h2⟩

/-- The bound of the sides after `n` refinements: their cosine is at least `1 - side n`. -/
noncomputable def side (n : Nat) : ℝ := 3 / (4 ^ n + 2)

theorem side_zero : side 0 = 1 := by norm_num [side]

theorem side_range (n : Nat) : 0 ≤ side n ∧ side n ≤ 1 := by
  have h : (1 : ℝ) ≤ 4 ^ n := one_le_pow₀ (by norm_num)
  rw [side]
  refine ⟨by positivity, ?_⟩
  rw [div_le_one (by positivity)]
  linarith

theorem side_succ (n : Nat) : side (n + 1) = side n / (4 - 2 * side n) := by
  have h : (1 : ℝ) ≤ 4 ^ n := one_le_pow₀ (by norm_num)
  have h2 : (4 : ℝ) - 2 * (3 / (4 ^ n + 2)) = (4 * 4 ^ n + 2) / (4 ^ n + 2) := by field_simp; ring
  rw [side, side, h2, pow_succ]
  field_simp

theorem iterate_mesh {m : Mesh} {region : V3 → Prop} (hp : m.Proper) (ht : Tile 1 region m.corners) (n : Nat) :
    (refine^[n] m).Proper ∧ Tile (side n) region (refine^[n] m).corners ∧
      (refine^[n] m).triangles.length = 4 ^ n * m.triangles.length := by
  induction n with
  | zero => rw [side_zero]; exact ⟨hp, ht, by simp⟩
  | succ n ih =>
    obtain ⟨i1, i2, i3⟩ := ih
    rw [Function.iterate_succ_apply']
    obtain ⟨r1, r2, r3⟩ := refine_proper i1
    refine ⟨r1, ?_, ?_⟩
    · rw [r2, side_succ]
      exact i2.split (side_range n).1 (side_range n).2
    · rw [r3, i3, pow_succ]; ring

/-! ### The starting meshes -/

theorem pyramid_corners (p : ℝ) : (pyramid p).corners = [(![1, 0, 0], ![0, 1, 0], ![0, 0, p]), (![0, 1, 0], ![-1, 0, 0], ![0, 0, p]),
    (![-1, 0, 0], ![0, -1, 0], ![0, 0, p]), (![0, -1, 0], ![1, 0, 0], ![0, 0, p])] := by
  simp [Mesh.corners, pyramid, corners, pt]

theorem octahedron_corners : octahedron.corners = (pyramid 1).corners ++ (pyramid (-1)).corners := by
  rw [pyramid_corners, pyramid_corners]
  simp [Mesh.corners, octahedron, corners, pt]

theorem pyramid_tile {p : ℝ} (hp : p = 1 ∨ p = -1) : Tile 1 (fun x => 0 ≤ p * x 2) (pyramid p).corners := by
  have hpp : p * p = 1 := by rcases hp with h | h <;> rw [h] <;> norm_num
  have hp0 : p ≠ 0 := by rcases hp with h | h <;> rw [h] <;> norm_num
  rw [pyramid_corners]
  refine ⟨?_, ?_, ?_⟩
  · intro t ht
    simp only [List.mem_cons, List.not_mem_nil, or_false] at ht
    rcases ht with rfl | rfl | rfl | rfl
    · refine ⟨by simp [dot], by simp [dot], by simp [dot, hpp], by simp [dot], by simp [dot], by simp [dot], by simp [dot], by simp [dot], by simp [dot],
        by simp [det, hp0], ![1, 1, p], fun i => ?_⟩
      fin_cases i <;> simp [hpp, hp]
    · refine ⟨by simp [dot], by simp [dot], by simp [dot, hpp], by simp [dot], by simp [dot], by simp [dot], by simp [dot], by simp [dot], by simp [dot],
        by simp [det, hp0], ![-1, 1, p], fun i => ?_⟩
      fin_cases i <;> simp [hpp, hp]
    · refine ⟨by simp [dot], by simp [dot], by simp [dot, hpp], by simp [dot], by simp [dot], by simp [dot], by simp [dot], by simp [dot], by simp [dot],
        by simp [det, hp0], ![-1, -1, p], fun i => ?_⟩
      fin_cases i <;> simp [hpp, hp]
    · refine ⟨by simp [dot], by simp [dot], by simp [dot, hpp], by simp [dot], by simp [dot], by simp [dot], by simp [dot], by simp [dot], by simp [dot],
        by simp [det, hp0], ![1, -1, p], fun i => ?_⟩
      fin_cases i <;> simp [hpp, hp]
  · intro x hx
    have hz : x 2 = p * x 2 * p := by linear_combination (-x 2) * hpp
    have hx' : 0 ≤ p * x 2 := hx
    rcases le_total 0 (x 0) with h0 | h0 <;> rcases le_total 0 (x 1) with h1 | h1
    · refine ⟨_, List.mem_cons_self, x 0, x 1, p * x 2, h0, h1, hx', ?_⟩
      funext i; fin_cases i <;> simp [comb]; exact hz
    · refine ⟨(![0, -1, 0], ![1, 0, 0], ![0, 0, p]), by simp, -x 1, x 0, p * x 2, by linarith, h0, hx', ?_⟩
      funext i; fin_cases i <;> simp [comb]; exact hz
    · refine ⟨(![0, 1, 0], ![-1, 0, 0], ![0, 0, p]), by simp, x 1, -x 0, p * x 2, h1, by linarith, hx', ?_⟩
      funext i; fin_cases i <;> simp [comb]; exact hz
    · refine ⟨(![-1, 0, 0], ![0, -1, 0], ![0, 0, p]), by simp, -x 0, -x 1, p * x 2, by linarith, by linarith, hx', ?_⟩
      funext i; fin_cases i <;> simp [comb]; exact hz
  · simp only [List.pairwise_cons, List.mem_cons, List.not_mem_nil, or_false, forall_eq_or_imp, forall_eq, List.Pairwise.nil,
      and_true, IsEmpty.forall_iff, implies_true]
    refine ⟨⟨?_, ?_, ?_⟩, ⟨?_, ?_⟩, ?_⟩ <;>
      · rintro x ⟨⟨u, v, w, hu, hv, hw, rfl⟩, ⟨u', v', w', hu', hv', hw', h⟩⟩
        have h0 := congrFun h 0
        have h1 := congrFun h 1
        simp [comb] at h0 h1
        linarith

theorem pyramid_inside {p : ℝ} (hp : p = 1 ∨ p = -1) : ∀ t ∈ (pyramid p).corners, ∀ x, Inside t x → 0 < p * x 2 := by
  have hpp : p * p = 1 := by rcases hp with h | h <;> rw [h] <;> norm_num
  rw [pyramid_corners]
  intro t ht x hx
  simp only [List.mem_cons, List.not_mem_nil, or_false] at ht
  rcases ht with rfl | rfl | rfl | rfl <;>
    · obtain ⟨u, v, w, hu, hv, hw, rfl⟩ := hx
      simp only [comb]
      simp
      nlinarith

theorem octahedron_tile : Tile 1 (fun _ => True) octahedron.corners := by
  have h1 := pyramid_tile (Or.inl rfl)
  have h2 := pyramid_tile (Or.inr rfl)
  rw [octahedron_corners]
  refine ⟨fun t ht => ?_, fun x _ => ?_, ?_⟩
  · rcases List.mem_append.1 ht with ht | ht
    · exact h1.nice t ht
    · exact h2.nice t ht
  · rcases le_total 0 (x 2) with hx | hx
    · obtain ⟨t, ht, h⟩ := h1.cover x (by simpa using hx)
      exact ⟨t, List.mem_append_left _ ht, h⟩
    · obtain ⟨t, ht, h⟩ := h2.cover x (by simpa using hx)
      exact ⟨t, List.mem_append_right _ ht, h⟩
  · rw [List.pairwise_append]
    refine ⟨h1.apart, h2.apart, fun s hs t ht x hx => ?_⟩
    have k1 := pyramid_inside (Or.inl rfl) s hs x hx.1
    have k2 := pyramid_inside (Or.inr rfl) t ht x hx.2
    linarith

theorem octahedron_proper : octahedron.Proper where
  nodup := by
    simp only [octahedron]
    norm_num [List.nodup_cons]
  below := by simp [octahedron, Tri.Below]
  used := by
    have : ∀ i, i < 6 → ∃ t ∈ octahedron.triangles, Tri.Has t i := by
      intro i hi
      interval_cases i
      · exact ⟨(0, 1, 4), by decide, Or.inl rfl⟩
      · exact ⟨(1, 2, 4), by decide, Or.inl rfl⟩
      · exact ⟨(2, 3, 4), by decide, Or.inl rfl⟩
      · exact ⟨(3, 0, 4), by decide, Or.inl rfl⟩
      · exact ⟨(0, 1, 4), by decide, Or.inr (Or.inr rfl)⟩
      · exact ⟨(0, 1, 5), by decide, Or.inr (Or.inr rfl)⟩
    exact this

theorem pyramid_proper {p : ℝ} (hp : p = 1 ∨ p = -1) : (pyramid p).Proper where
  nodup := by
    have hp0 : p ≠ 0 := by rcases hp with h | h <;> rw [h] <;> norm_num
    simp only [pyramid]
    norm_num [List.nodup_cons, hp0, hp0.symm]
  below := by simp [pyramid, Tri.Below]
  used := by
    have : ∀ i, i < 5 → ∃ t ∈ (pyramid p).triangles, Tri.Has t i := by
      intro i hi
      interval_cases i
      · exact ⟨(0, 1, 4), by simp [pyramid], Or.inl rfl⟩
      · exact ⟨(1, 2, 4), by simp [pyramid], Or.inl rfl⟩
      · exact ⟨(2, 3, 4), by simp [pyramid], Or.inl rfl⟩
      · exact ⟨(3, 0, 4), by simp [pyramid], Or.inl rfl⟩
      · exact ⟨(0, 1, 4), by simp [pyramid], Or.inr (Or.inr rfl)⟩
    exact this

/-! ### The property -/

/-- C95: after any number of refinements the mesh of the sphere has `8·4ⁿ` triangles between distinct points, every point is a corner, and the
index of every corner is valid. -/
theorem sphere_indices (n : Nat) : (sphere n).triangles.length = 8 * 4 ^ n ∧ (sphere n).points.Nodup ∧
    (∀ t ∈ (sphere n).triangles, t.1 < (sphere n).points.length ∧ t.2.1 < (sphere n).points.length ∧ t.2.2 < (sphere n).points.length) ∧
    ∀ i, i < (sphere n).points.length → ∃ t ∈ (sphere n).triangles, i = t.1 ∨ i = t.2.1 ∨ i = t.2.2 := by
  obtain ⟨h1, h2, h3⟩ := iterate_mesh octahedron_proper octahedron_tile n
  refine ⟨?_, h1.nodup, h1.below, h1.used⟩
  rw [sphere, h3, mul_comm]
  rfl

/-- C95: every direction is in a triangle of the mesh of the sphere, and no direction is inside two of them. -/
theorem sphere_tiles (n : Nat) : (∀ x, ∃ t ∈ (sphere n).corners, Within t x) ∧ (sphere n).corners.Pairwise Apart := by
  obtain ⟨h1, h2, h3⟩ := iterate_mesh octahedron_proper octahedron_tile n
  exact ⟨fun x => h2.cover x trivial, h2.apart⟩

theorem points_unit {m : Mesh} {e : ℝ} {region : V3 → Prop} (h : m.Proper) (ht : Tile e region m.corners) :
    ∀ p ∈ m.points, dot p p = 1 := by
  intro p hp
  obtain ⟨i, hi, rfl⟩ := List.getElem_of_mem hp
  obtain ⟨t, hm, hti⟩ := h.used i hi
  have hn : Nice e (pt m.points t.1) (pt m.points t.2.1) (pt m.points t.2.2) := ht.nice _ (List.mem_map_of_mem hm)
  have hpi : pt m.points i = m.points[i] := by rw [pt, List.getD_eq_getElem _ _ hi]
  rw [← hpi]
  rcases hti with rfl | rfl | rfl
  · exact hn.ha
  · exact hn.hb
  · exact hn.hc

/-- C95: every point of the mesh of the sphere is a unit vector. -/
theorem sphere_unit (n : Nat) : ∀ p ∈ (sphere n).points, p 0 * p 0 + p 1 * p 1 + p 2 * p 2 = 1 := by
  obtain ⟨h1, h2, _⟩ := iterate_mesh octahedron_proper octahedron_tile n
  exact points_unit h1 h2

/-- C95: the sides of the triangles shrink: the cosine of the angle between two corners of a triangle is at least `1 - 3 / (4ⁿ + 2)`. -/
theorem sphere_sides (n : Nat) : ∀ t ∈ (sphere n).corners, 1 - 3 / (4 ^ n + 2) ≤ dot t.1 t.2.1 ∧ 1 - 3 / (4 ^ n + 2) ≤ dot t.2.1 t.2.2 ∧
    1 - 3 / (4 ^ n + 2) ≤ dot t.2.2 t.1 := by
  obtain ⟨_, h2, _⟩ := iterate_mesh octahedron_proper octahedron_tile n
  exact fun t ht => ⟨(h2.nice t ht).ab, (h2.nice t ht).bc, (h2.nice t ht).ca⟩

theorem sums_of_nice {e : ℝ} {t : Corners} (h : NiceT e t) (he : e ≤ 1) :
    (t.1 0 + t.2.1 0) ^ 2 + (t.1 1 + t.2.1 1) ^ 2 + (t.1 2 + t.2.1 2) ^ 2 ≠ 0 ∧
    (t.2.1 0 + t.2.2 0) ^ 2 + (t.2.1 1 + t.2.2 1) ^ 2 + (t.2.1 2 + t.2.2 2) ^ 2 ≠ 0 ∧
    (t.2.2 0 + t.1 0) ^ 2 + (t.2.2 1 + t.1 1) ^ 2 + (t.2.2 2 + t.1 2) ^ 2 ≠ 0 := by
  have h' : Nice e t.1 t.2.1 t.2.2 := h
  obtain ⟨n1, n2, n3⟩ := h'.nonneg he
  have ha := h'.ha
  have hb := h'.hb
  have hc := h'.hc
  simp only [dot] at n1 n2 n3 ha hb hc
  exact ⟨by nlinarith, by nlinarith, by nlinarith⟩

/-- C95: the refinement never divides by zero. -/
theorem mesh_sums_ne (n : Nat) : ∀ t ∈ (sphere n).corners,
    (t.1 0 + t.2.1 0) ^ 2 + (t.1 1 + t.2.1 1) ^ 2 + (t.1 2 + t.2.1 2) ^ 2 ≠ 0 ∧
    (t.2.1 0 + t.2.2 0) ^ 2 + (t.2.1 1 + t.2.2 1) ^ 2 + (t.2.1 2 + t.2.2 2) ^ 2 ≠ 0 ∧
    (t.2.2 0 + t.1 0) ^ 2 + (t.2.2 1 + t.1 1) ^ 2 + (t.2.2 2 + t.1 2) ^ 2 ≠ 0 := by
  obtain ⟨_, h2, _⟩ := iterate_mesh octahedron_proper octahedron_tile n
  exact fun t ht => sums_of_nice (h2.nice t ht) (side_range n).2

/-- C95: the half sphere has `4·4ⁿ` triangles between distinct unit vectors, all of them corners; they cover the half space on the side of the polarity, no
direction is inside two of them, and all of them are in that half space. -/
theorem half_sphere_tiles (n : Nat) (p : ℝ) (hp : p = 1 ∨ p = -1) :
    (halfSphere n p).triangles.length = 4 * 4 ^ n ∧ (halfSphere n p).points.Nodup ∧
    (∀ q ∈ (halfSphere n p).points, q 0 * q 0 + q 1 * q 1 + q 2 * q 2 = 1 ∧ 0 ≤ p * q 2) ∧
    (∀ t ∈ (halfSphere n p).triangles,
      t.1 < (halfSphere n p).points.length ∧ t.2.1 < (halfSphere n p).points.length ∧ t.2.2 < (halfSphere n p).points.length) ∧
    (∀ i, i < (halfSphere n p).points.length → ∃ t ∈ (halfSphere n p).triangles, i = t.1 ∨ i = t.2.1 ∨ i = t.2.2) ∧
    (∀ x : V3, 0 ≤ p * x 2 → ∃ t ∈ (halfSphere n p).corners, Within t x) ∧ (halfSphere n p).corners.Pairwise Apart := by
  obtain ⟨h1, h2, h3⟩ := iterate_mesh (pyramid_proper hp) (pyramid_tile hp) n
  have hside : ∀ n, ∀ t ∈ (refine^[n] (pyramid p)).corners, 0 ≤ p * t.1 2 ∧ 0 ≤ p * t.2.1 2 ∧ 0 ≤ p * t.2.2 2 := by
    intro n
    induction n with
    | zero =>
      have hpp : p * p = 1 := by rcases hp with h | h <;> rw [h] <;> norm_num
      show ∀ t ∈ (pyramid p).corners, _
      rw [pyramid_corners]
      intro t ht
      simp only [List.mem_cons, List.not_mem_nil, or_false] at ht
      rcases ht with rfl | rfl | rfl | rfl <;> simp [hpp]
    | succ n ih =>
      obtain ⟨i1, i2, _⟩ := iterate_mesh (pyramid_proper hp) (pyramid_tile hp) n
      rw [Function.iterate_succ_apply', (refine_proper i1).2.1]
      intro u hu
      obtain ⟨t, ht, hu⟩ := List.mem_flatMap.1 hu
      obtain ⟨s1, s2, s3⟩ := ih t ht
      have hm : ∀ a b : V3, 0 ≤ p * a 2 → 0 ≤ p * b 2 → 0 ≤ p * mid a b 2 := by
        intro a b ha hb
        rw [mid, unit, mul_div_assoc', mul_add]
        exact div_nonneg (add_nonneg ha hb) (Real.sqrt_nonneg _)
      simp only [split4, List.mem_cons, List.not_mem_nil, or_false] at hu
      rcases hu with rfl | rfl | rfl | rfl
      · exact ⟨hm _ _ s1 s2, hm _ _ s2 s3, hm _ _ s3 s1⟩
      · exact ⟨s1, hm _ _ s1 s2, hm _ _ s3 s1⟩
      · exact ⟨s2, hm _ _ s1 s2, hm _ _ s2 s3⟩
      · exact ⟨s3, hm _ _ s3 s1, hm _ _ s2 s3⟩
  refine ⟨?_, h1.nodup, fun q hq => ⟨points_unit h1 h2 q hq, ?_⟩, h1.below, h1.used, h2.cover, h2.apart⟩
  · rw [halfSphere, h3, mul_comm]; rfl
  · obtain ⟨i, hi, rfl⟩ := List.getElem_of_mem hq
    obtain ⟨t, hm, hti⟩ := h1.used i hi
    have hs := hside n _ (List.mem_map_of_mem hm)
    have hpi : pt (halfSphere n p).points i = (halfSphere n p).points[i] := by rw [pt, List.getD_eq_getElem _ _ hi]
    rw [← hpi]
    rcases hti with rfl | rfl | rfl
    · exact hs.1
    · exact hs.2.1
    · exact hs.2.2

/-- The mesh of the first refinement: 32 triangles. -/
example : (sphere 1).triangles.length = 32 := (sphere_indices 1).1

end Verif.Far
