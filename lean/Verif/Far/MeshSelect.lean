import Verif.Far.MeshProps
/-
Property C95: the regions of directions that `triangle_selection_vector` selects.
-/
namespace Verif.Far
set_option linter.unusedVariables false

/-- The direction of polar angle `θ` and azimuth `φ`, with a length `r`. -/
noncomputable def spherical (r θ φ : ℝ) : V3 := ![r * (Real.sin θ * Real.cos φ), r * (Real.sin θ * Real.sin φ), r * Real.cos θ]

/-- The direction is in the open region of the sphere between the bounds. -/
def InRegion (th ph : ℝ × ℝ) (c : V3) : Prop := ∃ r θ φ, 0 < r ∧ 0 ≤ θ ∧ θ ≤ Real.pi ∧ c = spherical r θ φ ∧
  th.1 < θ ∧ θ < th.2 ∧ ph.1 < φ ∧ φ < ph.2

/-- The same with the bounds of the azimuth included. -/
def InRegionC (th ph : ℝ × ℝ) (c : V3) : Prop := ∃ r θ φ, 0 < r ∧ 0 ≤ θ ∧ θ ≤ Real.pi ∧ c = spherical r θ φ ∧
  th.1 < θ ∧ θ < th.2 ∧ ph.1 ≤ φ ∧ φ ≤ ph.2

/-! ### Angles -/

theorem phase_exp (x : ℝ) : phase x = Complex.exp ((x : ℂ) * Complex.I) := by
  rw [phase, Complex.exp_mul_I, Complex.ofReal_cos, Complex.ofReal_sin]; ring

theorem ang (x y : ℝ) : ∃ k : ℤ, npAngle (phase x / phase y) = x - y + 2 * Real.pi * k ∧ -Real.pi < npAngle (phase x / phase y) ∧
    npAngle (phase x / phase y) ≤ Real.pi := by
  have h : phase x / phase y = Complex.exp (((x - y : ℝ) : ℂ) * Complex.I) := by
    rw [phase_exp, phase_exp, ← Complex.exp_sub]; congr 1; push_cast; ring
  refine ⟨-toIocDiv Real.two_pi_pos (-Real.pi) (x - y), ?_, Complex.neg_pi_lt_arg _, Complex.arg_le_pi _⟩
  rw [npAngle, h, Complex.arg_exp_mul_I, toIocMod, zsmul_eq_mul]
  push_cast; ring

/-- A whole number of turns that is less than one turn is none. -/
theorem no_turn {k : ℤ} {d : ℝ} (h : d = 2 * Real.pi * k) (h1 : -(2 * Real.pi) < d) (h2 : d < 2 * Real.pi) : k = 0 := by
  have hp := Real.pi_pos
  have a1 : (k : ℝ) < 1 := by
    by_contra hc
    push Not at hc
    nlinarith
  have a2 : (-1 : ℝ) < k := by
    by_contra hc
    push Not at hc
    nlinarith
  have b1 : k < 1 := by exact_mod_cast a1
  have b2 : -1 < k := by exact_mod_cast a2
  omega

theorem ang_eq {x y a : ℝ} (k : ℤ) (ha : a = x - y + 2 * Real.pi * k) (h1 : -Real.pi < a) (h2 : a ≤ Real.pi) :
    npAngle (phase x / phase y) = a := by
  obtain ⟨j, hj, j1, j2⟩ := ang x y
  have h0 : j - k = 0 := no_turn (d := npAngle (phase x / phase y) - a) (by rw [hj, ha]; push_cast; ring) (by linarith) (by linarith)
  have : j = k := by omega
  rw [hj, ha, this]

/-- The selection of the azimuth, for a region of at most a half turn. -/
theorem selectPh_narrow {b0 b1 ph : ℝ} (h0 : -Real.pi < b1 - b0) (h1 : b1 - b0 ≤ Real.pi) :
    selectPh b0 b1 ph = true ↔ ∃ k : ℤ, b0 < ph + 2 * Real.pi * k ∧ ph + 2 * Real.pi * k < b1 := by
  have e1 : npAngle (phase b1 / phase b0) = b1 - b0 := ang_eq 0 (by simp) h0 h1
  simp only [selectPh, h1, if_true, Bool.and_eq_true, decide_eq_true_eq, e1]
  constructor
  · rintro ⟨h2, h3⟩
    obtain ⟨k, hk, _, _⟩ := ang ph b0
    exact ⟨k, by linarith, by linarith⟩
  · rintro ⟨k, k1, k2⟩
    have e2 : npAngle (phase ph / phase b0) = ph + 2 * Real.pi * k - b0 :=
      ang_eq k (by ring) (by linarith [Real.pi_pos]) (by linarith)
    rw [e2]
    exact ⟨by linarith, by linarith⟩

/-- The selection of the azimuth, for a region of more than a half turn and less than three halves. -/
theorem selectPh_wide {b0 b1 ph : ℝ} (h0 : Real.pi < b1 - b0) (h1 : b1 - b0 < 3 * Real.pi) :
    selectPh b0 b1 ph = true ↔ ∃ k : ℤ, b0 ≤ ph + 2 * Real.pi * k ∧ ph + 2 * Real.pi * k ≤ b1 := by
  have hp := Real.pi_pos
  have e1 : npAngle (phase b0 / phase b1) = b0 - b1 + 2 * Real.pi := ang_eq 1 (by push_cast; ring) (by linarith) (by linarith)
  simp only [selectPh, not_le.2 h0, if_false, e1, Bool.not_eq_true', Bool.and_eq_false_iff, decide_eq_false_iff_not, not_lt, gt_iff_lt]
  obtain ⟨j, hj, j1, j2⟩ := ang ph b1
  constructor
  · rintro (h | h)
    · refine ⟨j - 1, ?_, ?_⟩ <;> push_cast <;> nlinarith
    · exact ⟨j, by linarith, by linarith⟩
  · rintro ⟨k, k1, k2⟩
    by_contra hc
    push Not at hc
    obtain ⟨c1, c2⟩ := hc
    have hlt : ((j - k : ℤ) : ℝ) * (2 * Real.pi) < 1 * (2 * Real.pi) := by push_cast; nlinarith
    have hgt : (0 : ℝ) * (2 * Real.pi) < ((j - k : ℤ) : ℝ) * (2 * Real.pi) := by push_cast; nlinarith
    have a1 := lt_of_mul_lt_mul_right hlt (by linarith)
    have a2 := lt_of_mul_lt_mul_right hgt (by linarith)
    have b1' : j - k < 1 := by exact_mod_cast a1
    have b2' : 0 < j - k := by exact_mod_cast a2
    omega

/-! ### Spherical coordinates of a direction off the axis -/

theorem radius_pos {c : V3} (hc : c 0 ≠ 0) : 0 < Real.sqrt (c 0 ^ 2 + c 1 ^ 2 + c 2 ^ 2) := by
  apply Real.sqrt_pos.2
  have := pow_pos (abs_pos.2 hc) 2
  rw [sq_abs] at this
  positivity

/-- The spherical coordinates of a direction off the axis. -/
theorem spherical_iff {c : V3} (hc : c 0 ≠ 0) (r θ φ : ℝ) (h0 : 0 ≤ θ) (hpi : θ ≤ Real.pi) :
    (0 < r ∧ c = spherical r θ φ) ↔ r = Real.sqrt (c 0 ^ 2 + c 1 ^ 2 + c 2 ^ 2) ∧ θ = Real.arccos (c 2 / r) ∧
      ∃ k : ℤ, φ = npAngle ((c 0 : ℂ) + Complex.I * (c 1 : ℂ)) + 2 * Real.pi * k := by
  constructor
  · rintro ⟨hr, h⟩
    have e0 : c 0 = r * (Real.sin θ * Real.cos φ) := by rw [h]; rfl
    have e1 : c 1 = r * (Real.sin θ * Real.sin φ) := by rw [h]; rfl
    have e2 : c 2 = r * Real.cos θ := by rw [h]; rfl
    have hsq : c 0 ^ 2 + c 1 ^ 2 + c 2 ^ 2 = r ^ 2 := by
      rw [e0, e1, e2]
      linear_combination r ^ 2 * Real.sin θ ^ 2 * Real.sin_sq_add_cos_sq φ + r ^ 2 * Real.sin_sq_add_cos_sq θ
    have hs : 0 < Real.sin θ := by
      refine lt_of_le_of_ne (Real.sin_nonneg_of_nonneg_of_le_pi h0 hpi) ?_
      intro hz
      rw [← hz] at e0
      exact hc (by rw [e0]; ring)
    refine ⟨by rw [hsq, Real.sqrt_sq hr.le], ?_, ?_⟩
    · rw [e2, mul_div_assoc, mul_comm, div_mul_cancel₀ _ hr.ne', Real.arccos_cos h0 hpi]
    · refine ⟨toIocDiv Real.two_pi_pos (-Real.pi) φ, ?_⟩
      have hz : ((c 0 : ℂ) + Complex.I * (c 1 : ℂ)) = ((r * Real.sin θ : ℝ) : ℂ) * (Complex.cos φ + Complex.sin φ * Complex.I) := by
        rw [e0, e1]; push_cast; ring
      rw [npAngle, hz, Complex.arg_mul_cos_add_sin_mul_I_eq_toIocMod (mul_pos hr hs), toIocMod, zsmul_eq_mul]
      ring
  · rintro ⟨rfl, rfl, k, rfl⟩
    have hr := radius_pos hc
    refine ⟨hr, ?_⟩
    set r := Real.sqrt (c 0 ^ 2 + c 1 ^ 2 + c 2 ^ 2) with hrd
    have hr2 : r ^ 2 = c 0 ^ 2 + c 1 ^ 2 + c 2 ^ 2 := Real.sq_sqrt (by positivity)
    have habs : |c 2| ≤ r := Real.abs_le_sqrt (by nlinarith [sq_nonneg (c 0), sq_nonneg (c 1)])
    have hcos : Real.cos (Real.arccos (c 2 / r)) = c 2 / r := by
      refine Real.cos_arccos ?_ ?_
      · rw [le_div_iff₀ hr]; linarith [neg_abs_le (c 2)]
      · rw [div_le_one hr]; exact (le_abs_self _).trans habs
    have hsin : r * Real.sin (Real.arccos (c 2 / r)) = ‖(c 0 : ℂ) + Complex.I * (c 1 : ℂ)‖ := by
      have hn : ‖(c 0 : ℂ) + Complex.I * (c 1 : ℂ)‖ = Real.sqrt (c 0 ^ 2 + c 1 ^ 2) := by
        rw [mul_comm, Complex.norm_add_mul_I]
      rw [hn, Real.sin_arccos, eq_comm, Real.sqrt_eq_iff_mul_self_eq (by positivity) (by positivity)]
      have : r * Real.sqrt (1 - (c 2 / r) ^ 2) * (r * Real.sqrt (1 - (c 2 / r) ^ 2)) = r ^ 2 * (1 - (c 2 / r) ^ 2) := by
        have hle : 0 ≤ 1 - (c 2 / r) ^ 2 := by
          rw [div_pow, sub_nonneg, div_le_one (by positivity), hr2]
          nlinarith [sq_nonneg (c 0), sq_nonneg (c 1)]
        rw [mul_mul_mul_comm, Real.mul_self_sqrt hle, ← sq]
      rw [this, div_pow, mul_sub, mul_div_cancel₀ _ (by positivity), hr2]; ring
    have hz0 : ((c 0 : ℂ) + Complex.I * (c 1 : ℂ)) ≠ 0 := by
      intro h
      have := congrArg Complex.re h
      simp at this
      exact hc this
    have hturn : ∀ x : ℝ, Real.cos (x + 2 * Real.pi * k) = Real.cos x ∧ Real.sin (x + 2 * Real.pi * k) = Real.sin x := by
      intro x
      rw [mul_comm (2 * Real.pi)]
      exact ⟨Real.cos_add_int_mul_two_pi x k, Real.sin_add_int_mul_two_pi x k⟩
    obtain ⟨t1, t2⟩ := hturn (npAngle ((c 0 : ℂ) + Complex.I * (c 1 : ℂ)))
    have k1 : ‖(c 0 : ℂ) + Complex.I * (c 1 : ℂ)‖ * Real.cos (npAngle ((c 0 : ℂ) + Complex.I * (c 1 : ℂ))) = c 0 := by
      rw [npAngle, Complex.norm_mul_cos_arg]; simp
    have k2 : ‖(c 0 : ℂ) + Complex.I * (c 1 : ℂ)‖ * Real.sin (npAngle ((c 0 : ℂ) + Complex.I * (c 1 : ℂ))) = c 1 := by
      rw [npAngle, Complex.norm_mul_sin_arg]; simp
    funext i
    fin_cases i
    · show c 0 = r * (Real.sin _ * Real.cos _)
      rw [← mul_assoc, hsin, t1, k1]
    · show c 1 = r * (Real.sin _ * Real.sin _)
      rw [← mul_assoc, hsin, t2, k2]
    · show c 2 = r * Real.cos _
      rw [hcos, mul_div_cancel₀ _ hr.ne']

theorem selectTh_iff (b0 b1 : ℝ) (c : V3) : selectTh b0 b1 c = true ↔
    b0 < Real.arccos (c 2 / Real.sqrt (c 0 ^ 2 + c 1 ^ 2 + c 2 ^ 2)) ∧ Real.arccos (c 2 / Real.sqrt (c 0 ^ 2 + c 1 ^ 2 + c 2 ^ 2)) < b1 := by
  simp [selectTh]

/-- A triangle of which the centre is selected. -/
noncomputable def selects (th ph : ℝ × ℝ) (c : V3) : Bool :=
  selectTh th.1 th.2 c && selectPh ph.1 ph.2 (npAngle ((c 0 : ℂ) + Complex.I * (c 1 : ℂ)))

theorem selects_narrow {th ph : ℝ × ℝ} {c : V3} (hc : c 0 ≠ 0) (h0 : -Real.pi < ph.2 - ph.1) (h1 : ph.2 - ph.1 ≤ Real.pi) :
    selects th ph c = true ↔ InRegion th ph c := by
  rw [selects, Bool.and_eq_true, selectTh_iff, selectPh_narrow h0 h1]
  constructor
  · rintro ⟨⟨t1, t2⟩, k, k1, k2⟩
    have h := (spherical_iff hc _ _ _ (Real.arccos_nonneg _) (Real.arccos_le_pi _)).2 ⟨rfl, rfl, k, rfl⟩
    exact ⟨_, _, _, h.1, Real.arccos_nonneg _, Real.arccos_le_pi _, h.2, t1, t2, k1, k2⟩
  · rintro ⟨r, θ, φ, hr, p0, p1, hs, t1, t2, k1, k2⟩
    obtain ⟨rfl, rfl, k, rfl⟩ := (spherical_iff hc r θ φ p0 p1).1 ⟨hr, hs⟩
    exact ⟨⟨t1, t2⟩, k, k1, k2⟩

theorem selects_wide {th ph : ℝ × ℝ} {c : V3} (hc : c 0 ≠ 0) (h0 : Real.pi < ph.2 - ph.1) (h1 : ph.2 - ph.1 < 3 * Real.pi) :
    selects th ph c = true ↔ InRegionC th ph c := by
  rw [selects, Bool.and_eq_true, selectTh_iff, selectPh_wide h0 h1]
  constructor
  · rintro ⟨⟨t1, t2⟩, k, k1, k2⟩
    have h := (spherical_iff hc _ _ _ (Real.arccos_nonneg _) (Real.arccos_le_pi _)).2 ⟨rfl, rfl, k, rfl⟩
    exact ⟨_, _, _, h.1, Real.arccos_nonneg _, Real.arccos_le_pi _, h.2, t1, t2, k1, k2⟩
  · rintro ⟨r, θ, φ, hr, p0, p1, hs, t1, t2, k1, k2⟩
    obtain ⟨rfl, rfl, k, rfl⟩ := (spherical_iff hc r θ φ p0 p1).1 ⟨hr, hs⟩
    exact ⟨⟨t1, t2⟩, k, k1, k2⟩

/-! ### The centres of the triangles -/

theorem centre_ne {e : ℝ} {t : Corners} (h : NiceT e t) (i : Fin 3) : (t.1 i + t.2.1 i + t.2.2 i) / 3 ≠ 0 := by
  have h' : Nice e t.1 t.2.1 t.2.2 := h
  obtain ⟨σ, hσ⟩ := h'.oct
  have hd := h'.det
  obtain ⟨hs, s1, s2, s3⟩ := hσ i
  intro h0
  have hz : t.1 i + t.2.1 i + t.2.2 i = 0 := by linarith
  have hσ0 : σ i ≠ 0 := by rcases hs with h | h <;> rw [h] <;> norm_num
  have hsum : σ i * t.1 i + σ i * t.2.1 i + σ i * t.2.2 i = 0 := by rw [← mul_add, ← mul_add, hz, mul_zero]
  have s1 : 0 ≤ σ i * t.1 i := s1
  have s2 : 0 ≤ σ i * t.2.1 i := s2
  have s3 : 0 ≤ σ i * t.2.2 i := s3
  have z1 : t.1 i = 0 := (mul_eq_zero.1 (show σ i * t.1 i = 0 by linarith)).resolve_left hσ0
  have z2 : t.2.1 i = 0 := (mul_eq_zero.1 (show σ i * t.2.1 i = 0 by linarith)).resolve_left hσ0
  have z3 : t.2.2 i = 0 := (mul_eq_zero.1 (show σ i * t.2.2 i = 0 by linarith)).resolve_left hσ0
  apply hd
  rw [det]
  fin_cases i
  · simp only [Fin.zero_eta] at z1 z2 z3; rw [z1, z2, z3]; ring
  · simp only [Fin.mk_one] at z1 z2 z3; rw [z1, z2, z3]; ring
  · have z1 : t.1 2 = 0 := z1
    have z2 : t.2.1 2 = 0 := z2
    have z3 : t.2.2 2 = 0 := z3
    rw [z1, z2, z3]; ring

/-- A mesh that the functions of the package make. -/
def Made (m : Mesh) : Prop := (∃ n, m = sphere n) ∨ ∃ n p, (p = 1 ∨ p = -1) ∧ m = halfSphere n p

theorem Made.nice {m : Mesh} (h : Made m) : ∃ n region, m.Proper ∧ Tile (side n) region m.corners := by
  rcases h with ⟨n, rfl⟩ | ⟨n, p, hp, rfl⟩
  · obtain ⟨h1, h2, _⟩ := iterate_mesh octahedron_proper octahedron_tile n
    exact ⟨n, _, h1, h2⟩
  · obtain ⟨h1, h2, _⟩ := iterate_mesh (pyramid_proper hp) (pyramid_tile hp) n
    exact ⟨n, _, h1, h2⟩

theorem Made.center_ne {m : Mesh} (h : Made m) {t : Tri} (ht : t ∈ m.triangles) (i : Fin 3) : center m t i ≠ 0 := by
  obtain ⟨n, region, _, hT⟩ := h.nice
  exact centre_ne (hT.nice _ (List.mem_map_of_mem ht)) i

/-- The centre of gravity of a triangle. -/
noncomputable def gravity (t : Corners) : V3 := fun i => (t.1 i + t.2.1 i + t.2.2 i) / 3

theorem selection_map (m : Mesh) (th ph : ℝ × ℝ) :
    selection m th ph = m.corners.map fun t => if selects th ph (gravity t) then 1 else 0 := by
  rw [Mesh.corners, List.map_map]
  rfl

open Classical in
/-- C95: for a range of azimuths of at most a half turn, exactly the triangles with the centre in the region are selected. -/
theorem selection_narrow {m : Mesh} (h : Made m) {th ph : ℝ × ℝ} (h0 : -Real.pi < ph.2 - ph.1) (h1 : ph.2 - ph.1 ≤ Real.pi) :
    selection m th ph = m.corners.map fun t => if InRegion th ph (gravity t) then 1 else 0 := by
  rw [selection_map]
  refine List.map_congr_left fun t ht => ?_
  obtain ⟨n, region, _, hT⟩ := h.nice
  have := selects_narrow (th := th) (c := gravity t) (centre_ne (hT.nice t ht) 0) h0 h1
  by_cases hs : InRegion th ph (gravity t)
  · rw [if_pos hs, if_pos (this.2 hs)]
  · rw [if_neg hs, if_neg (fun hh => hs (this.1 hh))]

open Classical in
/-- C95: for a larger range, up to three half turns, the bounds of the azimuth are included. -/
theorem selection_wide {m : Mesh} (h : Made m) {th ph : ℝ × ℝ} (h0 : Real.pi < ph.2 - ph.1) (h1 : ph.2 - ph.1 < 3 * Real.pi) :
    selection m th ph = m.corners.map fun t => if InRegionC th ph (gravity t) then 1 else 0 := by
  rw [selection_map]
  refine List.map_congr_left fun t ht => ?_
  obtain ⟨n, region, _, hT⟩ := h.nice
  have := selects_wide (th := th) (c := gravity t) (centre_ne (hT.nice t ht) 0) h0 h1
  by_cases hs : InRegionC th ph (gravity t)
  · rw [if_pos hs, if_pos (this.2 hs)]
  · rw [if_neg hs, if_neg (fun hh => hs (this.1 hh))]

/-- C95: the full range selects every triangle. -/
theorem selection_full {m : Mesh} (h : Made m) : selection m (0, Real.pi) (-Real.pi, Real.pi) = m.corners.map fun _ => 1 := by
  have hp := Real.pi_pos
  rw [selection_map]
  refine List.map_congr_left fun t ht => ?_
  obtain ⟨n, region, _, hT⟩ := h.nice
  have hc : gravity t 0 ≠ 0 := centre_ne (hT.nice t ht) 0
  rw [if_pos]
  rw [selects, Bool.and_eq_true, selectTh_iff, selectPh_wide (by simp only []; linarith) (by simp only []; linarith)]
  set c := gravity t
  have hr := radius_pos hc
  have hlt : |c 2| < Real.sqrt (c 0 ^ 2 + c 1 ^ 2 + c 2 ^ 2) := by
    rw [Real.lt_sqrt (abs_nonneg _), sq_abs]
    have := pow_pos (abs_pos.2 hc) 2
    rw [sq_abs] at this
    nlinarith [sq_nonneg (c 1)]
  obtain ⟨l1, l2⟩ := abs_lt.1 hlt
  refine ⟨⟨?_, ?_⟩, 0, ?_, ?_⟩
  · exact Real.arccos_pos.2 ((div_lt_one hr).2 l2)
  · have hne : (-1 : ℝ) < c 2 / Real.sqrt (c 0 ^ 2 + c 1 ^ 2 + c 2 ^ 2) := by rw [lt_div_iff₀ hr]; linarith
    refine lt_of_le_of_ne (Real.arccos_le_pi _) fun h => ?_
    rw [Real.arccos_eq_pi] at h
    linarith
  · have : -Real.pi < npAngle ((c 0 : ℂ) + Complex.I * (c 1 : ℂ)) := Complex.neg_pi_lt_arg _
    simp only [Int.cast_zero, mul_zero, add_zero]
    exact this.le
  · simp only [Int.cast_zero, mul_zero, add_zero]
    exact Complex.arg_le_pi _

/-- The regions are met: the azimuths of the first octant. -/
example : -Real.pi < (0, Real.pi / 2).2 - (0, Real.pi / 2).1 ∧ (0, Real.pi / 2).2 - (0, Real.pi / 2).1 ≤ Real.pi := by
  have := Real.pi_pos
  constructor <;> simp <;> linarith

/-- C95, where it fails: a range of azimuths of three half turns and more leaves out directions that it contains. -/
theorem selection_range_false : selection (sphere 0) (0, Real.pi) (0, 7 * Real.pi / 2) ≠ (sphere 0).corners.map (fun _ => 1) ∧
    ∀ t ∈ (sphere 0).corners, InRegion (0, Real.pi) (0, 7 * Real.pi / 2) (gravity t) := by
  have hp := Real.pi_pos
  have hM : Made (sphere 0) := Or.inl ⟨0, rfl⟩
  obtain ⟨n, region, _, hT⟩ := hM.nice
  constructor
  · intro h
    rw [selection_map] at h
    have hmem : ((![0, -1, 0], ![1, 0, 0], ![0, 0, 1]) : Corners) ∈ (sphere 0).corners := by
      show _ ∈ octahedron.corners
      rw [octahedron_corners, pyramid_corners]; simp
    have := (List.map_inj_left.1 h) _ hmem
    have hsel : selects (0, Real.pi) (0, 7 * Real.pi / 2) (gravity (![0, -1, 0], ![1, 0, 0], ![0, 0, 1])) = false := by
      have hz : ((gravity (![0, -1, 0], ![1, 0, 0], ![0, 0, 1]) 0 : ℝ) : ℂ) + Complex.I * ((gravity (![0, -1, 0], ![1, 0, 0], ![0, 0, 1]) 1 : ℝ) : ℂ) =
          ((Real.sqrt 2 / 3 : ℝ) : ℂ) * (Complex.cos ((-(Real.pi / 4) : ℝ) : ℂ) + Complex.sin ((-(Real.pi / 4) : ℝ) : ℂ) * Complex.I) := by
        rw [← Complex.ofReal_cos, ← Complex.ofReal_sin, Real.cos_neg, Real.sin_neg, Real.cos_pi_div_four, Real.sin_pi_div_four]
        have h2 : (Real.sqrt 2 : ℂ) * (Real.sqrt 2 : ℂ) = 2 := by
          rw [← Complex.ofReal_mul, Real.mul_self_sqrt (by norm_num)]; norm_num
        simp [gravity]
        linear_combination (-1 / 6 + 1 / 6 * Complex.I) * h2
      have ha : npAngle (((gravity (![0, -1, 0], ![1, 0, 0], ![0, 0, 1]) 0 : ℝ) : ℂ) +
          Complex.I * ((gravity (![0, -1, 0], ![1, 0, 0], ![0, 0, 1]) 1 : ℝ) : ℂ)) = -(Real.pi / 4) := by
        rw [npAngle, hz, Complex.arg_mul_cos_add_sin_mul_I (by positivity) ⟨by linarith, by linarith⟩]
      rw [selects, ha]
      have e1 : npAngle (phase 0 / phase (7 * Real.pi / 2)) = Real.pi / 2 := ang_eq 2 (by push_cast; ring) (by linarith) (by linarith)
      have e2 : npAngle (phase (-(Real.pi / 4)) / phase (7 * Real.pi / 2)) = Real.pi / 4 :=
        ang_eq 2 (by push_cast; ring) (by linarith) (by linarith)
      have : selectPh 0 (7 * Real.pi / 2) (-(Real.pi / 4)) = false := by
        have hgt : ¬(7 * Real.pi / 2 - 0 ≤ Real.pi) := by linarith
        simp only [selectPh, hgt, if_false, e1, e2]
        simp only [Bool.not_eq_false', Bool.and_eq_true, decide_eq_true_eq]
        constructor <;> linarith
      simp only [this, Bool.and_false]
    rw [hsel] at this
    simp at this
  · intro t ht
    have hc : gravity t 0 ≠ 0 := centre_ne (hT.nice t ht) 0
    have hfull := selection_full hM
    rw [selection_map] at hfull
    have h1 := (List.map_inj_left.1 hfull) t ht
    have hs : selects (0, Real.pi) (-Real.pi, Real.pi) (gravity t) = true := by
      by_contra hn
      rw [if_neg hn] at h1
      norm_num at h1
    rw [selects_wide hc (by simp only []; linarith) (by simp only []; linarith)] at hs
    obtain ⟨r, θ, φ, hr, p0, p1, he, t1, t2, k1, k2⟩ := hs
    refine ⟨r, θ, φ + 2 * Real.pi * (1 : ℤ), hr, p0, p1, ?_, t1, t2, ?_, ?_⟩
    · rw [he, spherical, spherical]
      have hcos : Real.cos (φ + 2 * Real.pi * (1 : ℤ)) = Real.cos φ := by push_cast; rw [mul_one]; exact Real.cos_add_two_pi φ
      have hsin : Real.sin (φ + 2 * Real.pi * (1 : ℤ)) = Real.sin φ := by push_cast; rw [mul_one]; exact Real.sin_add_two_pi φ
      rw [hcos, hsin]
    · simp only [Int.cast_one, mul_one] at *; linarith
    · simp only [Int.cast_one, mul_one] at *; linarith

end Verif.Far
