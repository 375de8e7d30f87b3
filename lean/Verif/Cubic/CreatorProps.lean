import Verif.Cubic.CreatorLemmas

/-!
# C85: cubic parametrizations of goos shapes and of optimization plans
-/

set_option linter.unusedVariables false
set_option linter.unusedSectionVars false
set_option linter.unusedSimpArgs false

namespace Verif.Cubic

open Finset

/-! ## Lemmas -/

theorem mk_ok_parts {init : Init} {xs ys X Y : List ℝ} {sym per : Bool × Bool} {p : Nat × Nat} {lo hi : ℝ}
    {bds : Option (ℝ × ℝ)} {P : CubicParam}
    (hm : mkCubicParam init xs ys X Y sym per p lo hi bds = .ok P) :
    (∃ g, makeGeometryMatrixCubic (K := ℝ) (xs.length, ys.length) sym per p false = .ok g) ∧
      ∃ m, cubicMatrices X Y xs ys per = .ok m := by
  simp only [mkCubicParam, bind, Except.bind] at hm
  cases hg : makeGeometryMatrixCubic (K := ℝ) (xs.length, ys.length) sym per p false with
  | error e => rw [hg] at hm; cases hm
  | ok g =>
    rw [hg] at hm
    simp only [] at hm
    refine ⟨⟨_, rfl⟩, ?_⟩
    cases hi' : initVector g.1 g.2 init with
    | error e => rw [hi'] at hm; cases hm
    | ok vec =>
      rw [hi'] at hm
      simp only [] at hm
      cases hc : cubicMatrices X Y xs ys per with
      | error e => rw [hc] at hm; cases hm
      | ok m => exact ⟨_, rfl⟩

/-- The interpolated value of constant parameters. -/
theorem level_const {xs ys : List ℝ} {sym : Bool × Bool} {p : Nat × Nat} (hx : Increasing xs)
    (hy : Increasing ys) (fx : Fits xs.length sym.1 p.1) (fy : Fits ys.length sym.2 p.2)
    (enx : Enough (p.1 != 0) xs.length) (eny : Enough (p.2 != 0) ys.length) (c x y : ℝ) {v : Nat → ℝ}
    (hv : ∀ j < freePoints xs.length sym.1 p.1 * freePoints ys.length sym.2 p.2, v j = c) :
    level xs ys sym p v x y = c := by
  have hle : ∀ {q n : Nat}, freeLen (q != 0) n ≤ n := by
    intro q n; unfold freeLen; split <;> omega
  unfold level
  rw [(interp_congr enx (g := fun _ => c) (fun i hi => ?_) _).1, interp_const hx enx]
  rw [(interp_congr eny (g := fun _ => c) (fun j hj => ?_) _).1, interp_const hy eny]
  exact hv _ (idx_lt (srcIdx_lt fx (lt_of_lt_of_le hi hle)) (srcIdx_lt fy (lt_of_lt_of_le hj hle)))

/-- A grid of one point is increasing as well. -/
theorem gridOf_increasing' {n : Nat} {u : ℝ} {p m : Nat} (hn : 0 < n) (hu : 0 < u)
    (h : p = 0 → m = ⌈n / u⌉₊ + 2) : Increasing (gridOf n u p m) := by
  by_cases hp : p = 0
  · exact gridOf_increasing hn hu (by unfold Enough'; rw [if_pos hp]; exact h hp)
  · by_cases hm : 2 ≤ m
    · refine prog_increasing _ ?_ _
      unfold spacing
      rw [if_neg hp]
      have : (0 : ℝ) < (m - 1 : Nat) := by exact_mod_cast (by omega : 0 < m - 1)
      have : (0 : ℝ) < n := by exact_mod_cast hn
      positivity
    · intro i j hij hj
      rw [gridOf_length] at hj
      omega

/-- A parametrization on coarse grids of the creators. -/
def OnGrids (nx ny : Nat) (u : ℝ) (sym : Bool × Bool) (p m : Nat × Nat) (init : Init) (P : CubicParam) : Prop :=
  mkCubicParam init (gridOf nx u p.1 m.1) (gridOf ny u p.2 m.2) (fineGrid nx) (fineGrid ny) sym
    (p.1 != 0, p.2 != 0) p 0 1 none = .ok P

section
variable {nx ny : Nat} {u : ℝ} {sym : Bool × Bool} {p m : Nat × Nat} {init : Init} {P : CubicParam}

theorem onGrids_exists (hnx : 0 < nx) (hny : 0 < ny) (hu : 0 < u) (h1 : Enough' nx u p.1 m.1)
    (h2 : Enough' ny u p.2 m.2)
    (hi : ∀ l, init = .array l → l.length = m.1 * m.2 ∨
      l.length = freePoints m.1 sym.1 p.1 * freePoints m.2 sym.2 p.2) :
    ∃ P, OnGrids nx ny u sym p m init P := by
  refine cubic_param_exists (gridOf_increasing hnx hu h1) (gridOf_increasing hny hu h2)
    (gridOf_fits hnx hu h1 _) (gridOf_fits hny hu h2 _) ?_ ?_ (gridOf_ends hnx hu h1)
    (gridOf_ends hny hu h2) ?_
  · rw [gridOf_length]
    have := three_le h1 hnx hu
    split <;> omega
  · rw [gridOf_length]
    have := three_le h2 hny hu
    split <;> omega
  · intro l hl
    rw [gridOf_length, gridOf_length]
    exact hi l hl

theorem onGrids_spec (hnx : 0 < nx) (hny : 0 < ny) (hu : 0 < u) (h1 : Enough' nx u p.1 m.1)
    (h2 : Enough' ny u p.2 m.2) (h : OnGrids nx ny u sym p m init P) :
    P.vec2f.rows = nx * ny ∧
    P.vec2f.cols = freePoints m.1 sym.1 p.1 * freePoints m.2 sym.2 p.2 ∧
    P.lower = 0 ∧ P.upper = 1 ∧
    (∀ c v r, (∀ j < P.vec2f.cols, v j = c) → r < nx * ny → P.vec2f.mulVec v r = c) := by
  obtain ⟨enx, eny, hr, hc, hl, _, hlo, hhi, _⟩ := mkCubicParam_spec (gridOf_increasing hnx hu h1)
    (gridOf_increasing hny hu h2) (gridOf_fits hnx hu h1 _) (gridOf_fits hny hu h2 _) h
  rw [fine_length hnx, fine_length hny] at hr
  refine ⟨hr, by rw [hc, gridOf_length, gridOf_length], hlo, hhi, fun c v r hv hr' => ?_⟩
  have hb : r / nx < ny := Nat.div_lt_of_lt_mul hr'
  have := hl v (r % nx) (r / nx) (by rw [fine_length hnx]; exact Nat.mod_lt _ hnx)
    (by rw [fine_length hny]; exact hb)
  rw [fine_length hnx, Nat.mod_add_div] at this
  rw [this]
  exact level_const (gridOf_increasing hnx hu h1) (gridOf_increasing hny hu h2) (gridOf_fits hnx hu h1 _)
    (gridOf_fits hny hu h2 _) enx eny c _ _ (by rw [← hc]; exact hv)

end

/-- What the pixels look like: along a symmetric axis the array is its own mirror image, along an
axis with periods that fit a whole number of pixels it repeats. -/
structure PixelSymmetry (nx ny : Nat) (sym : Bool × Bool) (p : Nat × Nat) (Z : Nat → Nat → ℝ) : Prop where
  mirror_x : sym.1 = true → ∀ a b, a < nx → b < ny → Z (nx - 1 - a) b = Z a b
  mirror_y : sym.2 = true → ∀ a b, a < nx → b < ny → Z a (ny - 1 - b) = Z a b
  repeat_x : p.1 ≠ 0 → ∀ q, nx = p.1 * q → ∀ a b, a + q < nx → b < ny → Z (a + q) b = Z a b
  repeat_y : p.2 ≠ 0 → ∀ q, ny = p.2 * q → ∀ a b, a < nx → b + q < ny → Z a (b + q) = Z a b

section
variable {nx ny : Nat} {u : ℝ} {sym : Bool × Bool} {p m : Nat × Nat} {init : Init} {P : CubicParam}

theorem onGrids_symmetric (hnx : 0 < nx) (hny : 0 < ny) (hu : 0 < u) (h1 : Enough' nx u p.1 m.1)
    (h2 : Enough' ny u p.2 m.2) (h : OnGrids nx ny u sym p m init P) {w s : List ℝ} {k : ℝ}
    (hs : ((P.decode w).setK k).getStructure = .ok s) :
    PixelSymmetry nx ny sym p (gridVal nx (vals s)) := by
  have key : ∀ a a' b b', a < nx → a' < nx → b < ny → b' < ny → _ := fun a a' b b' ha ha' hb hb' =>
    structure_symmetric (a := a) (a' := a') (b := b) (b' := b') (gridOf_increasing hnx hu h1)
      (gridOf_increasing hny hu h2) (gridOf_fits hnx hu h1 _) (gridOf_fits hny hu h2 _) h hs
      (by rw [fine_length hnx]; exact ha) (by rw [fine_length hnx]; exact ha')
      (by rw [fine_length hny]; exact hb) (by rw [fine_length hny]; exact hb')
      (gridOf_inside hnx hu h1 ha) (gridOf_inside hnx hu h1 ha')
      (gridOf_inside hny hu h2 hb) (gridOf_inside hny hu h2 hb')
  rw [fine_length hnx] at key
  have step : ∀ {n q r : Nat}, 0 < n → r ≠ 0 → n = r * q → ∀ a, a + q < n →
      (fineGrid n).getD (a + q) 0 = (fineGrid n).getD a 0 + (n : ℝ) / r := by
    intro n q r hn hr hq a ha
    rw [fine_getD hn ha, fine_getD hn (Nat.lt_of_le_of_lt (Nat.le_add_right _ _) ha)]
    have hr' : (r : ℝ) ≠ 0 := by exact_mod_cast hr
    have : (n : ℝ) / r = q := by rw [hq]; push_cast; field_simp
    rw [this]; push_cast; ring
  refine ⟨?_, ?_, ?_, ?_⟩
  · intro hσ a b ha hb
    exact (key a (nx - 1 - a) b b ha (by omega) hb hb).1 hσ 0 gridOf_mirrored (fine_mirror hnx ha)
  · intro hσ a b ha hb
    exact (key a a b (ny - 1 - b) ha ha hb (by omega)).2.1 hσ 0 gridOf_mirrored (fine_mirror hny hb)
  · intro hp q hq a b ha hb
    exact (key a (a + q) b b (Nat.lt_of_le_of_lt (Nat.le_add_right _ _) ha) ha hb hb).2.2.1 hp _
      (gridOf_repeating hnx hu h1 hp) (step hnx hp hq a ha)
  · intro hp q hq a b ha hb
    exact (key a a b (b + q) ha ha (Nat.lt_of_le_of_lt (Nat.le_add_right _ _) hb) hb).2.2.2 hp _
      (gridOf_repeating hny hu h2 hp) (step hny hp hq b hb)

end

/-! ## Shapes of goos -/

theorem spoil_length {r r' : List ℝ} {i : Nat} {s : Bool} {p : Nat} (h : spoil r i s p = .ok r') :
    r'.length = r.length := by
  unfold spoil at h
  split at h
  · split at h
    · cases h
    · cases h; simp
  · cases h; rfl

theorem spoil_ok_iff (r : List ℝ) (i : Nat) (s : Bool) (p : Nat) :
    (∃ r', spoil r i s p = .ok r') ↔ (s = true → i < r.length) := by
  unfold spoil
  cases s
  · simp
  · simp only [if_true, forall_const]
    by_cases h : i < r.length
    · rw [List.getElem?_eq_getElem h]
      exact ⟨fun _ => h, fun _ => ⟨_, rfl⟩⟩
    · rw [List.getElem?_eq_none (by omega)]
      exact ⟨(fun ⟨_, h'⟩ => nomatch h'), fun h' => absurd h' h⟩

section
variable {nx ny : Nat} {u : ℝ} {sym : Bool × Bool} {p : Nat × Nat} {rand : Nat → ℝ} {P : CubicParam}

theorem enough_points {n : Nat} {u : ℝ} {p : Nat} (h : p ≠ 0 → 1 ≤ npRound (n / (p * u))) :
    Enough' n u p (points n u p) := by
  unfold Enough' points
  split
  · rfl
  · rename_i hp
    have := h hp
    have h1 : 1 ≤ (npRound (n / (p * u))).toNat := by omega
    refine ⟨?_, by rw [Nat.add_sub_cancel]; exact Nat.mul_mod_left _ _⟩
    have := Nat.mul_le_mul h1 (Nat.pos_of_ne_zero hp : 1 ≤ p)
    omega

theorem create_parts (hnx : 0 < nx) (hny : 0 < ny) (hu : 0 < u)
    (h : createCubicParam nx ny u sym p rand = .ok P) :
    ∃ r Q, OnGrids nx ny u sym p (points nx u p.1, points ny u p.2) (.array r) Q ∧ P = Q.setK 0 ∧
      r.length = freePoints (points nx u p.1) sym.1 p.1 * freePoints (points ny u p.2) sym.2 p.2 ∧
      (sym.2 = true → 1 < r.length) := by
  simp only [createCubicParam, bind, Except.bind] at h
  split at h
  · cases h
  · rename_i r1 hr1
    split at h
    · cases h
    · rename_i r2 hr2
      split at h
      · cases h
      · rename_i Q hQ
        cases h
        have l1 := spoil_length hr1
        have l2 := spoil_length hr2
        refine ⟨r2, Q, ?_, rfl, ?_, fun hs => ?_⟩
        · rw [coarseCompat_eq hnx hu, coarseCompat_eq hny hu] at hQ
          exact hQ
        · rw [l2, l1]
          unfold randomInit
          rw [List.length_map, List.length_range, coarseCompat_eq hnx hu, coarseCompat_eq hny hu,
            gridOf_length, gridOf_length, varShape_freePoints, varShape_freePoints]
        · rw [l2]
          exact (spoil_ok_iff _ _ _ _).1 ⟨_, hr2⟩ hs

theorem points_two {n : Nat} {u : ℝ} {q : Nat} (hn : 0 < n) (hu : 0 < u) (hq : q ≠ 0)
    (h : 2 ≤ points n u q) : 1 ≤ npRound (n / (q * u)) := by
  unfold points at h
  rw [if_neg hq] at h
  have : (npRound (n / (q * u))).toNat ≠ 0 := by
    intro h0
    rw [h0] at h
    omega
  omega

/-- The rounding of the number of control points: the nearest integer, of two equally near ones the even one. -/
theorem npRound_spec (x : ℝ) : |x - npRound x| ≤ 1 / 2 ∧ (|x - npRound x| = 1 / 2 → Even (npRound x)) := by
  refine ⟨npRound_near x, ?_⟩
  have h0 := Int.floor_le x
  have h1 := Int.lt_floor_add_one x
  unfold npRound
  split
  · rename_i h
    intro h'
    rw [abs_of_nonneg (by linarith)] at h'
    linarith
  · split
    · rename_i h
      intro h'
      push_cast at h'
      rw [abs_of_nonpos (by linarith)] at h'
      linarith
    · split
      · rename_i h
        exact fun _ => h
      · rename_i h
        exact fun _ => (Int.not_even_iff_odd.1 h).add_one

theorem one_le_npRound {x : ℝ} : 1 ≤ npRound x ↔ 1 / 2 < x := by
  obtain ⟨h1, h2⟩ := npRound_spec x
  constructor
  · intro h
    have hc : (1 : ℝ) ≤ npRound x := by exact_mod_cast h
    have := (abs_le.1 h1).1
    by_contra hx
    push Not at hx
    have e1 : x - npRound x = -(1 / 2) := by linarith
    have e2 : npRound x = 1 := by
      have : (npRound x : ℝ) = 1 := by linarith
      exact_mod_cast this
    have := h2 (by rw [e1]; norm_num)
    rw [e2] at this
    exact absurd this (by decide)
  · intro h
    by_contra hc
    have hc' : npRound x ≤ 0 := by omega
    have : (npRound x : ℝ) ≤ 0 := by exact_mod_cast hc'
    have := (abs_le.1 h1).2
    linarith

theorem one_le_points {n : Nat} {u : ℝ} {q : Nat} (hu : 0 < u) (hq : q ≠ 0) :
    1 ≤ npRound (n / (q * u)) ↔ q * u < 2 * n := by
  have hq' : (0 : ℝ) < q := by exact_mod_cast Nat.pos_of_ne_zero hq
  rw [one_le_npRound, lt_div_iff₀ (mul_pos hq' hu)]
  constructor <;> intro h <;> linarith

/-- C85: a cubic shape of goos with `nx` by `ny` pixels and `u` pixels between control points can be
created exactly if along every axis with periods a period is longer than half of the distance of control
points, and there is more than one variable if the second axis is symmetric (the code overwrites the
second of the random initial values). -/
theorem goos_cubic_exists (hnx : 0 < nx) (hny : 0 < ny) (hu : 0 < u) :
    (∃ P, createCubicParam nx ny u sym p rand = .ok P) ↔
      (p.1 ≠ 0 → p.1 * u < 2 * nx) ∧ (p.2 ≠ 0 → p.2 * u < 2 * ny) ∧
      (sym.2 = true →
        2 ≤ freePoints (points nx u p.1) sym.1 p.1 * freePoints (points ny u p.2) sym.2 p.2) := by
  rw [← forall_congr' fun hp : p.1 ≠ 0 => one_le_points (n := nx) hu hp,
    ← forall_congr' fun hp : p.2 ≠ 0 => one_le_points (n := ny) hu hp]
  constructor
  · rintro ⟨P, hP⟩
    obtain ⟨r, Q, hQ, _, hl, hs⟩ := create_parts hnx hny hu hP
    have inc1 : Increasing (gridOf nx u p.1 (points nx u p.1)) :=
      gridOf_increasing' hnx hu (fun h0 => by unfold points; rw [if_pos h0])
    have inc2 : Increasing (gridOf ny u p.2 (points ny u p.2)) :=
      gridOf_increasing' hny hu (fun h0 => by unfold points; rw [if_pos h0])
    obtain ⟨_, _, en1, en2⟩ := (cubicMatrices_ok_iff inc1 inc2).1 (mk_ok_parts hQ).2
    have e1 := en1.two
    have e2 := en2.two
    rw [gridOf_length] at e1 e2
    refine ⟨fun hp => points_two hnx hu hp e1, fun hp => points_two hny hu hp e2, fun h => ?_⟩
    rw [← hl]
    exact hs h
  · rintro ⟨h1, h2, h3⟩
    have E1 := enough_points (n := nx) (u := u) h1
    have E2 := enough_points (n := ny) (u := u) h2
    have hlen : (randomInit (varShape (coarseCompat nx u p.1).length sym.1 p.1)
        (varShape (coarseCompat ny u p.2).length sym.2 p.2) rand).length
          = freePoints (points nx u p.1) sym.1 p.1 * freePoints (points ny u p.2) sym.2 p.2 := by
      unfold randomInit
      rw [List.length_map, List.length_range, coarseCompat_eq hnx hu, coarseCompat_eq hny hu,
        gridOf_length, gridOf_length, varShape_freePoints, varShape_freePoints]
    have f1 := gridOf_fits hnx hu E1 sym.1
    have f2 := gridOf_fits hny hu E2 sym.2
    rw [gridOf_length] at f1 f2
    have hpos := Nat.mul_pos (freePoints_pos f1) (freePoints_pos f2)
    obtain ⟨r1, hr1⟩ := (spoil_ok_iff (randomInit (varShape (coarseCompat nx u p.1).length sym.1 p.1)
        (varShape (coarseCompat ny u p.2).length sym.2 p.2) rand) 0 sym.1 p.1).2
        (fun _ => by rw [hlen]; exact hpos)
    obtain ⟨r2, hr2⟩ := (spoil_ok_iff r1 1 sym.2 p.2).2
        (fun hs => by rw [spoil_length hr1, hlen]; exact h3 hs)
    obtain ⟨Q, hQ⟩ := onGrids_exists (sym := sym) (p := p) (m := (points nx u p.1, points ny u p.2))
      (init := .array r2) hnx hny hu E1 E2 (fun l hl => by
        cases hl
        right
        rw [spoil_length hr2, spoil_length hr1, hlen])
    unfold OnGrids at hQ
    rw [← coarseCompat_eq hnx hu, ← coarseCompat_eq hny hu] at hQ
    refine ⟨Q.setK 0, ?_⟩
    simp only [createCubicParam, bind, Except.bind, hr1, hr2, hQ]
    rfl

/-- What a shape that could be created consists of. -/
theorem create_spec (hnx : 0 < nx) (hny : 0 < ny) (hu : 0 < u)
    (h : createCubicParam nx ny u sym p rand = .ok P) :
    ∃ r Q, OnGrids nx ny u sym p (points nx u p.1, points ny u p.2) (.array r) Q ∧ P = Q.setK 0 ∧
      Enough' nx u p.1 (points nx u p.1) ∧ Enough' ny u p.2 (points ny u p.2) ∧
      P.toVector.length = freePoints (points nx u p.1) sym.1 p.1 * freePoints (points ny u p.2) sym.2 p.2 := by
  obtain ⟨h1, h2, _⟩ := (goos_cubic_exists hnx hny hu).1 ⟨P, h⟩
  rw [← forall_congr' fun hp : p.1 ≠ 0 => one_le_points (n := nx) hu hp] at h1
  rw [← forall_congr' fun hp : p.2 ≠ 0 => one_le_points (n := ny) hu hp] at h2
  obtain ⟨r, Q, hQ, hP, hl, _⟩ := create_parts hnx hny hu h
  have E1 := enough_points (n := nx) (u := u) h1
  have E2 := enough_points (n := ny) (u := u) h2
  refine ⟨r, Q, hQ, hP, E1, E2, ?_⟩
  obtain ⟨enx, eny, hr, hc, hlv, _, hlo, hhi, hrr, _, _, hiv, _⟩ := mkCubicParam_spec
    (gridOf_increasing hnx hu E1)
    (gridOf_increasing hny hu E2) (gridOf_fits hnx hu E1 _) (gridOf_fits hny hu E2 _) hQ
  have hrr' : Q.reverse.rows = freePoints (points nx u p.1) sym.1 p.1 * freePoints (points ny u p.2) sym.2 p.2 := by
    rw [hrr, gridOf_length, gridOf_length]
  unfold initVector at hiv
  simp only [] at hiv
  rw [if_pos (by rw [hrr', hl])] at hiv
  have := Except.ok.inj hiv
  subst hP
  change Q.vector.length = _
  rw [← this, hl]

/-- C85: for every value of the variable, the pixels of a cubic shape are symmetric along the axes
with reflection symmetry, and periodic along the axes with periods whenever a period is a whole
number of pixels. -/
theorem goos_cubic_symmetric (hnx : 0 < nx) (hny : 0 < ny) (hu : 0 < u)
    (h : createCubicParam nx ny u sym p rand = .ok P) (v : List ℝ) (hv : v.length = P.toVector.length) :
    ∃ s, evalPixels P v = .ok s ∧ s.length = nx * ny ∧ PixelSymmetry nx ny sym p (gridVal nx (vals s)) := by
  obtain ⟨r, Q, hQ, rfl, E1, E2, hl⟩ := create_spec hnx hny hu h
  obtain ⟨hr, hc, hlo, hhi, _⟩ := onGrids_spec hnx hny hu E1 E2 hQ
  obtain ⟨s, hs⟩ := getStructure_ok (P := (Q.setK 0).fromVector v) (by
    change Q.vec2f.cols = (v.map _).length
    rw [hc, List.length_map, hv, hl])
  refine ⟨s, hs, (getStructure_spec hs).2.1.trans hr, ?_⟩
  exact onGrids_symmetric hnx hny hu E1 E2 hQ (w := ((Q.setK 0).fromVector v).vector) (k := 0) hs

/-- The pixels of a cubic shape whose variables are all equal (and between 0 and 1) are uniform. -/
theorem goos_cubic_uniform (hnx : 0 < nx) (hny : 0 < ny) (hu : 0 < u)
    (h : createCubicParam nx ny u sym p rand = .ok P) {c : ℝ} (h0 : 0 ≤ c) (h1 : c ≤ 1) :
    evalPixels P (List.replicate P.toVector.length c) = .ok (List.replicate (nx * ny) c) := by
  obtain ⟨r, Q, hQ, rfl, E1, E2, hl⟩ := create_spec hnx hny hu h
  obtain ⟨hr, hc, hlo, hhi, hone⟩ := onGrids_spec hnx hny hu E1 E2 hQ
  have hvec : ((Q.setK 0).fromVector (List.replicate (Q.setK 0).toVector.length c)).vector
      = List.replicate Q.vec2f.cols c := by
    change (List.replicate _ c).map _ = _
    rw [hl, ← hc, List.map_replicate]
    congr 1
    change min (max c Q.lower) Q.upper = c
    rw [hlo, hhi, max_eq_left h0, min_eq_left h1]
  obtain ⟨s, hs⟩ := getStructure_ok (P := (Q.setK 0).fromVector (List.replicate (Q.setK 0).toVector.length c)) (by
    rw [hvec]; simp; rfl)
  obtain ⟨_, s2, s3⟩ := getStructure_spec hs
  have s2' : s.length = nx * ny := s2.trans hr
  unfold evalPixels
  rw [hs]
  congr 1
  refine List.ext_getElem (by simpa using s2') fun i hi hi' => ?_
  have := s3 i (by omega)
  rw [List.getD_eq_getElem _ _ hi] at this
  rw [this, List.getElem_replicate, hvec]
  unfold shaped
  have hk : ((Q.setK 0).fromVector (List.replicate (Q.setK 0).toVector.length c)).k = 0 := rfl
  rw [if_neg (by rw [hk]; simp)]
  refine hone c _ i (fun j hj => ?_) (by omega)
  rw [List.getD_eq_getElem _ _ (by simpa using hj)]
  simp

/-- The variable `v` moved by `t` in the direction `d`. -/
def moved (v d : List ℝ) (t : ℝ) : List ℝ := List.zipWith (fun x y => x + t * y) v d

/-- C85: the gradient of a cubic shape.  For a function of the pixels with gradient `g`, the gradient
with respect to the variable is the derivative, in every direction `d`, for all values of the variable
between the bounds 0 and 1, as long as the variable stays between the bounds. -/
theorem goos_cubic_gradient (hnx : 0 < nx) (hny : 0 < ny) (hu : 0 < u)
    (h : createCubicParam nx ny u sym p rand = .ok P) (v d g : List ℝ) (hv : v.length = P.toVector.length)
    (hd : d.length = P.toVector.length) (hg : g.length = nx * ny) (hb : ∀ x ∈ v, 0 ≤ x ∧ x ≤ 1) :
    ∃ (G : List ℝ) (S : ℝ → List ℝ), gradPixels P v g = .ok G ∧ G.length = v.length ∧
      (∀ t, evalPixels P (moved v d t) = .ok (S t)) ∧
      HasDerivWithinAt (fun t => ∑ r ∈ range (nx * ny), g.getD r 0 * (S t).getD r 0)
        (∑ j ∈ range v.length, G.getD j 0 * d.getD j 0) {t | ∀ x ∈ moved v d t, 0 ≤ x ∧ x ≤ 1} 0 := by
  obtain ⟨r, Q, hQ, rfl, E1, E2, hl⟩ := create_spec hnx hny hu h
  obtain ⟨hr, hc, hlo, hhi, hone⟩ := onGrids_spec hnx hny hu E1 E2 hQ
  have hclip : ∀ w : List ℝ, (∀ x ∈ w, 0 ≤ x ∧ x ≤ 1) → (Q.setK 0).fromVector w = (Q.setK 0).decode w := by
    intro w hw
    have e := (from_vector_bounds (Q.setK 0) (by change Q.lower ≤ Q.upper; rw [hlo, hhi]; norm_num) w).2.2.1
      (by change ∀ x ∈ w, Q.lower ≤ x ∧ x ≤ Q.upper; rw [hlo, hhi]; exact hw)
    unfold CubicParam.fromVector CubicParam.project CubicParam.decode CubicParam.toVector CubicParam.setK at *
    simp only [] at e ⊢
    rw [e]
  have hS : ∀ t, ∃ s, evalPixels (Q.setK 0) (moved v d t) = .ok s := by
    intro t
    refine getStructure_ok ?_
    change Q.vec2f.cols = ((moved v d t).map _).length
    rw [List.length_map, hc, ← hl]
    unfold moved
    simp [hv, hd]
  choose S hS using hS
  obtain ⟨A, S', hA, hS', hAr, hAc, hder⟩ := gradient_derivative ((Q.setK 0).decode v) d
    (by change v.length = Q.vec2f.cols; rw [hv, hl, hc]) (by change d.length = Q.vec2f.cols; rw [hd, hl, hc])
  have hAr' : A.rows = nx * ny := hAr.trans hr
  have hAc' : A.cols = v.length := hAc
  have hag : ∀ t, (∀ x ∈ moved v d t, 0 ≤ x ∧ x ≤ 1) → S t = S' t := by
    intro t ht
    have h1 := hS t
    unfold evalPixels at h1
    rw [hclip _ ht] at h1
    have h2 := hS' t
    have : (Q.setK 0).decode (moved v d t) = ((Q.setK 0).decode v).decode
      (List.zipWith (fun x y => x + t * y) ((Q.setK 0).decode v).vector d) := rfl
    rw [this, h2] at h1
    exact (Except.ok.inj h1).symm
  obtain ⟨G, hG⟩ : ∃ G, gradPixels (Q.setK 0) v g = .ok G := by
    unfold gradPixels
    rw [hclip v hb, hA]
    simp only [matVec]
    rw [if_pos (by change A.rows = _; rw [hAr', hg])]
    exact ⟨_, rfl⟩
  have hG' := hG
  unfold gradPixels at hG'
  rw [hclip v hb, hA] at hG'
  obtain ⟨g1, g2, g3⟩ := matVec_spec hG'
  have g2' : G.length = v.length := g2.trans hAc'
  refine ⟨G, S, hG, g2', hS, ?_⟩
  have hsum : (∑ j ∈ range v.length, G.getD j 0 * d.getD j 0)
      = ∑ r ∈ range (nx * ny), g.getD r 0 * A.mulVec (vals d) r := by
    have e : ∀ j ∈ range v.length, G.getD j 0 * d.getD j 0
        = ∑ r ∈ range (nx * ny), g.getD r 0 * (A.ent r j * d.getD j 0) := by
      intro j hj
      rw [g3 j (by change j < A.cols; rw [hAc']; exact mem_range.1 hj)]
      unfold SpMat.mulVec
      change (∑ r ∈ range A.rows, A.ent r j * g.getD r 0) * _ = _
      rw [hAr', Finset.sum_mul]
      exact Finset.sum_congr rfl fun r _ => by ring
    rw [Finset.sum_congr rfl e, Finset.sum_comm]
    refine Finset.sum_congr rfl fun r _ => ?_
    unfold SpMat.mulVec vals
    rw [hAc', Finset.mul_sum]
  rw [hsum]
  have h0 : ∀ x ∈ moved v d 0, 0 ≤ x ∧ x ≤ 1 := by
    have : moved v d 0 = v := by
      unfold moved
      refine List.ext_getElem (by simp [hv, hd]) fun i h1 h2 => by simp
    rw [this]; exact hb
  refine HasDerivWithinAt.congr (f := fun t => ∑ r ∈ range (nx * ny), g.getD r 0 * (S' t).getD r 0) ?_
    (fun t ht => by rw [hag t ht]) (by rw [hag 0 h0])
  refine HasDerivAt.hasDerivWithinAt ?_
  refine HasDerivAt.fun_sum fun r hr' => ?_
  exact (hder r (by change r < Q.vec2f.rows; rw [hr]; exact mem_range.1 hr')).const_mul _

/-- C85 fails for a variable outside of the bounds: the shape clips it, so that the pixels do not
change when all variables move from 2, but the gradient is that of variables at 1: in the direction
of all ones it is the sum of the gradient of the pixels. -/
theorem goos_cubic_gradient_false (hnx : 0 < nx) (hny : 0 < ny) (hu : 0 < u)
    (h : createCubicParam nx ny u sym p rand = .ok P) (g : List ℝ) (hg : g.length = nx * ny) :
    ∃ (G : List ℝ), gradPixels P (List.replicate P.toVector.length 2) g = .ok G ∧
      (∀ t, |t| < 1 → evalPixels P (moved (List.replicate P.toVector.length 2)
        (List.replicate P.toVector.length 1) t) = .ok (List.replicate (nx * ny) 1)) ∧
      ∑ j ∈ range P.toVector.length, G.getD j 0 * 1 = ∑ r ∈ range (nx * ny), g.getD r 0 := by
  have huni := goos_cubic_uniform hnx hny hu h (c := 1) (by norm_num) (by norm_num)
  obtain ⟨r, Q, hQ, rfl, E1, E2, hl⟩ := create_spec hnx hny hu h
  obtain ⟨hr, hc, hlo, hhi, hone⟩ := onGrids_spec hnx hny hu E1 E2 hQ
  have hcl : ∀ c : ℝ, 1 ≤ c → (Q.setK 0).fromVector (List.replicate (Q.setK 0).toVector.length c)
      = (Q.setK 0).fromVector (List.replicate (Q.setK 0).toVector.length 1) := by
    intro c hc1
    have e : ∀ c : ℝ, 1 ≤ c → (List.replicate (Q.setK 0).toVector.length c).map
        (fun x => min (max x Q.lower) Q.upper) = List.replicate (Q.setK 0).toVector.length 1 := by
      intro c hc1
      rw [List.map_replicate, hlo, hhi, min_eq_right (le_trans hc1 (le_max_left _ _))]
    have e1 := e c hc1
    have e2 := e 1 le_rfl
    unfold CubicParam.fromVector CubicParam.project CubicParam.decode
    change CubicParam.mk _ _ _ ((List.replicate (Q.setK 0).toVector.length c).map
        (fun x => min (max x Q.lower) Q.upper)) _ _ _ = CubicParam.mk _ _ _
        ((List.replicate (Q.setK 0).toVector.length 1).map (fun x => min (max x Q.lower) Q.upper)) _ _ _
    rw [e1, e2]
  obtain ⟨G, S, hG, hGl, _, _⟩ := goos_cubic_gradient hnx hny hu h
    (List.replicate (Q.setK 0).toVector.length 1) (List.replicate (Q.setK 0).toVector.length 1) g
    (by simp) (by simp) hg (by
      intro x hx
      rw [List.mem_replicate] at hx
      rw [hx.2]; norm_num)
  refine ⟨G, ?_, ?_, ?_⟩
  · unfold gradPixels at hG ⊢
    rw [hcl 2 (by norm_num)]
    exact hG
  · intro t ht
    have e : moved (List.replicate (Q.setK 0).toVector.length (2 : ℝ)) (List.replicate (Q.setK 0).toVector.length 1) t
        = List.replicate (Q.setK 0).toVector.length (2 + t) := by
      unfold moved
      simp
    rw [e]
    unfold evalPixels at huni ⊢
    rw [hcl (2 + t) (by rw [abs_lt] at ht; linarith)]
    exact huni
  · unfold gradPixels at hG
    have hA : ((Q.setK 0).fromVector (List.replicate (Q.setK 0).toVector.length 1)).calculateGradient
        = .ok Q.vec2f := by
      unfold CubicParam.calculateGradient matVec
      have e1 : ((Q.setK 0).fromVector (List.replicate (Q.setK 0).toVector.length 1)).k = 0 := rfl
      rw [if_pos (by
        change Q.vec2f.cols = ((List.replicate (Q.setK 0).toVector.length (1:ℝ)).map _).length
        rw [hc, List.length_map, List.length_replicate, hl])]
      simp only [e1, ne_eq, not_true_eq_false, if_false]
      rfl
    rw [hA] at hG
    obtain ⟨g1, g2, g3⟩ := matVec_spec hG
    have e : ∀ j ∈ range (Q.setK 0).toVector.length, G.getD j 0 * 1
        = ∑ r ∈ range (nx * ny), g.getD r 0 * (Q.vec2f.ent r j * 1) := by
      intro j hj
      rw [g3 j (by change j < Q.vec2f.cols; rw [hc, ← hl]; exact mem_range.1 hj)]
      unfold SpMat.mulVec
      change (∑ r ∈ range Q.vec2f.rows, Q.vec2f.ent r j * g.getD r 0) * _ = _
      rw [hr, Finset.sum_mul]
      exact Finset.sum_congr rfl fun r _ => by ring
    rw [Finset.sum_congr rfl e, Finset.sum_comm]
    refine Finset.sum_congr rfl fun r hr' => ?_
    rw [← Finset.mul_sum]
    have h1 := hone 1 (fun _ => 1) r (fun _ _ => rfl) (mem_range.1 hr')
    unfold SpMat.mulVec at h1
    rw [hl, ← hc, h1, mul_one]

end

/-! ## Parametrizations of optimization plans -/

section
variable {nx ny : Nat} {u : ℝ} {sym : Bool × Bool} {p : Nat × Nat} {init : List ℝ} {P : CubicParam}

theorem createInvdes_eq (hnx : 0 < nx) (hny : 0 < ny) (hu : 0 < u) :
    createInvdes nx ny u sym p init = .ok P ↔
      OnGrids nx ny u sym p (pointsInvdes nx u p.1, pointsInvdes ny u p.2) (.array init) P := by
  unfold createInvdes OnGrids
  rw [coarseInvdes_eq hnx hu, coarseInvdes_eq hny hu]

theorem pointsInvdes_enough {n : Nat} {u : ℝ} {q : Nat} :
    Enough' n u q (pointsInvdes n u q) ↔
      (q ≠ 0 → 1 ≤ npRound ((n - 1) / u) ∧ (q : Int) ∣ npRound ((n - 1) / u)) := by
  unfold Enough' pointsInvdes
  by_cases hq : q = 0
  · simp [hq]
  · simp only [ne_eq, hq, if_false, not_false_eq_true, forall_const, Nat.add_sub_cancel]
    generalize npRound ((n - 1) / u) = N
    constructor
    · rintro ⟨h1, h2⟩
      refine ⟨by omega, ?_⟩
      have := Int.natCast_dvd_natCast.2 (Nat.dvd_of_mod_eq_zero h2)
      rwa [Int.toNat_of_nonneg (by omega)] at this
    · rintro ⟨h1, h2⟩
      refine ⟨by omega, Nat.mod_eq_zero_of_dvd ?_⟩
      rw [← Int.toNat_of_nonneg (by omega : 0 ≤ N)] at h2
      exact Int.natCast_dvd_natCast.1 h2

/-- C85: the cubic parametrization of an optimization plan, initialised with a whole grid, can be
created exactly if along every axis with periods the number of steps between control points happens
to be divisible by the number of periods. -/
theorem plan_cubic_exists (hnx : 0 < nx) (hny : 0 < ny) (hu : 0 < u)
    (hi : init.length = pointsInvdes nx u p.1 * pointsInvdes ny u p.2) :
    (∃ P, createInvdes nx ny u sym p init = .ok P) ↔
      (p.1 ≠ 0 → 1 ≤ npRound ((nx - 1) / u) ∧ (p.1 : Int) ∣ npRound ((nx - 1) / u)) ∧
      (p.2 ≠ 0 → 1 ≤ npRound ((ny - 1) / u) ∧ (p.2 : Int) ∣ npRound ((ny - 1) / u)) := by
  rw [← pointsInvdes_enough, ← pointsInvdes_enough]
  constructor
  · rintro ⟨P, hP⟩
    rw [createInvdes_eq hnx hny hu] at hP
    have inc1 : Increasing (gridOf nx u p.1 (pointsInvdes nx u p.1)) :=
      gridOf_increasing' hnx hu (fun h0 => by unfold pointsInvdes; rw [if_pos h0])
    have inc2 : Increasing (gridOf ny u p.2 (pointsInvdes ny u p.2)) :=
      gridOf_increasing' hny hu (fun h0 => by unfold pointsInvdes; rw [if_pos h0])
    obtain ⟨⟨gm, hgm⟩, hcm⟩ := mk_ok_parts hP
    obtain ⟨_, _, en1, en2⟩ := (cubicMatrices_ok_iff inc1 inc2).1 hcm
    have e1 := en1.two
    have e2 := en2.two
    rw [gridOf_length] at e1 e2
    rw [gridOf_length, gridOf_length] at hgm
    have hbl : ∀ {q m : Nat}, q ≠ 0 → bLen (q != 0) m = m - 1 := by
      intro q m hq
      have : (q != 0) = true := by simpa using hq
      unfold bLen
      rw [this]; rfl
    have e1' : 2 ≤ pointsInvdes nx u p.1 := e1
    have e2' : 2 ≤ pointsInvdes ny u p.2 := e2
    have hpos : 0 < bLen (p.2 != 0) (pointsInvdes ny u p.2) := by
      unfold bLen; split <;> omega
    have rej := geometry_periods_rejected (K := ℝ) (pointsInvdes nx u p.1) (pointsInvdes ny u p.2) sym
      (p.1 != 0, p.2 != 0) p false ⟨fun _ => e1', fun _ => e2'⟩ hpos
    have hno : ¬ ((p.1 ≠ 0 ∧ bLen (p.1 != 0) (pointsInvdes nx u p.1) % p.1 ≠ 0) ∨
        (p.2 ≠ 0 ∧ bLen (p.2 != 0) (pointsInvdes ny u p.2) % p.2 ≠ 0)) := by
      intro hc
      have h1 := rej hc
      have h2 : makeGeometryMatrixCubic (K := ℝ) (pointsInvdes nx u p.1, pointsInvdes ny u p.2) sym
        (p.1 != 0, p.2 != 0) p false = .ok gm := hgm
      rw [h1] at h2
      cases h2
    constructor
    · unfold Enough'
      by_cases hp : p.1 = 0
      · rw [if_pos hp]; unfold pointsInvdes; rw [if_pos hp]
      · rw [if_neg hp]
        refine ⟨e1', ?_⟩
        by_contra hc
        exact hno (Or.inl ⟨hp, by rw [hbl hp]; exact hc⟩)
    · unfold Enough'
      by_cases hp : p.2 = 0
      · rw [if_pos hp]; unfold pointsInvdes; rw [if_pos hp]
      · rw [if_neg hp]
        refine ⟨e2', ?_⟩
        by_contra hc
        exact hno (Or.inr ⟨hp, by rw [hbl hp]; exact hc⟩)
  · rintro ⟨h1, h2⟩
    obtain ⟨Q, hQ⟩ := onGrids_exists (sym := sym) (p := p)
      (m := (pointsInvdes nx u p.1, pointsInvdes ny u p.2))
      (init := .array init) hnx hny hu h1 h2 (fun l hl => by cases hl; exact Or.inl hi)
    exact ⟨Q, (createInvdes_eq hnx hny hu).2 hQ⟩

/-- C85: if it can be created, its structure has the symmetry and the periods for all parameters and
every strength of the sigmoid. -/
theorem plan_cubic_symmetric (hnx : 0 < nx) (hny : 0 < ny) (hu : 0 < u)
    (hi : init.length = pointsInvdes nx u p.1 * pointsInvdes ny u p.2)
    (h : createInvdes nx ny u sym p init = .ok P) {w s : List ℝ} {k : ℝ}
    (hs : ((P.decode w).setK k).getStructure = .ok s) :
    s.length = nx * ny ∧ PixelSymmetry nx ny sym p (gridVal nx (vals s)) := by
  obtain ⟨h1, h2⟩ := (plan_cubic_exists hnx hny hu hi).1 ⟨P, h⟩
  rw [← pointsInvdes_enough] at h1 h2
  have hQ := (createInvdes_eq hnx hny hu).1 h
  obtain ⟨hr, _⟩ := onGrids_spec hnx hny hu h1 h2 hQ
  exact ⟨(getStructure_spec hs).2.1.trans hr, onGrids_symmetric hnx hny hu h1 h2 hQ hs⟩

end

theorem npRound_eq {x : ℝ} {k : Int} (h1 : (k : ℝ) - 1 / 2 < x) (h2 : x < k + 1 / 2) : npRound x = k := by
  have h := npRound_near x
  rw [abs_le] at h
  have a : (npRound x : ℝ) < k + 1 := by linarith
  have b : (k : ℝ) - 1 < npRound x := by linarith
  have a' : npRound x < k + 1 := by exact_mod_cast a
  have b' : k - 1 < npRound x := by exact_mod_cast b
  omega

/-- C85 fails for the periods of optimization plans: 20 pixels, a control point every three pixels
and four periods are rejected, although goos accepts them. -/
theorem plan_cubic_periods_false (rand : Nat → ℝ) (init : List ℝ)
    (hi : init.length = pointsInvdes 20 3 4 * pointsInvdes 20 3 0) :
    (¬ ∃ P, createInvdes 20 20 3 (false, false) (4, 0) init = .ok P) ∧
      ∃ P, createCubicParam 20 20 3 (false, false) (4, 0) rand = .ok P := by
  constructor
  · rw [plan_cubic_exists (by norm_num) (by norm_num) (by norm_num) hi]
    rintro ⟨h, _⟩
    have := (h (by norm_num)).2
    rw [npRound_eq (k := 6) (by norm_num) (by norm_num)] at this
    norm_num at this
  · rw [goos_cubic_exists (by norm_num) (by norm_num) (by norm_num)]
    refine ⟨fun _ => ?_, fun h => absurd rfl h, fun h => by simp at h⟩
    norm_num

/-- Non-vacuity: 20 by 10 pixels, symmetric, with two periods along x. -/
example (rand : Nat → ℝ) : ∃ P, createCubicParam 20 10 2 (true, true) (2, 0) rand = .ok P := by
  rw [goos_cubic_exists (by norm_num) (by norm_num) (by norm_num)]
  have h5 : npRound ((20 : Nat) / (((2 : Nat) : ℝ) * 2)) = 5 := npRound_eq (by norm_num) (by norm_num)
  refine ⟨fun _ => by norm_num, fun h => absurd rfl h, fun _ => ?_⟩
  have e1 : points 20 2 2 = 11 := by
    unfold points
    rw [if_neg (by norm_num), h5]
    rfl
  have e2 : points 10 2 0 = 7 := by
    unfold points
    rw [if_pos rfl]
    norm_num
  rw [show ((2, 0) : Nat × Nat).1 = 2 from rfl, show ((2, 0) : Nat × Nat).2 = 0 from rfl, e1, e2]
  simp [freePoints]

end Verif.Cubic
