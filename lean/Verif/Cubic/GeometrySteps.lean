import Verif.Cubic.GeometryLemmas

/-!
# The whole geometry matrix

Composition of the steps of `make_geometry_matrix_cubic`: what the geometry matrix and its reverse
copy from where.
-/

set_option linter.unusedVariables false

namespace Verif.Cubic

variable {K : Type*} [CommRing K]

/-- The copying of one axis, as a pair of maps. -/
def axf (axis : Axis) (h : Nat → Nat) : (Nat → Nat) × (Nat → Nat) :=
  match axis with
  | .x => (h, fun j => j)
  | .y => (fun i => i, h)

/-- Number of lines without the duplicated boundary. -/
def bLen (per : Bool) (n : Nat) : Nat := if per then n - 1 else n
/-- Line that a line of the whole grid is a copy of. -/
def bIdx (per : Bool) (n i : Nat) : Nat := if per then (if i < n - 1 then i else 0) else i
/-- Number of lines of a unit cell. -/
def pLen (p n : Nat) : Nat := if p = 0 then n else n / p
/-- Line of the unit cell. -/
def pIdx (p n i : Nat) : Nat := if p = 0 then i else i % (n / p)
/-- Number of lines of a unit cell with its boundary. -/
def uLen (u : Bool) (n : Nat) : Nat := if u then n + 1 else n
/-- Number of independent lines of a mirrored cell. -/
def sLen (s : Bool) (n : Nat) : Nat := if s then (n + 1) / 2 else n
/-- Line of the first half. -/
def sIdx (s : Bool) (n i : Nat) : Nat := if s then fold n i else i

theorem boundaryStep_pull (per : Bool) (s : Nat × Nat) (axis : Axis) {w w' : Nat}
    (hw : w = s.1 * s.2) (hw' : w' = s.1 * s.2) (h : per = true → 2 ≤ getAxis s axis) :
    ∃ A R : SpMat K,
      boundaryStep per s axis w w' = .ok (A, R, setAxis s axis (bLen per (getAxis s axis))) ∧
      Pull A s (setAxis s axis (bLen per (getAxis s axis)))
        (axf axis (bIdx per (getAxis s axis))).1 (axf axis (bIdx per (getAxis s axis))).2 ∧
      Pull R (setAxis s axis (bLen per (getAxis s axis))) s (fun i => i) (fun j => j) := by
  cases per with
  | true =>
    cases axis with
    | x =>
      obtain ⟨A, R, h1, h2, h3⟩ := duplicate_x (K := K) (s := s) (h rfl)
      refine ⟨A, R, ?_, h2, h3⟩
      simp only [boundaryStep, if_true, h1, bLen, getAxis, setAxis]
    | y =>
      obtain ⟨A, R, h1, h2, h3⟩ := duplicate_y (K := K) (s := s) (h rfl)
      refine ⟨A, R, ?_, h2, h3⟩
      simp only [boundaryStep, if_true, h1, bLen, getAxis, setAxis]
  | false =>
    refine ⟨.eye w, .eye w', ?_, ?_, ?_⟩
    · cases axis <;> simp [boundaryStep, bLen, getAxis, setAxis]
    · cases axis <;> exact Pull.eye s hw
    · cases axis <;> exact Pull.eye s hw'

theorem periodStep_pull (p : Nat) (s : Nat × Nat) (axis : Axis) {w w' : Nat}
    (hw : w = s.1 * s.2) (hw' : w' = s.1 * s.2)
    (h : p ≠ 0 → getAxis s axis % p = 0 ∧ 0 < getAxis s axis) :
    ∃ A R : SpMat K,
      periodStep p s axis w w' = .ok (A, R, setAxis s axis (pLen p (getAxis s axis))) ∧
      Pull A s (setAxis s axis (pLen p (getAxis s axis)))
        (axf axis (pIdx p (getAxis s axis))).1 (axf axis (pIdx p (getAxis s axis))).2 ∧
      Pull R (setAxis s axis (pLen p (getAxis s axis))) s (fun i => i) (fun j => j) := by
  unfold periodStep pLen pIdx
  by_cases hp : p = 0
  · simp only [hp, if_true]
    refine ⟨.eye w, .eye w', ?_, ?_, ?_⟩
    · cases axis <;> rfl
    · cases axis <;> exact Pull.eye s hw
    · cases axis <;> exact Pull.eye s hw'
  · simp only [hp, if_false]
    obtain ⟨hm, h0⟩ := h hp
    rw [if_pos hm]
    cases axis with
    | x =>
      obtain ⟨A, R, h1, h2, h3⟩ := periodic_x (K := K) (s := s) (Nat.pos_of_ne_zero hp) hm h0
      exact ⟨A, R, by rw [h1], h2, h3⟩
    | y =>
      obtain ⟨A, R, h1, h2, h3⟩ := periodic_y (K := K) (s := s) (Nat.pos_of_ne_zero hp) hm h0
      exact ⟨A, R, by rw [h1], h2, h3⟩

theorem unitStep_pull (u : Bool) (s : Nat × Nat) (axis : Axis) {w w' : Nat}
    (hw : w = s.1 * s.2) (hw' : w' = s.1 * s.2) (h : u = true → 0 < getAxis s axis) :
    ∃ A R : SpMat K,
      unitStep u s axis w w' = .ok (A, R, setAxis s axis (uLen u (getAxis s axis))) ∧
      Pull A (setAxis s axis (uLen u (getAxis s axis))) s
        (axf axis (bIdx u (uLen u (getAxis s axis)))).1 (axf axis (bIdx u (uLen u (getAxis s axis)))).2 ∧
      Pull R s (setAxis s axis (uLen u (getAxis s axis))) (fun i => i) (fun j => j) := by
  obtain ⟨a, b⟩ := s
  cases u with
  | true =>
    cases axis with
    | x =>
      have := h rfl
      simp only [getAxis] at this
      obtain ⟨A, R, h1, h2, h3⟩ := duplicate_x (K := K) (s := (a + 1, b)) (by simp only []; omega)
      refine ⟨A, R, ?_, h2, h3⟩
      simp only [unitStep, if_true, uLen, getAxis, setAxis]
      rw [h1]
    | y =>
      have := h rfl
      simp only [getAxis] at this
      obtain ⟨A, R, h1, h2, h3⟩ := duplicate_y (K := K) (s := (a, b + 1)) (by simp only []; omega)
      refine ⟨A, R, ?_, h2, h3⟩
      simp only [unitStep, if_true, uLen, getAxis, setAxis]
      rw [h1]
  | false =>
    refine ⟨.eye w, .eye w', ?_, ?_, ?_⟩
    · cases axis <;> simp [unitStep, uLen, getAxis, setAxis]
    · cases axis <;> exact Pull.eye _ hw
    · cases axis <;> exact Pull.eye _ hw'

theorem symStep_pull (σ : Bool) (s : Nat × Nat) (axis : Axis) {w w' : Nat}
    (hw : w = s.1 * s.2) (hw' : w' = s.1 * s.2) (h : σ = true → 2 ≤ getAxis s axis) :
    ∃ A R : SpMat K,
      symStep σ s axis w w' = .ok (A, R, setAxis s axis (sLen σ (getAxis s axis))) ∧
      Pull A s (setAxis s axis (sLen σ (getAxis s axis)))
        (axf axis (sIdx σ (getAxis s axis))).1 (axf axis (sIdx σ (getAxis s axis))).2 ∧
      Pull R (setAxis s axis (sLen σ (getAxis s axis))) s (fun i => i) (fun j => j) := by
  cases σ with
  | true =>
    cases axis with
    | x =>
      obtain ⟨A, R, h1, h2, h3⟩ := symmetry_x (K := K) (s := s)
      refine ⟨A, R, ?_, h2, h3⟩
      simp only [symStep, if_true, h1, sLen, getAxis, setAxis]
    | y =>
      obtain ⟨A, R, h1, h2, h3⟩ := symmetry_y (K := K) (s := s) (h rfl)
      refine ⟨A, R, ?_, h2, h3⟩
      simp only [symStep, if_true, h1, sLen, getAxis, setAxis]
  | false =>
    refine ⟨.eye w, .eye w', ?_, ?_, ?_⟩
    · cases axis <;> simp [symStep, sLen, getAxis, setAxis]
    · cases axis <;> exact Pull.eye s hw
    · cases axis <;> exact Pull.eye s hw'

/-- The independent lines along one axis. -/
def redLen (n : Nat) (σ per : Bool) (p : Nat) (u : Bool) : Nat :=
  sLen σ (uLen u (pLen p (bLen per n)))

/-- The independent line that a line of the grid without duplicated boundary is a copy of. -/
def redIdx (n : Nat) (σ per : Bool) (p : Nat) (u : Bool) (i : Nat) : Nat :=
  sIdx σ (uLen u (pLen p (bLen per n))) (pIdx p (bLen per n) i)

/-- What one axis must satisfy for the geometry matrices to exist. -/
structure AxisOk (n : Nat) (σ per : Bool) (p : Nat) (u : Bool) : Prop where
  two : per = true → 2 ≤ n
  pos : 0 < bLen per n
  div : p ≠ 0 → bLen per n % p = 0
  sym : σ = true → 2 ≤ uLen u (pLen p (bLen per n))

theorem AxisOk.plen {n : Nat} {σ per : Bool} {p : Nat} {u : Bool} (h : AxisOk n σ per p u) :
    0 < pLen p (bLen per n) := by
  unfold pLen
  split
  · exact h.pos
  · rename_i hp
    exact Nat.div_pos (Nat.le_of_dvd h.pos (Nat.dvd_of_mod_eq_zero (h.div hp))) (Nat.pos_of_ne_zero hp)

theorem geometryMatrices_pull (nx ny : Nat) (sym per : Bool × Bool) (p : Nat × Nat)
    (u : Bool × Bool) (full : Bool) (hx : AxisOk nx sym.1 per.1 p.1 u.1)
    (hy : AxisOk ny sym.2 per.2 p.2 u.2) :
    ∃ G R : SpMat K, geometryMatrices (nx, ny) sym per p u full = .ok (G, R) ∧
      Pull G (if full then (nx, ny) else (bLen per.1 nx, bLen per.2 ny))
        (redLen nx sym.1 per.1 p.1 u.1, redLen ny sym.2 per.2 p.2 u.2)
        (fun i => redIdx nx sym.1 per.1 p.1 u.1 (if full then bIdx per.1 nx i else i))
        (fun j => redIdx ny sym.2 per.2 p.2 u.2 (if full then bIdx per.2 ny j else j)) ∧
      Pull R (redLen nx sym.1 per.1 p.1 u.1, redLen ny sym.2 per.2 p.2 u.2) (nx, ny)
        (fun i => bIdx u.1 (uLen u.1 (pLen p.1 (bLen per.1 nx))) i)
        (fun j => bIdx u.2 (uLen u.2 (pLen p.2 (bLen per.2 ny))) j) := by
  obtain ⟨addY, revAddY, e1, a1, r1⟩ := boundaryStep_pull (K := K) per.2 (nx, ny) .y rfl rfl hy.two
  simp only [setAxis, getAxis, axf] at e1 a1 r1
  obtain ⟨addX, revAddX, e2, a2, r2⟩ := boundaryStep_pull (K := K) per.1 (nx, bLen per.2 ny) .x
    (w := addY.cols) (w' := revAddY.rows) a1.cols r1.rows hx.two
  simp only [setAxis, getAxis, axf] at e2 a2 r2
  obtain ⟨perY, revPerY, e3, a3, r3⟩ := periodStep_pull (K := K) p.2 (bLen per.1 nx, bLen per.2 ny) .y
    (w := addX.cols) (w' := revAddX.rows) a2.cols r2.rows (fun h => ⟨hy.div h, hy.pos⟩)
  simp only [setAxis, getAxis, axf] at e3 a3 r3
  obtain ⟨perX, revPerX, e4, a4, r4⟩ := periodStep_pull (K := K) p.1
    (bLen per.1 nx, pLen p.2 (bLen per.2 ny)) .x
    (w := perY.cols) (w' := revPerY.rows) a3.cols r3.rows (fun h => ⟨hx.div h, hx.pos⟩)
  simp only [setAxis, getAxis, axf] at e4 a4 r4
  obtain ⟨addUY, revAddUY, e5, a5, r5⟩ := unitStep_pull (K := K) u.2
    (pLen p.1 (bLen per.1 nx), pLen p.2 (bLen per.2 ny)) .y
    (w := perX.cols) (w' := revPerX.rows) a4.cols r4.rows (fun _ => hy.plen)
  simp only [setAxis, getAxis, axf] at e5 a5 r5
  obtain ⟨addUX, revAddUX, e6, a6, r6⟩ := unitStep_pull (K := K) u.1
    (pLen p.1 (bLen per.1 nx), uLen u.2 (pLen p.2 (bLen per.2 ny))) .x
    (w := addUY.rows) (w' := revAddUY.cols) a5.rows r5.cols (fun _ => hx.plen)
  simp only [setAxis, getAxis, axf] at e6 a6 r6
  obtain ⟨symY, revSymY, e7, a7, r7⟩ := symStep_pull (K := K) sym.2
    (uLen u.1 (pLen p.1 (bLen per.1 nx)), uLen u.2 (pLen p.2 (bLen per.2 ny))) .y
    (w := revAddUX.cols) (w' := addUX.rows) r6.cols a6.rows hy.sym
  simp only [setAxis, getAxis, axf] at e7 a7 r7
  obtain ⟨symX, revSymX, e8, a8, r8⟩ := symStep_pull (K := K) sym.1
    (uLen u.1 (pLen p.1 (bLen per.1 nx)), sLen sym.2 (uLen u.2 (pLen p.2 (bLen per.2 ny)))) .x
    (w := symY.cols) (w' := revSymY.rows) a7.cols r7.rows hx.sym
  simp only [setAxis, getAxis, axf] at e8 a8 r8
  -- the reverse matrix
  obtain ⟨q1, f1, c1⟩ := r8.comp r7
  obtain ⟨q2, f2, c2⟩ := c1.comp a6
  obtain ⟨q3, f3, c3⟩ := c2.comp a5
  obtain ⟨q4, f4, c4⟩ := c3.comp r4
  obtain ⟨q5, f5, c5⟩ := c4.comp r3
  obtain ⟨q6, f6, c6⟩ := c5.comp r2
  obtain ⟨q7, f7, c7⟩ := c6.comp r1
  cases full with
  | false =>
    obtain ⟨g1, d1, b1⟩ := a3.comp a4
    obtain ⟨g2, d2, b2⟩ := b1.comp r5
    obtain ⟨g3, d3, b3⟩ := b2.comp r6
    obtain ⟨g4, d4, b4⟩ := b3.comp a7
    obtain ⟨g5, d5, b5⟩ := b4.comp a8
    refine ⟨g5, q7, ?_, b5, c7⟩
    simp only [geometryMatrices, e1, e2, e3, e4, e5, e6, e7, e8, bind, Except.bind, pure, Except.pure,
      d1, d2, d3, d4, d5, f1, f2, f3, f4, f5, f6, f7, mulE, Bool.false_eq_true, if_false]
  | true =>
    obtain ⟨g0, d0, b0⟩ := a1.comp a2
    obtain ⟨g1', d1', b1'⟩ := b0.comp a3
    obtain ⟨g1, d1, b1⟩ := b1'.comp a4
    obtain ⟨g2, d2, b2⟩ := b1.comp r5
    obtain ⟨g3, d3, b3⟩ := b2.comp r6
    obtain ⟨g4, d4, b4⟩ := b3.comp a7
    obtain ⟨g5, d5, b5⟩ := b4.comp a8
    refine ⟨g5, q7, ?_, b5, c7⟩
    simp only [geometryMatrices, e1, e2, e3, e4, e5, e6, e7, e8, bind, Except.bind, pure, Except.pure,
      d0, d1, d1', d2, d3, d4, d5, f1, f2, f3, f4, f5, f6, f7, mulE, if_true]

end Verif.Cubic
