import Verif.Cubic.Hermite
import Verif.Cubic.ParamProps
import Verif.Cubic.SmoothProps

/-!
# Lemmas: the matrices of the Hermite parametrization
-/

set_option linter.unusedVariables false
set_option linter.unusedSectionVars false
set_option linter.unusedSimpArgs false

namespace Verif.Cubic

open Finset

/-! ## Sparse matrices -/

section
variable {K : Type*} [CommRing K]

namespace SpMat

theorem scale_mulVec (c : K) (A : SpMat K) (v : Nat → K) (i : Nat) :
    (scale c A).mulVec v i = c * A.mulVec v i := by
  simp only [mulVec, scale, Finset.mul_sum, mul_assoc]

theorem blockDiagList_size (r c : Nat) (Ms : List (SpMat K)) (h : ∀ A ∈ Ms, A.rows = r ∧ A.cols = c) :
    (blockDiagList Ms).rows = r * Ms.length ∧ (blockDiagList Ms).cols = c * Ms.length := by
  induction Ms with
  | nil => simp [blockDiagList, zeros]
  | cons A Ms ih =>
    have h1 := ih fun B hB => h B (List.mem_cons_of_mem _ hB)
    have h2 := h A List.mem_cons_self
    simp only [blockDiagList, List.length_cons, h1.1, h1.2, h2.1, h2.2]
    constructor <;> ring

theorem blockDiagList_mulVec {r c : Nat} (Ms : List (SpMat K)) (h : ∀ A ∈ Ms, A.rows = r ∧ A.cols = c)
    (v : Nat → K) {i : Nat} (hi : i < r) (k : Nat) (hk : k < Ms.length) :
    (blockDiagList Ms).mulVec v (i + r * k) = Ms[k].mulVec (fun j => v (j + c * k)) i := by
  induction Ms generalizing k v with
  | nil => simp at hk
  | cons A Ms ih =>
    obtain ⟨hA, hA'⟩ := h A List.mem_cons_self
    simp only [mulVec, blockDiagList, Finset.sum_range_add]
    cases k with
    | zero =>
      simp only [Nat.mul_zero, Nat.add_zero, hA, hi, if_true, List.getElem_cons_zero]
      rw [Finset.sum_eq_zero (s := range (blockDiagList Ms).cols), add_zero]
      · exact Finset.sum_congr rfl fun j hj => by rw [if_pos (Finset.mem_range.1 hj)]
      · intro j _
        rw [if_neg (by omega), zero_mul]
    | succ k =>
      have hlt : ¬ i + r * (k + 1) < r := by rw [Nat.mul_succ]; omega
      have he : i + r * (k + 1) - r = i + r * k := by rw [Nat.mul_succ]; omega
      have := ih (fun B hB => h B (List.mem_cons_of_mem _ hB)) (fun j => v (A.cols + j)) k (by simpa using hk)
      simp only [hA, hlt, if_false, he, List.getElem_cons_succ]
      rw [Finset.sum_eq_zero (s := range A.cols), zero_add]
      · simp only [mulVec] at this
        refine Eq.trans ?_ (this.trans ?_)
        · refine Finset.sum_congr rfl fun j hj => ?_
          rw [if_neg (by omega), Nat.add_sub_cancel_left]
        · refine Finset.sum_congr rfl fun j hj => ?_
          rw [hA', show c + (j + c * k) = j + c * (k + 1) by ring]
      · intro j hj
        rw [if_pos (Finset.mem_range.1 hj), zero_mul]

end SpMat

/-- A matrix on four blocks that copies entries within every block, with factors. -/
structure Pull4 (A : SpMat K) (s s' : Nat × Nat) (f g : Nat → Nat) (σ : Nat → Nat → Nat → K) : Prop where
  rows : A.rows = 4 * (s.1 * s.2)
  cols : A.cols = 4 * (s'.1 * s'.2)
  fst : ∀ i < s.1, f i < s'.1
  snd : ∀ j < s.2, g j < s'.2
  act : ∀ (v : Nat → K) c i j, c < 4 → i < s.1 → j < s.2 →
    A.mulVec v (i + s.1 * j + s.1 * s.2 * c) = σ c i j * v (f i + s'.1 * g j + s'.1 * s'.2 * c)

theorem Pull.block4 {A : SpMat K} {s s' : Nat × Nat} {f g : Nat → Nat} (h : Pull A s s' f g) :
    Pull4 (.blockDiag 4 A) s s' f g (fun _ _ _ => 1) := by
  refine ⟨by simp [SpMat.blockDiag, h.rows], by simp [SpMat.blockDiag, h.cols], h.fst, h.snd,
    fun v c i j hc hi hj => ?_⟩
  have := SpMat.blockDiag_mulVec (A := A) (k := 4) (i := i + s.1 * j) (b := c)
    (by rw [h.rows]; exact idx_lt hi hj) hc v
  rw [h.rows] at this
  rw [this, h.act _ i j hi hj, h.cols, one_mul]

theorem Pull4.comp {A B : SpMat K} {s s' s'' : Nat × Nat} {f g f' g' : Nat → Nat}
    {σ σ' : Nat → Nat → Nat → K} (hA : Pull4 A s s' f g σ) (hB : Pull4 B s' s'' f' g' σ') :
    ∃ C, A.matmul B = .ok C ∧ Pull4 C s s'' (fun i => f' (f i)) (fun j => g' (g j))
      (fun c i j => σ c i j * σ' c (f i) (g j)) := by
  obtain ⟨C, hC, hr, hc, hm⟩ := SpMat.matmul_ok (hA.cols.trans hB.rows.symm)
  refine ⟨C, hC, hr.trans hA.rows, hc.trans hB.cols, fun i hi => hB.fst _ (hA.fst _ hi),
    fun j hj => hB.snd _ (hA.snd _ hj), fun v c i j hc hi hj => ?_⟩
  rw [hm, hA.act _ _ _ _ hc hi hj, hB.act _ _ _ _ hc (hA.fst _ hi) (hA.snd _ hj), mul_assoc (σ c i j)]

theorem Pull4.congr {A : SpMat K} {s s' : Nat × Nat} {f g : Nat → Nat} {σ σ' : Nat → Nat → Nat → K}
    (h : Pull4 A s s' f g σ) (hσ : ∀ c i j, σ c i j = σ' c i j) : Pull4 A s s' f g σ' :=
  ⟨h.rows, h.cols, h.fst, h.snd, fun v c i j hc hi hj => by rw [h.act v c i j hc hi hj, hσ]⟩

/-! ## Signs -/

/-- The factor of the derivative along one axis. -/
def sg (σ per : Bool) (n i : Nat) : K := if σ then signAt per n i else 1

/-- The factor of block `c` at `(i, j)`: block 1 is the derivative along x, block 2 along y, block 3
the mixed one. -/
def sw (sym per : Bool × Bool) (n m c i j : Nat) : K :=
  (if c % 2 = 1 then sg sym.1 per.1 n i else 1) * (if 2 ≤ c then sg sym.2 per.2 m j else 1)

theorem signStep_act (σ : Bool) (s : Nat × Nat) (axis : Axis) (per : Bool) {w : Nat}
    (hw : w = s.1 * s.2) (h : σ = true → 2 ≤ getAxis s axis) :
    ∃ A : SpMat K, signStep σ s axis per w = .ok A ∧ A.rows = s.1 * s.2 ∧ A.cols = s.1 * s.2 ∧
      ∀ v i j, i < s.1 → j < s.2 → A.mulVec v (i + s.1 * j) =
        sg σ per (getAxis s axis) (match axis with | .x => i | .y => j) * v (i + s.1 * j) := by
  cases σ with
  | false =>
    refine ⟨.eye w, rfl, hw, hw, fun v i j hi hj => ?_⟩
    rw [SpMat.eye_mulVec (by rw [hw]; exact idx_lt hi hj)]
    simp [sg]
  | true =>
    have h2 := h rfl
    cases axis with
    | x =>
      simp only [getAxis] at h2
      refine ⟨.blockDiag s.2 (.diags s.1 fun i => signAt per s.1 i), ?_, ?_, ?_, fun v i j hi hj => ?_⟩
      · simp only [signStep, signCorrection, if_true]
        rw [if_neg (by omega)]
      · simp [SpMat.blockDiag, SpMat.diags, Nat.mul_comm]
      · simp [SpMat.blockDiag, SpMat.diags, Nat.mul_comm]
      · have := SpMat.blockDiag_mulVec (A := SpMat.diags s.1 fun i => (signAt per s.1 i : K)) (k := s.2)
          (i := i) (b := j) hi hj v
        rw [show (SpMat.diags s.1 fun i => (signAt per s.1 i : K)).rows = s.1 from rfl,
          show (SpMat.diags s.1 fun i => (signAt per s.1 i : K)).cols = s.1 from rfl] at this
        rw [this, SpMat.diags_mulVec hi]
        simp [sg, getAxis]
    | y =>
      simp only [getAxis] at h2
      refine ⟨.diags (s.1 * s.2) fun r => signAt per s.2 (r / s.1), ?_, rfl, rfl, fun v i j hi hj => ?_⟩
      · simp only [signStep, signCorrection, if_true]
        rw [if_neg (by omega)]
      · rw [SpMat.diags_mulVec (idx_lt hi hj), SpMat.add_mul_div' hi]
        simp [sg, getAxis]

/-! ## The geometry matrices -/

theorem hermiteGeometry_pull (nx ny : Nat) (sym per : Bool × Bool) (p : Nat × Nat)
    (u : Bool × Bool) (hx : AxisOk nx sym.1 per.1 p.1 u.1) (hy : AxisOk ny sym.2 per.2 p.2 u.2) :
    ∃ G R : SpMat K, hermiteGeometry (nx, ny) sym per p u = .ok (G, R) ∧
      Pull4 G (bLen per.1 nx, bLen per.2 ny)
        (redLen nx sym.1 per.1 p.1 u.1, redLen ny sym.2 per.2 p.2 u.2)
        (fun i => redIdx nx sym.1 per.1 p.1 u.1 i) (fun j => redIdx ny sym.2 per.2 p.2 u.2 j)
        (fun c i j => sw sym per (uLen u.1 (pLen p.1 (bLen per.1 nx)))
          (uLen u.2 (pLen p.2 (bLen per.2 ny))) c (pIdx p.1 (bLen per.1 nx) i)
          (pIdx p.2 (bLen per.2 ny) j)) ∧
      Pull4 R (redLen nx sym.1 per.1 p.1 u.1, redLen ny sym.2 per.2 p.2 u.2) (nx, ny)
        (fun i => bIdx u.1 (uLen u.1 (pLen p.1 (bLen per.1 nx))) i)
        (fun j => bIdx u.2 (uLen u.2 (pLen p.2 (bLen per.2 ny))) j)
        (fun c i j => sw sym per (uLen u.1 (pLen p.1 (bLen per.1 nx)))
          (uLen u.2 (pLen p.2 (bLen per.2 ny))) c i j) := by
  obtain ⟨addY, revAddY, e1, a1, r1⟩ := boundaryStep_pull (K := K) per.2 (nx, ny) .y rfl rfl hy.two
  simp only [setAxis, getAxis, axf] at e1 a1 r1
  obtain ⟨addX, revAddX, e2, a2, r2⟩ := boundaryStep_pull (K := K) per.1 (nx, bLen per.2 ny) .x
    (w := addY.cols) (w' := revAddY.rows) a1.cols r1.rows hx.two
  simp only [setAxis, getAxis, axf] at e2 a2 r2
  obtain ⟨perY, revPerY, e3, a3, r3⟩ := periodStep_pull (K := K) p.2 (bLen per.1 nx, bLen per.2 ny) .y
    (w := addX.cols) (w' := revAddX.rows) a2.cols r2.rows (fun h => ⟨hy.div h, hy.pos⟩)
  simp only [setAxis, getAxis, axf] at e3 a3 r3
  obtain ⟨perX, revPerX, e4, a4, r4⟩ := periodStep_pull (K := K) p.1
    (bLen per.1 nx, pLen p.2 (bLen per.2 ny)) .x
    (w := perY.cols) (w' := revPerY.rows) a3.cols r3.rows (fun h => ⟨hx.div h, hx.pos⟩)
  simp only [setAxis, getAxis, axf] at e4 a4 r4
  obtain ⟨addUY, revAddUY, e5, a5, r5⟩ := unitStep_pull (K := K) u.2
    (pLen p.1 (bLen per.1 nx), pLen p.2 (bLen per.2 ny)) .y
    (w := perX.cols) (w' := revPerX.rows) a4.cols r4.rows (fun _ => hy.plen)
  simp only [setAxis, getAxis, axf] at e5 a5 r5
  obtain ⟨addUX, revAddUX, e6, a6, r6⟩ := unitStep_pull (K := K) u.1
    (pLen p.1 (bLen per.1 nx), uLen u.2 (pLen p.2 (bLen per.2 ny))) .x
    (w := addUY.rows) (w' := revAddUY.cols) a5.rows r5.cols (fun _ => hx.plen)
  simp only [setAxis, getAxis, axf] at e6 a6 r6
  obtain ⟨sx, e9, sxr, sxc, sxa⟩ := signStep_act (K := K) sym.1
    (uLen u.1 (pLen p.1 (bLen per.1 nx)), uLen u.2 (pLen p.2 (bLen per.2 ny))) .x per.1
    (w := revAddUX.cols) r6.cols hx.sym
  obtain ⟨sy, e10, syr, syc, sya⟩ := signStep_act (K := K) sym.2
    (uLen u.1 (pLen p.1 (bLen per.1 nx)), uLen u.2 (pLen p.2 (bLen per.2 ny))) .y per.2
    (w := revAddUX.cols) r6.cols hy.sym
  simp only [getAxis] at sxa sya sxr sxc syr syc
  obtain ⟨sxy, e11, sxyr, sxyc, sxya⟩ := SpMat.matmul_ok (A := sx) (B := sy) (sxc.trans syr.symm)
  obtain ⟨symY, revSymY, e7, a7, r7⟩ := symStep_pull (K := K) sym.2
    (uLen u.1 (pLen p.1 (bLen per.1 nx)), uLen u.2 (pLen p.2 (bLen per.2 ny))) .y
    (w := revAddUX.cols) (w' := addUX.rows) r6.cols a6.rows hy.sym
  simp only [setAxis, getAxis, axf] at e7 a7 r7
  obtain ⟨symX, revSymX, e8, a8, r8⟩ := symStep_pull (K := K) sym.1
    (uLen u.1 (pLen p.1 (bLen per.1 nx)), sLen sym.2 (uLen u.2 (pLen p.2 (bLen per.2 ny)))) .x
    (w := symY.cols) (w' := revSymY.rows) a7.cols r7.rows hx.sym
  simp only [setAxis, getAxis, axf] at e8 a8 r8
  have hsize : ∀ A ∈ [SpMat.eye revAddUX.cols, sx, sy, sxy],
      A.rows = uLen u.1 (pLen p.1 (bLen per.1 nx)) * uLen u.2 (pLen p.2 (bLen per.2 ny)) ∧
      A.cols = uLen u.1 (pLen p.1 (bLen per.1 nx)) * uLen u.2 (pLen p.2 (bLen per.2 ny)) := by
    intro A hA
    simp only [List.mem_cons, List.not_mem_nil, or_false] at hA
    rcases hA with rfl | rfl | rfl | rfl
    · exact ⟨r6.cols, r6.cols⟩
    · exact ⟨sxr, sxc⟩
    · exact ⟨syr, syc⟩
    · exact ⟨sxyr.trans sxr, sxyc.trans syc⟩
  have hs : Pull4 (SpMat.blockDiagList [SpMat.eye revAddUX.cols, sx, sy, sxy])
      (uLen u.1 (pLen p.1 (bLen per.1 nx)), uLen u.2 (pLen p.2 (bLen per.2 ny)))
      (uLen u.1 (pLen p.1 (bLen per.1 nx)), uLen u.2 (pLen p.2 (bLen per.2 ny)))
      (fun i => i) (fun j => j) (fun c i j => sw sym per (uLen u.1 (pLen p.1 (bLen per.1 nx)))
          (uLen u.2 (pLen p.2 (bLen per.2 ny))) c i j) := by
    obtain ⟨z1, z2⟩ := SpMat.blockDiagList_size _ _ _ hsize
    refine ⟨by rw [z1]; simp; ring, by rw [z2]; simp; ring, fun i hi => hi, fun j hj => hj,
      fun v c i j hc hi hj => ?_⟩
    simp only [] at hi hj ⊢
    rw [SpMat.blockDiagList_mulVec _ hsize v (idx_lt hi hj) c (by simpa using hc)]
    have h4 : c = 0 ∨ c = 1 ∨ c = 2 ∨ c = 3 := by omega
    rcases h4 with rfl | rfl | rfl | rfl
    · simp only [List.getElem_cons_zero, sw]
      rw [SpMat.eye_mulVec (by rw [r6.cols]; exact idx_lt hi hj)]
      simp
    · simp only [List.getElem_cons_succ, List.getElem_cons_zero, sw]
      rw [sxa _ i j hi hj]
      simp
    · simp only [List.getElem_cons_succ, List.getElem_cons_zero, sw]
      rw [sya _ i j hi hj]
      simp
    · simp only [List.getElem_cons_succ, List.getElem_cons_zero, sw]
      rw [sxya, sxa _ i j hi hj, sya _ i j hi hj]
      simp [mul_assoc]
  -- the reverse matrix
  obtain ⟨q1, f1, c1⟩ := r8.block4.comp r7.block4
  obtain ⟨q2, f2, c2⟩ := c1.comp hs
  obtain ⟨q3, f3, c3⟩ := c2.comp a6.block4
  obtain ⟨q4, f4, c4⟩ := c3.comp a5.block4
  obtain ⟨q5, f5, c5⟩ := c4.comp r4.block4
  obtain ⟨q6, f6, c6⟩ := c5.comp r3.block4
  obtain ⟨q7, f7, c7⟩ := c6.comp r2.block4
  obtain ⟨q8, f8, c8⟩ := c7.comp r1.block4
  -- the geometry matrix
  obtain ⟨g1, d1, b1⟩ := a3.block4.comp a4.block4
  obtain ⟨g2, d2, b2⟩ := b1.comp r5.block4
  obtain ⟨g3, d3, b3⟩ := b2.comp r6.block4
  obtain ⟨g4, d4, b4⟩ := b3.comp hs
  obtain ⟨g5, d5, b5⟩ := b4.comp a7.block4
  obtain ⟨g6, d6, b6⟩ := b5.comp a8.block4
  refine ⟨g6, q8, ?_, b6.congr fun c i j => ?_, c8.congr fun c i j => ?_⟩
  · simp only [hermiteGeometry, e1, e2, e3, e4, e5, e6, e7, e8, e9, e10, e11, bind, Except.bind, pure,
      Except.pure, d1, d2, d3, d4, d5, d6, f1, f2, f3, f4, f5, f6, f7, f8, mulE]
  · simp
  · simp

theorem unitHermite_eq {p : Nat × Nat} {sym : Bool × Bool} (h1 : sym.1 = true → p.1 ≠ 1)
    (h2 : sym.2 = true → p.2 ≠ 1) : unitHermite p sym = unitCubic p sym := by
  have key : ∀ (q : Nat) (s : Bool), (s = true → q ≠ 1) → (q != 0 && q != 1 && s) = (q != 0 && s) := by
    intro q s h
    cases s
    · simp
    · have := h rfl
      simp [this]
  unfold unitHermite unitCubic
  rw [key _ _ h1, key _ _ h2]

end

/-! ## Interpolation with given derivatives -/

section
variable {K : Type*} [Field K] [LinearOrder K] [IsStrictOrderedRing K]

/-- The piecewise cubic function with the values `f` and the slopes `d` at the points `xs`. -/
def herm1 (per : Bool) (xs : List K) (f d : Nat → K) (x : K) : K :=
  hermite (xs.getD (cellOf xs x + 1) 0 - xs.getD (cellOf xs x) 0) (x - xs.getD (cellOf xs x) 0)
    (f (wrap per xs.length (cellOf xs x))) (f (wrap per xs.length (cellOf xs x + 1)))
    (d (wrap per xs.length (cellOf xs x))) (d (wrap per xs.length (cellOf xs x + 1)))

/-- Its derivative. -/
def herm1D (per : Bool) (xs : List K) (f d : Nat → K) (x : K) : K :=
  hermiteD (xs.getD (cellOf xs x + 1) 0 - xs.getD (cellOf xs x) 0) (x - xs.getD (cellOf xs x) 0)
    (f (wrap per xs.length (cellOf xs x))) (f (wrap per xs.length (cellOf xs x + 1)))
    (d (wrap per xs.length (cellOf xs x))) (d (wrap per xs.length (cellOf xs x + 1)))

theorem herm1_congr {per : Bool} {xs : List K} (hn : Enough per xs.length) {f g d e : Nat → K}
    (h : ∀ m < freeLen per xs.length, f m = g m) (h' : ∀ m < freeLen per xs.length, d m = e m) (x : K) :
    herm1 per xs f d x = herm1 per xs g e x ∧ herm1D per xs f d x = herm1D per xs g e x := by
  have hc := cellOf_lt hn.two x
  have h1 := wrap_lt hn (show cellOf xs x < xs.length by omega)
  have h2 := wrap_lt hn hc
  unfold herm1 herm1D
  rw [h _ h1, h _ h2, h' _ h1, h' _ h2]
  exact ⟨rfl, rfl⟩

/-- On a closed cell it is the cubic of the cell. -/
theorem herm1_closed (per : Bool) {xs : List K} (hx : Increasing xs) (f d : Nat → K) {k : Nat}
    (hk : k + 1 < xs.length) {x : K} (h1 : xs.getD k 0 ≤ x) (h2 : x ≤ xs.getD (k + 1) 0) :
    herm1 per xs f d x = hermite (xs.getD (k + 1) 0 - xs.getD k 0) (x - xs.getD k 0)
      (f (wrap per xs.length k)) (f (wrap per xs.length (k + 1)))
      (d (wrap per xs.length k)) (d (wrap per xs.length (k + 1))) ∧
    herm1D per xs f d x = hermiteD (xs.getD (k + 1) 0 - xs.getD k 0) (x - xs.getD k 0)
      (f (wrap per xs.length k)) (f (wrap per xs.length (k + 1)))
      (d (wrap per xs.length k)) (d (wrap per xs.length (k + 1))) := by
  unfold herm1 herm1D
  rcases cellOf_closed hx hk h1 h2 with h | ⟨h, hc, hk2⟩
  · rw [h]; exact ⟨rfl, rfl⟩
  · have hne := sub_ne_zero.2 (hx.ne (Nat.lt_succ_self k) hk).symm
    rw [hc, h, sub_self, hermite_left, hermiteD_left, hermite_right hne, hermiteD_right hne]
    exact ⟨rfl, rfl⟩

theorem herm1_node (per : Bool) {xs : List K} (hx : Increasing xs) (h2 : 2 ≤ xs.length) (f d : Nat → K)
    {i : Nat} (hi : i < xs.length) :
    herm1 per xs f d (xs.getD i 0) = f (wrap per xs.length i) ∧
      herm1D per xs f d (xs.getD i 0) = d (wrap per xs.length i) := by
  by_cases h : i + 1 < xs.length
  · obtain ⟨e1, e2⟩ := herm1_closed per hx f d h (le_refl _) (hx.le (by omega) h)
    rw [e1, e2, sub_self, hermite_left, hermiteD_left]
    exact ⟨rfl, rfl⟩
  · obtain ⟨k, rfl⟩ : ∃ k, i = k + 1 := ⟨i - 1, by omega⟩
    have hne := sub_ne_zero.2 (hx.ne (Nat.lt_succ_self k) hi).symm
    obtain ⟨e1, e2⟩ := herm1_closed per hx f d hi (hx.le (by omega) hi) (le_refl _)
    rw [e1, e2, hermite_right hne, hermiteD_right hne]
    exact ⟨rfl, rfl⟩

theorem herm1_neg (per : Bool) (xs : List K) (f d : Nat → K) (x : K) :
    herm1 per xs (fun i => -f i) (fun i => -d i) x = -herm1 per xs f d x := by
  unfold herm1 hermite; ring

theorem herm1_mirror {per : Bool} {xs : List K} (hx : Increasing xs) (h2 : 2 ≤ xs.length) {c : K}
    (hm : Mirrored xs c) {f d : Nat → K}
    (hf : ∀ i < xs.length, f (wrap per xs.length (xs.length - 1 - i)) = f (wrap per xs.length i))
    (hd : ∀ i < xs.length, d (wrap per xs.length (xs.length - 1 - i)) = -d (wrap per xs.length i))
    {x : K} (hin : Inside xs x) : herm1 per xs f d (c - x) = herm1 per xs f d x := by
  obtain ⟨c1, c2, _⟩ := cellOf_spec hx h2 hin
  have hk := cellOf_lt h2 x
  generalize cellOf xs x = k at c1 c2 hk
  have m1 := hm k (by omega)
  have m2 := hm (k + 1) (by omega)
  rw [(herm1_closed per hx f d hk c1 c2).1]
  rw [(herm1_closed per hx f d (k := xs.length - 1 - (k + 1)) (by omega)
    (by rw [m2]; linarith) (by
      rw [show xs.length - 1 - (k + 1) + 1 = xs.length - 1 - k by omega, m1]; linarith)).1]
  rw [show xs.length - 1 - (k + 1) + 1 = xs.length - 1 - k by omega, m1, m2,
    hf _ (by omega), hf _ (by omega), hd _ (by omega), hd _ (by omega),
    ← hermite_mirror (sub_ne_zero.2 (hx.ne (Nat.lt_succ_self k) hk).symm) (x - xs.getD k 0)]
  congr 1 <;> ring

theorem herm1_shift {xs : List K} (hx : Increasing xs) (h2 : 2 ≤ xs.length) {L p : Nat} {T : K}
    (hL : 0 < L) (hp : xs.length - 1 = L * p) (hr : Repeating xs L T) {f d : Nat → K}
    (hf : ∀ i, i + L < xs.length → f (wrap true xs.length (i + L)) = f (wrap true xs.length i))
    (hd : ∀ i, i + L < xs.length → d (wrap true xs.length (i + L)) = d (wrap true xs.length i))
    {x : K} (hin : Inside xs x) (hin' : Inside xs (x + T)) :
    herm1 true xs f d (x + T) = herm1 true xs f d x := by
  have hLn : L < xs.length := by
    rcases Nat.eq_zero_or_pos p with h | h
    · subst h; simp at hp; omega
    · have : L ≤ L * p := Nat.le_mul_of_pos_right L h
      omega
  have hT := hr 0 (by omega)
  rw [Nat.zero_add] at hT
  obtain ⟨c1, c2, _⟩ := cellOf_spec hx h2 hin
  have hk := cellOf_lt h2 x
  by_cases hkL : cellOf xs x + 1 + L < xs.length
  · generalize cellOf xs x = k at c1 c2 hk hkL
    have m1 := hr k (by omega)
    have m2 := hr (k + 1) hkL
    rw [(herm1_closed true hx f d hk c1 c2).1]
    rw [(herm1_closed true hx f d (k := k + L) (by omega)
      (by rw [m1]; linarith) (by
        rw [show k + L + 1 = k + 1 + L by omega, m2]; linarith)).1]
    rw [show k + L + 1 = k + 1 + L by omega, m1, m2, hf _ (by omega), hf _ (by omega),
      hd _ (by omega), hd _ (by omega)]
    congr 1 <;> ring
  · have hlast := hr (xs.length - 1 - L) (by omega)
    rw [show xs.length - 1 - L + L = xs.length - 1 by omega] at hlast
    have h3 := hin'.2
    rw [hlast] at h3
    have h4 : xs.getD (xs.length - 1 - L) 0 ≤ xs.getD (cellOf xs x) 0 := hx.le (by omega) (by omega)
    have hxe : x = xs.getD (xs.length - 1 - L) 0 := le_antisymm (by linarith) (h4.trans c1)
    rw [hxe, ← hlast, (herm1_node true hx h2 f d (by omega)).1, (herm1_node true hx h2 f d (by omega)).1]
    have := hf (xs.length - 1 - L) (by omega)
    rw [show xs.length - 1 - L + L = xs.length - 1 by omega] at this
    exact this

/-! ## `Phi2fii` with derivatives -/

/-- The factor of a block. -/
def blockScale (s : K × K × K) (c : Nat) : K :=
  match c with
  | 0 => s.1
  | 1 => s.2.1⁻¹
  | 2 => s.2.1⁻¹
  | _ => s.2.2⁻¹

theorem phi2fiiDeriv_act {X Y xs ys : List K} {per : Bool × Bool} (s : K × K × K)
    (hx : Increasing xs) (hy : Increasing ys)
    (hnx : Enough per.1 xs.length) (hny : Enough per.2 ys.length) :
    ∃ P : SpMat K, phi2fiiDeriv X Y xs ys per s = .ok P ∧ P.rows = 16 * (X.length * Y.length) ∧
      P.cols = 4 * (freeLen per.1 xs.length * freeLen per.2 ys.length) ∧
      ∀ v a b c di dj, a < X.length → b < Y.length → c < 4 → di ≤ 1 → dj ≤ 1 →
        P.mulVec v (a + X.length * b + X.length * Y.length * (di + 2 * dj + 4 * c)) =
          blockScale s c * v (wrap per.1 xs.length (cellOf xs (X.getD a 0) + di) +
            freeLen per.1 xs.length * wrap per.2 ys.length (cellOf ys (Y.getD b 0) + dj) +
            freeLen per.1 xs.length * freeLen per.2 ys.length * c) := by
  obtain ⟨Dx, hDx, -⟩ := makeDmatrixQuad_x (ys := ys) hx hnx hny
  obtain ⟨Dy, hDy, -⟩ := makeDmatrixQuad_y (xs := xs) hy hnx hny
  obtain ⟨pm, hpm, hP⟩ := periodicityMatrix_pull (K := K) hnx hny
  have hx2 := hnx.two
  have hy2 := hny.two
  have hcorner : ∀ di dj, di ≤ 1 → dj ≤ 1 →
      ∃ C, (cornerMatrix X Y xs ys di dj).matmul pm = .ok C ∧
        Blk C X.length Y.length (freeLen per.1 xs.length * freeLen per.2 ys.length) (fun v a b =>
          v (wrap per.1 xs.length (cellOf xs (X.getD a 0) + di) +
            freeLen per.1 xs.length * wrap per.2 ys.length (cellOf ys (Y.getD b 0) + dj))) := by
    intro di dj hdi hdj
    have hB : Blk (cornerMatrix X Y xs ys di dj) X.length Y.length (xs.length * ys.length) (fun v a b =>
        v ((cellOf xs (X.getD a 0) + di) + xs.length * (cellOf ys (Y.getD b 0) + dj))) :=
      ⟨rfl, rfl, fun v a b ha hb => cornerMatrix_act X Y xs ys hx2 hy2 hdi hdj v ha hb⟩
    obtain ⟨C, hC, hCb⟩ := hB.mul hP.rows hP.cols
    refine ⟨C, hC, hCb.congr fun v a b ha hb => ?_⟩
    have h1 := cellOf_lt hx2 (X.getD a 0)
    have h2 := cellOf_lt hy2 (Y.getD b 0)
    exact hP.act v _ _ (by simp only []; omega) (by simp only []; omega)
  obtain ⟨p00, e00, b00⟩ := hcorner 0 0 (by omega) (by omega)
  obtain ⟨p10, e10, b10⟩ := hcorner 1 0 (by omega) (by omega)
  obtain ⟨p01, e01, b01⟩ := hcorner 0 1 (by omega) (by omega)
  obtain ⟨p11, e11, b11⟩ := hcorner 1 1 (by omega) (by omega)
  have hall : ∀ A ∈ [p00, p10, p01, p11], A.rows = X.length * Y.length ∧ A.cols = pm.cols := by
    intro A hA
    simp only [List.mem_cons, List.not_mem_nil, or_false] at hA
    rw [hP.cols]
    rcases hA with rfl | rfl | rfl | rfl
    · exact ⟨b00.rows, b00.cols⟩
    · exact ⟨b10.rows, b10.cols⟩
    · exact ⟨b01.rows, b01.cols⟩
    · exact ⟨b11.rows, b11.cols⟩
  have hrows := SpMat.vstackList_rows pm.cols (X.length * Y.length) [p00, p10, p01, p11]
    (fun A hA => (hall A hA).1)
  have hcols := SpMat.vstackList_cols pm.cols [p00, p10, p01, p11]
  have hact : ∀ v a b di dj, a < X.length → b < Y.length → di ≤ 1 → dj ≤ 1 →
      (SpMat.vstackList pm.cols [p00, p10, p01, p11]).mulVec v
        (a + X.length * b + X.length * Y.length * (di + 2 * dj)) =
      v (wrap per.1 xs.length (cellOf xs (X.getD a 0) + di) +
        freeLen per.1 xs.length * wrap per.2 ys.length (cellOf ys (Y.getD b 0) + dj)) := by
    intro v a b di dj ha hb hdi hdj
    rw [SpMat.vstackList_mulVec _ (fun A hA => (hall A hA).1) (fun A hA => (hall A hA).2) v
      (idx_lt ha hb) (di + 2 * dj) (by simp only [List.length_cons, List.length_nil]; omega)]
    interval_cases di <;> interval_cases dj
    · exact b00.act v a b ha hb
    · exact b01.act v a b ha hb
    · exact b10.act v a b ha hb
    · exact b11.act v a b ha hb
  generalize hV : SpMat.vstackList pm.cols [p00, p10, p01, p11] = V at hrows hcols hact
  have hsz : ∀ A ∈ [V.scale s.1, V.scale s.2.1⁻¹, V.scale s.2.1⁻¹, V.scale s.2.2⁻¹],
      A.rows = 4 * (X.length * Y.length) ∧ A.cols = freeLen per.1 xs.length * freeLen per.2 ys.length := by
    intro A hA
    have h1 : V.rows = 4 * (X.length * Y.length) := by rw [hrows]; simp; ring
    have h2 := hcols.trans hP.cols
    simp only [List.mem_cons, List.not_mem_nil, or_false] at hA
    rcases hA with rfl | rfl | rfl | rfl <;> exact ⟨h1, h2⟩
  refine ⟨.blockDiagList [V.scale s.1, V.scale s.2.1⁻¹, V.scale s.2.1⁻¹, V.scale s.2.2⁻¹], ?_, ?_, ?_, ?_⟩
  · unfold phi2fiiDeriv
    simp only [hDx, hDy, hpm, e00, e10, e01, e11, bind, Except.bind, pure, Except.pure, hV]
  · rw [(SpMat.blockDiagList_size _ _ _ hsz).1]
    simp only [List.length_cons, List.length_nil]
    ring
  · rw [(SpMat.blockDiagList_size _ _ _ hsz).2]
    simp only [List.length_cons, List.length_nil]
    ring
  · intro v a b c di dj ha hb hc hdi hdj
    have hidx : a + X.length * b + X.length * Y.length * (di + 2 * dj) < 4 * (X.length * Y.length) := by
      have h1 : a + X.length * b < X.length * Y.length := idx_lt ha hb
      rw [Nat.mul_comm 4]
      exact idx_lt h1 (by omega)
    rw [show a + X.length * b + X.length * Y.length * (di + 2 * dj + 4 * c) =
      (a + X.length * b + X.length * Y.length * (di + 2 * dj)) + 4 * (X.length * Y.length) * c by ring,
      SpMat.blockDiagList_mulVec _ hsz v hidx c (by simpa using hc)]
    have h4 : c = 0 ∨ c = 1 ∨ c = 2 ∨ c = 3 := by omega
    rcases h4 with rfl | rfl | rfl | rfl <;>
      simp only [List.getElem_cons_succ, List.getElem_cons_zero, blockScale, SpMat.scale_mulVec] <;>
      rw [hact _ a b di dj ha hb hdi hdj]

/-- The surface with values `g`, derivatives `gx`, `gy` and mixed derivatives `gxy` at the points of a
grid. -/
def surfaceH (xs ys : List K) (per : Bool × Bool) (g gx gy gxy : Nat → Nat → K) (x y : K) : K :=
  herm1 per.1 xs (fun i => herm1 per.2 ys (g i) (gy i) y) (fun i => herm1 per.2 ys (gx i) (gxy i) y) x

/-- Block `c` of a vector on the independent lines. -/
def blk (xs ys : List K) (per : Bool × Bool) (v : Nat → K) (c i j : Nat) : K :=
  v (i + freeLen per.1 xs.length * j + freeLen per.1 xs.length * freeLen per.2 ys.length * c)

theorem cubicMatricesDeriv_eval {X Y xs ys : List K} {per : Bool × Bool} (s : K × K × K)
    (hx : Increasing xs)
    (hy : Increasing ys) (hnx : Enough per.1 xs.length) (hny : Enough per.2 ys.length)
    (hX : fineInside X xs = true) (hY : fineInside Y ys = true) :
    ∃ f fx fy : SpMat K, cubicMatricesDeriv X Y xs ys per s = .ok (f, fx, fy) ∧
      f.rows = X.length * Y.length ∧
      f.cols = 4 * (freeLen per.1 xs.length * freeLen per.2 ys.length) ∧
      ∀ v a b, a < X.length → b < Y.length →
        f.mulVec v (a + X.length * b) = surfaceH xs ys per (fun i j => s.1 * blk xs ys per v 0 i j)
          (fun i j => s.2.1⁻¹ * blk xs ys per v 1 i j) (fun i j => s.2.1⁻¹ * blk xs ys per v 2 i j)
          (fun i j => s.2.2⁻¹ * blk xs ys per v 3 i j) (X.getD a 0) (Y.getD b 0) := by
  obtain ⟨P, hP, hPr, hPc, hPa⟩ := phi2fiiDeriv_act (X := X) (Y := Y) s hx hy hnx hny
  set x := onFine X.length fun a => remOf xs (X.getD a 0) with hxdef
  set y := onFineY X.length fun b => remOf ys (Y.getD b 0) with hydef
  set dx := onFine X.length fun a => diffOf xs (X.getD a 0) with hdxdef
  set dy := onFineY X.length fun b => diffOf ys (Y.getD b 0) with hdydef
  obtain ⟨a, ha⟩ := acubic_ok (X.length * Y.length) dx dy
  obtain ⟨f, hf, hfr, hfc, hfa⟩ := cubic_product pow4 pow4 x y dx dy hPr ha
  obtain ⟨fx, hfx, -⟩ := cubic_product dpow4 pow4 x y dx dy hPr ha
  obtain ⟨fy, hfy, -⟩ := cubic_product pow4 dpow4 x y dx dy hPr ha
  refine ⟨f, fx, fy, ?_, hfr, hfc.trans hPc, fun v p q hp hq => ?_⟩
  · unfold cubicMatricesDeriv
    rw [hX, hY]
    simp only [Bool.and_self, if_true, hP]
    unfold cubicFrom
    simp only [bind, Except.bind, pure, Except.pure, ← hxdef, ← hydef, ← hdxdef, ← hdydef, ha, hf,
      hfx, hfy]
  · have hk : p + X.length * q < X.length * Y.length := idx_lt hp hq
    have e1 : x (p + X.length * q) = remOf xs (X.getD p 0) := by
      simp only [hxdef, onFine, SpMat.add_mul_mod' hp]
    have e2 : y (p + X.length * q) = remOf ys (Y.getD q 0) := by
      simp only [hydef, onFineY, SpMat.add_mul_div' hp]
    have e3 : dx (p + X.length * q) = diffOf xs (X.getD p 0) := by
      simp only [hdxdef, onFine, SpMat.add_mul_mod' hp]
    have e4 : dy (p + X.length * q) = diffOf ys (Y.getD q 0) := by
      simp only [hdydef, onFineY, SpMat.add_mul_div' hp]
    have hw : ∀ c di dj, c < 4 → di ≤ 1 → dj ≤ 1 → ∀ n, n = di + 2 * dj + 4 * c →
        P.mulVec v (p + X.length * q + X.length * Y.length * n) =
          blockScale s c * v (wrap per.1 xs.length (cellOf xs (X.getD p 0) + di) +
            freeLen per.1 xs.length * wrap per.2 ys.length (cellOf ys (Y.getD q 0) + dj) +
            freeLen per.1 xs.length * freeLen per.2 ys.length * c) := by
      intro c di dj hc hdi hdj n hn
      rw [hn]; exact hPa v p q c di dj hp hq hc hdi hdj
    rw [hfa v _ hk, e1, e2, e3, e4]
    rw [cubic_value _ _ _ _ (fun c => P.mulVec v (p + X.length * q + X.length * Y.length * c))]
    rw [hw 0 0 0 (by decide) (by decide) (by decide) 0 rfl, hw 0 1 0 (by decide) (by decide) (by decide) 1 rfl,
      hw 0 0 1 (by decide) (by decide) (by decide) 2 rfl, hw 0 1 1 (by decide) (by decide) (by decide) 3 rfl,
      hw 1 0 0 (by decide) (by decide) (by decide) 4 rfl, hw 1 1 0 (by decide) (by decide) (by decide) 5 rfl,
      hw 1 0 1 (by decide) (by decide) (by decide) 6 rfl, hw 1 1 1 (by decide) (by decide) (by decide) 7 rfl,
      hw 2 0 0 (by decide) (by decide) (by decide) 8 rfl, hw 2 1 0 (by decide) (by decide) (by decide) 9 rfl,
      hw 2 0 1 (by decide) (by decide) (by decide) 10 rfl, hw 2 1 1 (by decide) (by decide) (by decide) 11 rfl,
      hw 3 0 0 (by decide) (by decide) (by decide) 12 rfl, hw 3 1 0 (by decide) (by decide) (by decide) 13 rfl,
      hw 3 0 1 (by decide) (by decide) (by decide) 14 rfl, hw 3 1 1 (by decide) (by decide) (by decide) 15 rfl]
    rfl

theorem cubicMatricesDeriv_ok {X Y xs ys : List K} {per : Bool × Bool} {s : K × K × K}
    {m : SpMat K × SpMat K × SpMat K} (h : cubicMatricesDeriv X Y xs ys per s = .ok m) :
    fineInside X xs = true ∧ fineInside Y ys = true ∧ Enough per.1 xs.length ∧
      Enough per.2 ys.length := by
  unfold cubicMatricesDeriv at h
  split at h
  · rename_i hf
    rw [Bool.and_eq_true] at hf
    refine ⟨hf.1, hf.2, ?_⟩
    by_contra hc
    have he : ∃ e, phi2fiiDeriv X Y xs ys per s = .error e := by
      unfold phi2fiiDeriv
      rcases makeDmatrixQuad_error hc with h | h
      · simp only [h, bind, Except.bind]
        exact ⟨_, rfl⟩
      · cases hd : makeDmatrixQuad xs ys .x per with
        | error e =>
          simp only [bind, Except.bind]
          exact ⟨_, rfl⟩
        | ok d =>
          simp only [h, bind, Except.bind]
          exact ⟨_, rfl⟩
    obtain ⟨e, he⟩ := he
    rw [he] at h
    cases h
  · cases h

/-! ## The derivative matrix -/

theorem derivativeMatrix_act {xs ys : List K} (s : K × K × K) (hx : Increasing xs) (hy : Increasing ys)
    (nx : 3 ≤ xs.length) (ny : 3 ≤ ys.length) :
    ∃ D : SpMat K, derivativeMatrix xs ys s = .ok D ∧ D.rows = 4 * (xs.length * ys.length) ∧
      D.cols = xs.length * ys.length ∧
      ∀ v i j, i < xs.length → j < ys.length →
        D.mulVec v (i + xs.length * j) = s.1 * v (i + xs.length * j) ∧
        D.mulVec v (i + xs.length * j + xs.length * ys.length * 1) =
          s.2.1 * slope false xs (fun m => v (m + xs.length * j)) i ∧
        D.mulVec v (i + xs.length * j + xs.length * ys.length * 2) =
          s.2.1 * slope false ys (fun m => v (i + xs.length * m)) j ∧
        D.mulVec v (i + xs.length * j + xs.length * ys.length * 3) =
          s.2.2 * slope false xs (fun m => slope false ys (fun m' => v (m + xs.length * m')) j) i := by
  have enx : Enough (false, false).1 xs.length := by simpa [Enough] using nx
  have eny : Enough (false, false).2 ys.length := by simpa [Enough] using ny
  obtain ⟨Dx, hDx, hDxr, hDxc, hDxa⟩ := makeDmatrixQuad_x (per := (false, false)) (ys := ys) hx enx eny
  obtain ⟨Dy, hDy, hDyr, hDyc, hDya⟩ := makeDmatrixQuad_y (per := (false, false)) (xs := xs) hy enx eny
  simp only [freeLen, Bool.false_eq_true, if_false] at hDxr hDxa hDyr hDya
  obtain ⟨M, hM, hMr, hMc, hMa⟩ := SpMat.matmul_ok (A := Dx.scale s.2.2) (B := Dy)
    (show Dx.cols = Dy.rows by rw [hDxc, hDxr, hDyr])
  have hall : ∀ A ∈ [SpMat.scale s.1 (.eye (xs.length * ys.length)), Dx.scale s.2.1, Dy.scale s.2.1, M],
      A.rows = xs.length * ys.length ∧ A.cols = xs.length * ys.length := by
    intro A hA
    simp only [List.mem_cons, List.not_mem_nil, or_false] at hA
    rcases hA with rfl | rfl | rfl | rfl
    · exact ⟨rfl, rfl⟩
    · exact ⟨hDxr, hDxc.trans hDxr⟩
    · exact ⟨hDyr, hDyc.trans hDyr⟩
    · exact ⟨hMr.trans hDxr, hMc.trans (hDyc.trans hDyr)⟩
  refine ⟨_, (show derivativeMatrix xs ys s = .ok (SpMat.vstackList (xs.length * ys.length)
    [SpMat.scale s.1 (.eye (xs.length * ys.length)), Dx.scale s.2.1, Dy.scale s.2.1, M]) by
      unfold derivativeMatrix
      simp only [hDx, hDy, hM, bind, Except.bind, pure, Except.pure]), ?_, SpMat.vstackList_cols _ _, ?_⟩
  · rw [SpMat.vstackList_rows _ _ _ fun A hA => (hall A hA).1]
    simp; ring
  · intro v i j hi hj
    have hk := idx_lt hi hj
    have key := fun k (hk' : k < 4) => SpMat.vstackList_mulVec _ (fun A hA => (hall A hA).1)
      (fun A hA => (hall A hA).2) v hk k (by simpa using hk')
    refine ⟨?_, ?_, ?_, ?_⟩
    · have := key 0 (by decide)
      rw [Nat.mul_zero, Nat.add_zero] at this
      rw [this]
      simp only [List.getElem_cons_zero, SpMat.scale_mulVec]
      rw [SpMat.eye_mulVec hk]
    · rw [key 1 (by decide)]
      simp only [List.getElem_cons_succ, List.getElem_cons_zero, SpMat.scale_mulVec]
      rw [hDxa v i j hi hj]
    · rw [key 2 (by decide)]
      simp only [List.getElem_cons_succ, List.getElem_cons_zero, SpMat.scale_mulVec]
      rw [hDya v i j hi hj]
    · rw [key 3 (by decide)]
      simp only [List.getElem_cons_succ, List.getElem_cons_zero, hMa, SpMat.scale_mulVec]
      rw [hDxa _ i j hi hj]
      congr 1
      exact slope_congr enx (fun m hm => hDya v m j hm hj) hi

end

end Verif.Cubic
