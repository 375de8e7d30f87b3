import Verif.Cubic.InterpTable
import Mathlib.Tactic.IntervalCases

/-!
# Lemmas: the interpolation matrices evaluate the tensor product of the one-dimensional interpolations
-/

set_option linter.unusedVariables false
set_option linter.unusedSectionVars false
set_option linter.unusedSimpArgs false

namespace Verif.Cubic

open Finset

variable {K : Type*} [Field K] [LinearOrder K] [IsStrictOrderedRing K]

/-! ## Slopes -/

theorem slope_congr {per : Bool} {xs : List K} (hn : Enough per xs.length) {f g : Nat → K}
    (h : ∀ m < freeLen per xs.length, f m = g m) {i : Nat} (hi : i < freeLen per xs.length) :
    slope per xs f i = slope per xs g i := by
  cases per with
  | true =>
    simp only [freeLen, Enough, if_true] at hn h hi
    unfold slope
    simp only [if_true]
    rw [h i hi]
    have e1 : (if i = 0 then f (xs.length - 2) else f (i - 1))
        = if i = 0 then g (xs.length - 2) else g (i - 1) := by
      split
      · exact h _ (by omega)
      · exact h _ (by omega)
    have e2 : (if i + 1 = xs.length - 1 then f 0 else f (i + 1))
        = if i + 1 = xs.length - 1 then g 0 else g (i + 1) := by
      split
      · exact h _ (by omega)
      · exact h _ (by omega)
    rw [e1, e2]
  | false =>
    simp only [freeLen, Enough, if_false, Bool.false_eq_true] at hn h hi
    unfold slope
    simp only [if_false, Bool.false_eq_true]
    split
    · rw [h i hi, h (i - 1) (by omega), h (i - 2) (by omega)]
    · split
      · rw [h 0 (by omega), h 1 (by omega), h 2 (by omega)]
      · rw [h i hi, h (i - 1) (by omega), h (i + 1) (by omega)]

/-- Slopes are linear. -/
theorem slope_lin (per : Bool) (xs : List K) (A B C D : Nat → K) (a b c d : K) (i : Nat) :
    slope per xs (fun m => A m * a + B m * b + C m * c + D m * d) i =
      slope per xs A i * a + slope per xs B i * b + slope per xs C i * c + slope per xs D i * d := by
  unfold slope threePoint
  simp only []
  split
  · split <;> split <;> ring
  · split
    · ring
    · split <;> ring

theorem slope_hermite (per : Bool) (xs : List K) (h t : K) (A B C D : Nat → K) (i : Nat) :
    slope per xs (fun m => hermite h t (A m) (B m) (C m) (D m)) i =
      hermite h t (slope per xs A i) (slope per xs B i) (slope per xs C i) (slope per xs D i) := by
  unfold hermite
  exact slope_lin per xs A B C D _ _ _ _ i

theorem slope_hermiteD (per : Bool) (xs : List K) (h t : K) (A B C D : Nat → K) (i : Nat) :
    slope per xs (fun m => hermiteD h t (A m) (B m) (C m) (D m)) i =
      hermiteD h t (slope per xs A i) (slope per xs B i) (slope per xs C i) (slope per xs D i) := by
  unfold hermiteD
  exact slope_lin per xs A B C D _ _ _ _ i

/-! ## Cells -/

theorem cellOf_lt {xs : List K} (h : 2 ≤ xs.length) (x : K) : cellOf xs x + 1 < xs.length := by
  unfold cellOf; omega

theorem wrap_lt {per : Bool} {n i : Nat} (h : Enough per n) (hi : i < n) :
    wrap per n i < freeLen per n := by
  have := h.pos
  unfold wrap freeLen at *
  cases per
  · simpa using hi
  · simp only [true_and, if_true] at this ⊢
    split <;> omega

theorem bIdx_wrap {per : Bool} {n i : Nat} (hi : i < n) : bIdx per n i = wrap per n i := by
  unfold bIdx wrap
  cases per
  · simp
  · simp only [if_true, true_and]
    split <;> split <;> omega

/-! ## The matrices of `Phi2fii` -/

theorem periodicityMatrix_pull {nx ny : Nat} {per : Bool × Bool} (hx : Enough per.1 nx)
    (hy : Enough per.2 ny) :
    ∃ P : SpMat K, periodicityMatrix nx ny per = .ok P ∧
      Pull P (nx, ny) (freeLen per.1 nx, freeLen per.2 ny) (wrap per.1 nx) (wrap per.2 ny) := by
  obtain ⟨px, py⟩ := per
  simp only [] at hx hy ⊢
  have hx2 := hx.two
  have hy2 := hy.two
  have h0 : Pull (SpMat.eye (freeLen px nx * freeLen py ny) : SpMat K) (freeLen px nx, freeLen py ny)
      (freeLen px nx, freeLen py ny) (fun i => i) (fun j => j) := Pull.eye _ rfl
  -- first axis
  have h1 : ∃ M : SpMat K, appendLine px (nx, freeLen py ny) .x
        (.eye (freeLen px nx * freeLen py ny)) = .ok M ∧
      Pull M (nx, freeLen py ny) (freeLen px nx, freeLen py ny) (wrap px nx) (fun j => j) := by
    cases px with
    | false =>
      refine ⟨_, rfl, h0.congr (fun i hi => ?_) (fun j hj => rfl)⟩
      simp [wrap]
    | true =>
      obtain ⟨A, R, he, hA, hR⟩ := duplicate_x (K := K) (s := (nx, freeLen py ny)) hx2
      obtain ⟨C, hC, hCp⟩ := hA.comp h0
      refine ⟨C, ?_, hCp.congr (fun i hi => ?_) (fun j hj => rfl)⟩
      · simp only [appendLine, if_true, he]
        exact hC
      · simp only [wrap, true_and]
        simp only [] at hi ⊢
        split <;> split <;> omega
  obtain ⟨M, hM, hMp⟩ := h1
  have h2 : ∃ N : SpMat K, appendLine py (nx, ny) .y M = .ok N ∧
      Pull N (nx, ny) (freeLen px nx, freeLen py ny) (wrap px nx) (wrap py ny) := by
    cases py with
    | false =>
      refine ⟨_, rfl, hMp.congr (fun i hi => rfl) (fun j hj => ?_)⟩
      simp [wrap]
    | true =>
      obtain ⟨A, R, he, hA, hR⟩ := duplicate_y (K := K) (s := (nx, ny)) hy2
      obtain ⟨C, hC, hCp⟩ := hA.comp hMp
      refine ⟨C, ?_, hCp.congr (fun i hi => rfl) (fun j hj => ?_)⟩
      · simp only [appendLine, if_true, he]
        exact hC
      · simp only [wrap, true_and]
        simp only [] at hj ⊢
        split <;> split <;> omega
  obtain ⟨N, hN, hNp⟩ := h2
  refine ⟨N, ?_, hNp⟩
  unfold periodicityMatrix
  simp only [bind, Except.bind, hM, hN]

theorem cornerMatrix_act (X Y xs ys : List K) (hx : 2 ≤ xs.length) (hy : 2 ≤ ys.length) {di dj : Nat}
    (hdi : di ≤ 1) (hdj : dj ≤ 1) (v : Nat → K) {a b : Nat} (ha : a < X.length) (hb : b < Y.length) :
    (cornerMatrix X Y xs ys di dj).mulVec v (a + X.length * b) =
      v ((cellOf xs (X.getD a 0) + di) + xs.length * (cellOf ys (Y.getD b 0) + dj)) := by
  have hcol : ∀ x y, (cellOf xs x + di) + xs.length * (cellOf ys y + dj) < xs.length * ys.length := by
    intro x y
    have := cellOf_lt hx x
    have := cellOf_lt hy y
    exact idx_lt (by omega) (by omega)
  unfold cornerMatrix
  simp only [List.map_eq_flatMap]
  rw [coo_rowSum]
  · rw [rowSum_grid X.length Y.length (fun a b => [(a + X.length * b,
        (cellOf xs (X.getD a 0) + di) + xs.length * (cellOf ys (Y.getD b 0) + dj), (1 : K))]) _ v ha hb]
    · simp
    · intro i j hi hj t ht
      simp only [List.mem_singleton] at ht
      rw [ht]
  · intro t ht
    simp only [List.mem_flatMap, List.mem_range, List.mem_singleton] at ht
    obtain ⟨i, hi, j, hj, rfl⟩ := ht
    exact hcol _ _

/-- A block of `Phi2fii`: its sizes, and what it does at every fine point. -/
structure Blk (A : SpMat K) (nX nY M : Nat) (F : (Nat → K) → Nat → Nat → K) : Prop where
  rows : A.rows = nX * nY
  cols : A.cols = M
  act : ∀ v a b, a < nX → b < nY → A.mulVec v (a + nX * b) = F v a b

theorem Blk.mul {A B : SpMat K} {nX nY M M' : Nat} {F : (Nat → K) → Nat → Nat → K}
    (hA : Blk A nX nY M F) (hr : B.rows = M) (hc : B.cols = M') :
    ∃ C, A.matmul B = .ok C ∧ Blk C nX nY M' (fun v a b => F (B.mulVec v) a b) := by
  obtain ⟨C, hC, h1, h2, h3⟩ := SpMat.matmul_ok (hA.cols.trans hr.symm)
  exact ⟨C, hC, h1.trans hA.rows, h2.trans hc, fun v a b ha hb => by rw [h3, hA.act _ _ _ ha hb]⟩

theorem Blk.congr {A : SpMat K} {nX nY M : Nat} {F G : (Nat → K) → Nat → Nat → K}
    (hA : Blk A nX nY M F) (h : ∀ v a b, a < nX → b < nY → F v a b = G v a b) : Blk A nX nY M G :=
  ⟨hA.rows, hA.cols, fun v a b ha hb => (hA.act v a b ha hb).trans (h v a b ha hb)⟩

/-- The sixteen values at the corners of the cell `(p, q)`: block number `c`. -/
def cornerVal (xs ys : List K) (per : Bool × Bool) (v : Nat → K) (p q c : Nat) : K :=
  let g := fun i j => v (i + freeLen per.1 xs.length * j)
  let i := wrap per.1 xs.length (p + c % 2)
  let j := wrap per.2 ys.length (q + c / 2 % 2)
  match c / 4 with
  | 0 => g i j
  | 1 => slope per.1 xs (fun m => g m j) i
  | 2 => slope per.2 ys (fun m => g i m) j
  | _ => slope per.1 xs (fun m => slope per.2 ys (fun m' => g m m') j) i

theorem phi2fii_act {X Y xs ys : List K} {per : Bool × Bool} (hx : Increasing xs) (hy : Increasing ys)
    (hnx : Enough per.1 xs.length) (hny : Enough per.2 ys.length) :
    ∃ P : SpMat K, phi2fii X Y xs ys per = .ok P ∧ P.rows = 16 * (X.length * Y.length) ∧
      P.cols = freeLen per.1 xs.length * freeLen per.2 ys.length ∧
      ∀ v a b c, a < X.length → b < Y.length → c < 16 →
        P.mulVec v (a + X.length * b + X.length * Y.length * c) =
          cornerVal xs ys per v (cellOf xs (X.getD a 0)) (cellOf ys (Y.getD b 0)) c := by
  obtain ⟨Dx, hDx, hDxr, hDxc, hDxa⟩ := makeDmatrixQuad_x (ys := ys) hx hnx hny
  obtain ⟨Dy, hDy, hDyr, hDyc, hDya⟩ := makeDmatrixQuad_y (xs := xs) hy hnx hny
  obtain ⟨pm, hpm, hP⟩ := periodicityMatrix_pull (K := K) hnx hny
  have hx2 := hnx.two
  have hy2 := hny.two
  set nX := X.length
  set nY := Y.length
  set fx := freeLen per.1 xs.length
  set fy := freeLen per.2 ys.length
  have hwx : ∀ a d, d ≤ 1 → wrap per.1 xs.length (cellOf xs (X.getD a 0) + d) < fx := by
    intro a d hd
    have := cellOf_lt hx2 (X.getD a 0)
    exact wrap_lt hnx (by omega)
  have hwy : ∀ b d, d ≤ 1 → wrap per.2 ys.length (cellOf ys (Y.getD b 0) + d) < fy := by
    intro b d hd
    have := cellOf_lt hy2 (Y.getD b 0)
    exact wrap_lt hny (by omega)
  -- corners
  have hcorner : ∀ di dj, di ≤ 1 → dj ≤ 1 →
      ∃ C, (cornerMatrix X Y xs ys di dj).matmul pm = .ok C ∧
        Blk C nX nY (fx * fy) (fun v a b =>
          v (wrap per.1 xs.length (cellOf xs (X.getD a 0) + di) +
            fx * wrap per.2 ys.length (cellOf ys (Y.getD b 0) + dj))) := by
    intro di dj hdi hdj
    have hB : Blk (cornerMatrix X Y xs ys di dj) nX nY (xs.length * ys.length) (fun v a b =>
        v ((cellOf xs (X.getD a 0) + di) + xs.length * (cellOf ys (Y.getD b 0) + dj))) :=
      ⟨rfl, rfl, fun v a b ha hb => cornerMatrix_act X Y xs ys hx2 hy2 hdi hdj v ha hb⟩
    obtain ⟨C, hC, hCb⟩ := hB.mul hP.rows hP.cols
    refine ⟨C, hC, hCb.congr fun v a b ha hb => ?_⟩
    have h1 := cellOf_lt hx2 (X.getD a 0)
    have h2 := cellOf_lt hy2 (Y.getD b 0)
    exact hP.act v _ _ (by simp only []; omega) (by simp only []; omega)
  have hxd : ∀ di dj, di ≤ 1 → dj ≤ 1 → ∀ A : SpMat K, Blk A nX nY (fx * fy) (fun v a b =>
          v (wrap per.1 xs.length (cellOf xs (X.getD a 0) + di) +
            fx * wrap per.2 ys.length (cellOf ys (Y.getD b 0) + dj))) →
      ∃ C, A.matmul Dx = .ok C ∧ Blk C nX nY (fx * fy) (fun v a b =>
        slope per.1 xs (fun m => v (m + fx * wrap per.2 ys.length (cellOf ys (Y.getD b 0) + dj)))
          (wrap per.1 xs.length (cellOf xs (X.getD a 0) + di))) := by
    intro di dj hdi hdj A hA
    obtain ⟨C, hC, hCb⟩ := hA.mul hDxr (hDxc.trans hDxr)
    exact ⟨C, hC, hCb.congr fun v a b ha hb => hDxa v _ _ (hwx a di hdi) (hwy b dj hdj)⟩
  have hyd : ∀ di dj, di ≤ 1 → dj ≤ 1 → ∀ A : SpMat K, Blk A nX nY (fx * fy) (fun v a b =>
          v (wrap per.1 xs.length (cellOf xs (X.getD a 0) + di) +
            fx * wrap per.2 ys.length (cellOf ys (Y.getD b 0) + dj))) →
      ∃ C, A.matmul Dy = .ok C ∧ Blk C nX nY (fx * fy) (fun v a b =>
        slope per.2 ys (fun m => v (wrap per.1 xs.length (cellOf xs (X.getD a 0) + di) + fx * m))
          (wrap per.2 ys.length (cellOf ys (Y.getD b 0) + dj))) := by
    intro di dj hdi hdj A hA
    obtain ⟨C, hC, hCb⟩ := hA.mul hDyr (hDyc.trans hDyr)
    exact ⟨C, hC, hCb.congr fun v a b ha hb => hDya v _ _ (hwx a di hdi) (hwy b dj hdj)⟩
  have hxyd : ∀ di dj, di ≤ 1 → dj ≤ 1 → ∀ A : SpMat K, Blk A nX nY (fx * fy) (fun v a b =>
        slope per.1 xs (fun m => v (m + fx * wrap per.2 ys.length (cellOf ys (Y.getD b 0) + dj)))
          (wrap per.1 xs.length (cellOf xs (X.getD a 0) + di))) →
      ∃ C, A.matmul Dy = .ok C ∧ Blk C nX nY (fx * fy) (fun v a b =>
        slope per.1 xs (fun m => slope per.2 ys (fun m' => v (m + fx * m'))
            (wrap per.2 ys.length (cellOf ys (Y.getD b 0) + dj)))
          (wrap per.1 xs.length (cellOf xs (X.getD a 0) + di))) := by
    intro di dj hdi hdj A hA
    obtain ⟨C, hC, hCb⟩ := hA.mul hDyr (hDyc.trans hDyr)
    refine ⟨C, hC, hCb.congr fun v a b ha hb => ?_⟩
    exact slope_congr hnx (fun m hm => hDya v m _ hm (hwy b dj hdj)) (hwx a di hdi)
  obtain ⟨p00, e00, b00⟩ := hcorner 0 0 (by omega) (by omega)
  obtain ⟨p10, e10, b10⟩ := hcorner 1 0 (by omega) (by omega)
  obtain ⟨p01, e01, b01⟩ := hcorner 0 1 (by omega) (by omega)
  obtain ⟨p11, e11, b11⟩ := hcorner 1 1 (by omega) (by omega)
  obtain ⟨x00, ex00, bx00⟩ := hxd 0 0 (by omega) (by omega) _ b00
  obtain ⟨x10, ex10, bx10⟩ := hxd 1 0 (by omega) (by omega) _ b10
  obtain ⟨x01, ex01, bx01⟩ := hxd 0 1 (by omega) (by omega) _ b01
  obtain ⟨x11, ex11, bx11⟩ := hxd 1 1 (by omega) (by omega) _ b11
  obtain ⟨y00, ey00, by00⟩ := hyd 0 0 (by omega) (by omega) _ b00
  obtain ⟨y10, ey10, by10⟩ := hyd 1 0 (by omega) (by omega) _ b10
  obtain ⟨y01, ey01, by01⟩ := hyd 0 1 (by omega) (by omega) _ b01
  obtain ⟨y11, ey11, by11⟩ := hyd 1 1 (by omega) (by omega) _ b11
  obtain ⟨z00, ez00, bz00⟩ := hxyd 0 0 (by omega) (by omega) _ bx00
  obtain ⟨z10, ez10, bz10⟩ := hxyd 1 0 (by omega) (by omega) _ bx10
  obtain ⟨z01, ez01, bz01⟩ := hxyd 0 1 (by omega) (by omega) _ bx01
  obtain ⟨z11, ez11, bz11⟩ := hxyd 1 1 (by omega) (by omega) _ bx11
  have hall : ∀ A ∈ [p00, p10, p01, p11, x00, x10, x01, x11, y00, y10, y01, y11, z00, z10, z01, z11],
      A.rows = nX * nY ∧ A.cols = fx * fy := by
    intro A hA
    simp only [List.mem_cons, List.not_mem_nil, or_false] at hA
    rcases hA with rfl | rfl | rfl | rfl | rfl | rfl | rfl | rfl | rfl | rfl | rfl | rfl | rfl | rfl |
      rfl | rfl
    · exact ⟨b00.rows, b00.cols⟩
    · exact ⟨b10.rows, b10.cols⟩
    · exact ⟨b01.rows, b01.cols⟩
    · exact ⟨b11.rows, b11.cols⟩
    · exact ⟨bx00.rows, bx00.cols⟩
    · exact ⟨bx10.rows, bx10.cols⟩
    · exact ⟨bx01.rows, bx01.cols⟩
    · exact ⟨bx11.rows, bx11.cols⟩
    · exact ⟨by00.rows, by00.cols⟩
    · exact ⟨by10.rows, by10.cols⟩
    · exact ⟨by01.rows, by01.cols⟩
    · exact ⟨by11.rows, by11.cols⟩
    · exact ⟨bz00.rows, bz00.cols⟩
    · exact ⟨bz10.rows, bz10.cols⟩
    · exact ⟨bz01.rows, bz01.cols⟩
    · exact ⟨bz11.rows, bz11.cols⟩
  refine ⟨SpMat.vstackList pm.cols
    [p00, p10, p01, p11, x00, x10, x01, x11, y00, y10, y01, y11, z00, z10, z01, z11], ?_, ?_, ?_, ?_⟩
  · unfold phi2fii
    simp only [hDx, hDy, hpm, e00, e10, e01, e11, ex00, ex10, ex01, ex11, ey00, ey10, ey01, ey11,
      ez00, ez10, ez01, ez11, bind, Except.bind, pure, Except.pure]
  · rw [SpMat.vstackList_rows _ (nX * nY) _ fun A hA => (hall A hA).1]
    simp only [List.length_cons, List.length_nil]
    ring
  · rw [SpMat.vstackList_cols]; exact hP.cols
  · intro v a b c ha hb hc
    rw [SpMat.vstackList_mulVec _ (fun A hA => (hall A hA).1)
      (fun A hA => (hall A hA).2.trans hP.cols.symm) v (idx_lt ha hb) c (by simpa using hc)]
    unfold cornerVal
    interval_cases c
    · exact b00.act v a b ha hb
    · exact b10.act v a b ha hb
    · exact b01.act v a b ha hb
    · exact b11.act v a b ha hb
    · exact bx00.act v a b ha hb
    · exact bx10.act v a b ha hb
    · exact bx01.act v a b ha hb
    · exact bx11.act v a b ha hb
    · exact by00.act v a b ha hb
    · exact by10.act v a b ha hb
    · exact by01.act v a b ha hb
    · exact by11.act v a b ha hb
    · exact bz00.act v a b ha hb
    · exact bz10.act v a b ha hb
    · exact bz01.act v a b ha hb
    · exact bz11.act v a b ha hb

end Verif.Cubic
