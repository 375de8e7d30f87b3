import Verif.Cubic.HermiteSmooth

/-!
# C114: the structure of a Hermite parametrization
-/

set_option linter.unusedVariables false
set_option linter.unusedSectionVars false
set_option linter.unusedSimpArgs false

namespace Verif.Cubic

open Finset Set

/-! ## What the matrices are -/

section
variable {init : Init} {xs ys X Y : List ℝ} {sym per : Bool × Bool} {p : Nat × Nat} {lo hi scale : ℝ}
  {bds : Option (ℝ × ℝ)} {P : HermiteParam}

theorem derivativeMatrix_ok {s : ℝ × ℝ × ℝ} {D : SpMat ℝ} (h : derivativeMatrix xs ys s = .ok D) :
    3 ≤ xs.length ∧ 3 ≤ ys.length := by
  have key : Enough (false, false).1 xs.length ∧ Enough (false, false).2 ys.length := by
    by_contra hc
    unfold derivativeMatrix at h
    rcases makeDmatrixQuad_error hc with h' | h'
    · simp only [h', bind, Except.bind] at h
      cases h
    · cases hd : makeDmatrixQuad xs ys .x (false, false) with
      | error e => simp only [hd, bind, Except.bind] at h; cases h
      | ok d => simp only [hd, h', bind, Except.bind] at h; cases h
  simpa [Enough] using key

/-- Everything about a constructed object, for any geometry that exists. -/
theorem mkHermite_gen (hx : Increasing xs) (hy : Increasing ys)
    (ax : AxisOk xs.length sym.1 per.1 p.1 (unitHermite p sym).1)
    (ay : AxisOk ys.length sym.2 per.2 p.2 (unitHermite p sym).2)
    (hm : mkHermiteParam init xs ys X Y sym per p lo hi bds scale = .ok P) :
    (3 ≤ xs.length ∧ 3 ≤ ys.length) ∧ Enough per.1 xs.length ∧ Enough per.2 ys.length ∧
    makeGeometryMatrixHermite (xs.length, ys.length) sym per p = .ok (P.geometry, P.reverse) ∧
    derivativeMatrix xs ys (derivScaling scale (meanStep X)) = .ok P.derivative ∧
    hermiteInit P.geometry P.reverse P.derivative init = .ok P.vector ∧
    P.k = 4 ∧ P.lower = (bds.getD (lo, hi)).1 ∧ P.upper = (bds.getD (lo, hi)).2 ∧
    P.vec2f.rows = X.length * Y.length ∧ P.vec2f.cols = P.geometry.cols ∧
    ∀ v a b, a < X.length → b < Y.length → P.vec2f.mulVec v (a + X.length * b) =
      surfaceH xs ys per (fun i j => blk xs ys per (P.geometry.mulVec v) 0 i j)
        (fun i j => (scale * meanStep X)⁻¹ * blk xs ys per (P.geometry.mulVec v) 1 i j)
        (fun i j => (scale * meanStep X)⁻¹ * blk xs ys per (P.geometry.mulVec v) 2 i j)
        (fun i j => (scale ^ 2 * meanStep X ^ 2)⁻¹ * blk xs ys per (P.geometry.mulVec v) 3 i j)
        (X.getD a 0) (Y.getD b 0) := by
  obtain ⟨G, R, he, hG, hR⟩ := hermiteGeometry_pull (K := ℝ) xs.length ys.length sym per p
    (unitHermite p sym) ax ay
  simp only [mkHermiteParam, makeGeometryMatrixHermite, he, bind, Except.bind] at hm
  cases hd : derivativeMatrix xs ys (derivScaling scale (meanStep X)) with
  | error e => rw [hd] at hm; cases hm
  | ok D =>
    rw [hd] at hm
    simp only [] at hm
    cases hi' : hermiteInit G R D init with
    | error e => rw [hi'] at hm; cases hm
    | ok vec =>
      rw [hi'] at hm
      simp only [] at hm
      cases hc : cubicMatricesDeriv X Y xs ys per (derivScaling scale (meanStep X)) with
      | error e => rw [hc] at hm; cases hm
      | ok m =>
        obtain ⟨f, fx', fy'⟩ := m
        rw [hc] at hm
        simp only [] at hm
        obtain ⟨h1, h2, h3, h4⟩ := cubicMatricesDeriv_ok hc
        obtain ⟨f', fx'', fy'', hc', hfr, hfc, hfe⟩ := cubicMatricesDeriv_eval
          (derivScaling scale (meanStep X)) hx hy h3 h4 h1 h2
        rw [hc] at hc'
        cases hc'
        obtain ⟨C, hC, hCr, hCc, hCm⟩ := SpMat.matmul_ok (A := f) (B := G) (by
          rw [hfc, hG.rows]; rfl)
        rw [hC] at hm
        simp only [pure, Except.pure] at hm
        have hP := Except.ok.inj hm
        subst hP
        refine ⟨derivativeMatrix_ok hd, h3, h4, he, rfl, hi', rfl, ?_, ?_, hCr.trans hfr, hCc, ?_⟩
        · cases bds <;> rfl
        · cases bds <;> rfl
        · intro v a b ha hb
          change C.mulVec v _ = _
          rw [hCm, hfe _ a b ha hb]
          simp only [derivScaling, one_mul]

/-! ## Specification -/

/-- The options fit the grid of an axis (`Fits`), and an axis with a symmetry does not have a number
of periods of 1. -/
structure HFits (n : Nat) (sym : Bool) (p : Nat) : Prop where
  fits : Fits n sym p
  one : sym = true → p ≠ 1

/-- Block `c` of the parameters `v` on the whole coarse grid: 0 the values, 1 the derivatives along x,
2 along y, 3 the mixed ones.  Values are copied to the mirrored points; derivatives change their sign
along the axis that is mirrored. -/
noncomputable def nodal (n m : Nat) (sym : Bool × Bool) (p : Nat × Nat) (v : Nat → ℝ) (c i j : Nat) : ℝ :=
  (if c % 2 = 1 then dSign n sym.1 p.1 i else 1) * (if 2 ≤ c then dSign m sym.2 p.2 j else 1) *
    v (srcIdx n sym.1 p.1 i + freePoints n sym.1 p.1 * srcIdx m sym.2 p.2 j +
      freePoints n sym.1 p.1 * freePoints m sym.2 p.2 * c)

theorem nodal_wrap {n m : Nat} {sym : Bool × Bool} {p : Nat × Nat} (fx : Fits n sym.1 p.1)
    (fy : Fits m sym.2 p.2) (v : Nat → ℝ) (c : Nat) {i j : Nat} (hi : i < n) (hj : j < m) :
    nodal n m sym p v c (wrap (p.1 != 0) n i) (wrap (p.2 != 0) m j) = nodal n m sym p v c i j := by
  unfold nodal
  rw [srcIdx_wrap hi, srcIdx_wrap hj, dSign_wrap fx hi, dSign_wrap fy hj]

theorem nodal_wrap_x {n m : Nat} {sym : Bool × Bool} {p : Nat × Nat} (fx : Fits n sym.1 p.1)
    (v : Nat → ℝ) (c j : Nat) {i : Nat} (hi : i < n) :
    nodal n m sym p v c (wrap (p.1 != 0) n i) j = nodal n m sym p v c i j := by
  unfold nodal
  rw [srcIdx_wrap hi, dSign_wrap fx hi]

theorem nodal_wrap_y {n m : Nat} {sym : Bool × Bool} {p : Nat × Nat} (fy : Fits m sym.2 p.2)
    (v : Nat → ℝ) (c i : Nat) {j : Nat} (hj : j < m) :
    nodal n m sym p v c i (wrap (p.2 != 0) m j) = nodal n m sym p v c i j := by
  unfold nodal
  rw [srcIdx_wrap hj, dSign_wrap fy hj]

theorem nodal_mirror_x {n m : Nat} {sym : Bool × Bool} {p : Nat × Nat} (fx : Fits n sym.1 p.1)
    (hs : sym.1 = true) (v : Nat → ℝ) (c j : Nat) {i : Nat} (hi : i < n) :
    nodal n m sym p v c (n - 1 - i) j =
      (if c % 2 = 1 then -nodal n m sym p v c i j else nodal n m sym p v c i j) := by
  rw [hs] at fx
  unfold nodal
  rw [hs, srcIdx_mirror fx hi, dSign_mirror fx hi]
  split <;> ring

theorem nodal_mirror_y {n m : Nat} {sym : Bool × Bool} {p : Nat × Nat} (fy : Fits m sym.2 p.2)
    (hs : sym.2 = true) (v : Nat → ℝ) (c i : Nat) {j : Nat} (hj : j < m) :
    nodal n m sym p v c i (m - 1 - j) =
      (if 2 ≤ c then -nodal n m sym p v c i j else nodal n m sym p v c i j) := by
  rw [hs] at fy
  unfold nodal
  rw [hs, srcIdx_mirror fy hj, dSign_mirror fy hj]
  by_cases h2 : 2 ≤ c
  · simp only [h2, if_true]; ring
  · simp only [h2, if_false]

theorem nodal_repeat_x {n m : Nat} {sym : Bool × Bool} {p : Nat × Nat} (fx : Fits n sym.1 p.1)
    (hp : p.1 ≠ 0) (v : Nat → ℝ) (c j : Nat) {i : Nat} (hi : i + (n - 1) / p.1 < n) :
    nodal n m sym p v c (i + (n - 1) / p.1) j = nodal n m sym p v c i j := by
  unfold nodal
  rw [srcIdx_repeat fx hp hi, dSign_repeat hp]

theorem nodal_repeat_y {n m : Nat} {sym : Bool × Bool} {p : Nat × Nat} (fy : Fits m sym.2 p.2)
    (hp : p.2 ≠ 0) (v : Nat → ℝ) (c i : Nat) {j : Nat} (hj : j + (m - 1) / p.2 < m) :
    nodal n m sym p v c i (j + (m - 1) / p.2) = nodal n m sym p v c i j := by
  unfold nodal
  rw [srcIdx_repeat fy hp hj, dSign_repeat hp]

/-- The values and derivatives that the parameters stand for, as the interpolation uses them: the
parameters are derivatives per step `d`. -/
noncomputable def hSurface (xs ys : List ℝ) (sym : Bool × Bool) (p : Nat × Nat) (d : ℝ) (v : Nat → ℝ) (x y : ℝ) : ℝ :=
  surfaceH xs ys (p.1 != 0, p.2 != 0) (nodal xs.length ys.length sym p v 0)
    (fun i j => d⁻¹ * nodal xs.length ys.length sym p v 1 i j)
    (fun i j => d⁻¹ * nodal xs.length ys.length sym p v 2 i j)
    (fun i j => (d ^ 2)⁻¹ * nodal xs.length ys.length sym p v 3 i j) x y

theorem hermite_geometry_ok (ux : HFits xs.length sym.1 p.1) (uy : HFits ys.length sym.2 p.2) :
    ∃ G R : SpMat ℝ, makeGeometryMatrixHermite (xs.length, ys.length) sym (p.1 != 0, p.2 != 0) p = .ok (G, R) ∧
      G.rows = 4 * (bLen (p.1 != 0) xs.length * bLen (p.2 != 0) ys.length) ∧
      G.cols = 4 * (freePoints xs.length sym.1 p.1 * freePoints ys.length sym.2 p.2) ∧
      (∀ v c i j, c < 4 → i < freeLen (p.1 != 0) xs.length → j < freeLen (p.2 != 0) ys.length →
        blk xs ys (p.1 != 0, p.2 != 0) (G.mulVec v) c i j = nodal xs.length ys.length sym p v c i j) ∧
      R.rows = G.cols ∧ R.cols = 4 * (xs.length * ys.length) ∧
      (∀ v c i j, c < 4 → i < freePoints xs.length sym.1 p.1 → j < freePoints ys.length sym.2 p.2 →
        R.mulVec v (i + freePoints xs.length sym.1 p.1 * j +
            freePoints xs.length sym.1 p.1 * freePoints ys.length sym.2 p.2 * c) =
          sw sym (p.1 != 0, p.2 != 0)
            (uLen (p.1 != 0 && sym.1) (pLen p.1 (bLen (p.1 != 0) xs.length)))
            (uLen (p.2 != 0 && sym.2) (pLen p.2 (bLen (p.2 != 0) ys.length))) c i j *
          v (i + xs.length * j + xs.length * ys.length * c)) := by
  have fx := ux.fits
  have fy := uy.fits
  have hu : unitHermite p sym = unitCubic p sym := unitHermite_eq ux.one uy.one
  obtain ⟨G, R, he, hG, hR⟩ := hermiteGeometry_pull (K := ℝ) xs.length ys.length sym
    (p.1 != 0, p.2 != 0) p (unitCubic p sym) fx.ok fy.ok
  have rx : redLen xs.length sym.1 (p.1 != 0) p.1 (unitCubic p sym).1 = freePoints xs.length sym.1 p.1 :=
    redLen_eq
  have ry : redLen ys.length sym.2 (p.2 != 0) p.2 (unitCubic p sym).2 = freePoints ys.length sym.2 p.2 :=
    redLen_eq
  simp only [] at hG hR
  rw [rx, ry] at hG hR
  refine ⟨G, R, ?_, hG.rows, hG.cols, fun v c i j hc hi hj => ?_, ?_, hR.cols, fun v c i j hc hi hj => ?_⟩
  · unfold makeGeometryMatrixHermite
    rw [hu]; exact he
  · have := hG.act v c i j hc hi hj
    unfold blk
    refine Eq.trans this ?_
    have e1 : srcIdx xs.length sym.1 p.1 i
        = redIdx xs.length sym.1 (p.1 != 0) p.1 (unitCubic p sym).1 i := by
      unfold srcIdx
      rw [freeLen_bIdx hi]; rfl
    have e2 : srcIdx ys.length sym.2 p.2 j
        = redIdx ys.length sym.2 (p.2 != 0) p.2 (unitCubic p sym).2 j := by
      unfold srcIdx
      rw [freeLen_bIdx hj]; rfl
    unfold nodal sw
    rw [e1, e2, ← sg_eq fx hi, ← sg_eq fy hj]
    rfl
  · rw [hR.rows, hG.cols]
  · have := hR.act v c i j hc hi hj
    refine Eq.trans this ?_
    have e1 : posIdx xs.length sym.1 p.1 i = i := posIdx_eq fx (by rw [redLen_eq]; exact hi)
    have e2 : posIdx ys.length sym.2 p.2 j = j := posIdx_eq fy (by rw [redLen_eq]; exact hj)
    unfold posIdx at e1 e2
    rw [show (unitCubic p sym).1 = (p.1 != 0 && sym.1) from rfl,
      show (unitCubic p sym).2 = (p.2 != 0 && sym.2) from rfl]
    simp only []
    rw [e1, e2]

theorem hfits_axis (ux : HFits xs.length sym.1 p.1) (uy : HFits ys.length sym.2 p.2) :
    AxisOk xs.length sym.1 (p.1 != 0, p.2 != 0).1 p.1 (unitHermite p sym).1 ∧
    AxisOk ys.length sym.2 (p.1 != 0, p.2 != 0).2 p.2 (unitHermite p sym).2 := by
  rw [unitHermite_eq ux.one uy.one]
  exact ⟨ux.fits.ok, uy.fits.ok⟩

/-- Everything about a constructed object whose options fit. -/
theorem mkHermite_spec (hx : Increasing xs) (hy : Increasing ys)
    (ux : HFits xs.length sym.1 p.1) (uy : HFits ys.length sym.2 p.2)
    (hm : mkHermiteParam init xs ys X Y sym (p.1 != 0, p.2 != 0) p lo hi bds scale = .ok P) :
    Enough (p.1 != 0) xs.length ∧ Enough (p.2 != 0) ys.length ∧
    P.vec2f.rows = X.length * Y.length ∧
    P.vec2f.cols = 4 * (freePoints xs.length sym.1 p.1 * freePoints ys.length sym.2 p.2) ∧
    P.geometry.cols = P.vec2f.cols ∧
    ∀ v a b, a < X.length → b < Y.length → P.vec2f.mulVec v (a + X.length * b) =
      hSurface xs ys sym p (scale * meanStep X) v (X.getD a 0) (Y.getD b 0) := by
  obtain ⟨ax, ay⟩ := hfits_axis ux uy
  obtain ⟨_, enx, eny, hg, _, _, _, _, _, hr, hc, hl⟩ := mkHermite_gen hx hy ax ay hm
  obtain ⟨G, R, he, hGr, hGc, hGa, _⟩ := hermite_geometry_ok (xs := xs) (ys := ys) ux uy
  rw [he] at hg
  obtain ⟨rfl, rfl⟩ := Prod.mk.inj (Except.ok.inj hg)
  refine ⟨enx, eny, hr, hc.trans hGc, hc.symm, fun v a b ha hb => ?_⟩
  rw [hl v a b ha hb]
  unfold hSurface
  refine surfaceH_congr enx eny (fun i j hi hj => ?_) _ _
  rw [hGa v 0 i j (by decide) hi hj, hGa v 1 i j (by decide) hi hj, hGa v 2 i j (by decide) hi hj,
    hGa v 3 i j (by decide) hi hj, mul_pow]
  exact ⟨rfl, rfl, rfl, rfl⟩

theorem hermite_structure_spec {s : List ℝ} (h : P.getStructure = .ok s) :
    P.vec2f.cols = P.vector.length ∧ s.length = P.vec2f.rows ∧
      ∀ r < P.vec2f.rows, s.getD r 0 = sigmoid P.k (P.vec2f.mulVec (vals P.vector) r) := by
  unfold HermiteParam.getStructure at h
  split at h
  · cases h
  · rename_i z hz
    obtain ⟨h1, h2, h3⟩ := matVec_spec hz
    cases h
    refine ⟨h1, by simpa using h2, fun r hr => ?_⟩
    unfold vals
    rw [← h3 r hr, List.getD_eq_getElem _ _ (by simpa [h2] using hr),
      List.getD_eq_getElem _ _ (by simpa [h2] using hr)]
    simp

theorem hermite_structure_ok (h : P.vec2f.cols = P.vector.length) : ∃ s, P.getStructure = .ok s := by
  unfold HermiteParam.getStructure matVec
  rw [if_pos h]
  exact ⟨_, rfl⟩

/-- C114: a Hermite parametrization can be constructed whenever the coarse grid has three points or
more along each axis and fits the symmetry and the periods, the fine grid ends inside of it, and the
initial value is a number, a parameter vector (four numbers per independent point) or a grid of
values. -/
theorem hermite_param_exists (hx : Increasing xs) (hy : Increasing ys)
    (ux : HFits xs.length sym.1 p.1) (uy : HFits ys.length sym.2 p.2)
    (hnx : 3 ≤ xs.length) (hny : 3 ≤ ys.length)
    (hX : pyGet 0 xs 0 ≤ pyGet 0 X 0 ∧ pyGet 0 X (-1) ≤ pyGet 0 xs (-1))
    (hY : pyGet 0 ys 0 ≤ pyGet 0 Y 0 ∧ pyGet 0 Y (-1) ≤ pyGet 0 ys (-1))
    (hi' : ∀ l, init = .array l →
      l.length = 4 * (freePoints xs.length sym.1 p.1 * freePoints ys.length sym.2 p.2) ∨
      (l.length = xs.length * ys.length ∧
        l.length ≠ 4 * (bLen (p.1 != 0) xs.length * bLen (p.2 != 0) ys.length))) :
    ∃ P, mkHermiteParam init xs ys X Y sym (p.1 != 0, p.2 != 0) p lo hi bds scale = .ok P := by
  have enough : ∀ {n q : Nat}, 3 ≤ n → Enough (q != 0) n := by
    intro n q h
    unfold Enough
    by_cases h0 : q = 0
    · simpa [h0] using h
    · simp [h0]; omega
  have hin : fineInside X xs = true ∧ fineInside Y ys = true := by
    have := (interpolation_exists (X := X) (Y := Y) (per := (false, false)) hx hy).2
      ⟨⟨hX, hY⟩, by simpa using hnx, by simpa using hny⟩
    have := (cubicMatrices_ok_iff hx hy).1 this
    exact ⟨this.1, this.2.1⟩
  obtain ⟨G, R, he, hGr, hGc, hGa, hRr, hRc, hRa⟩ := hermite_geometry_ok (xs := xs) (ys := ys) ux uy
  obtain ⟨D, hD, hDr, hDc, _⟩ := derivativeMatrix_act (derivScaling scale (meanStep X)) hx hy hnx hny
  obtain ⟨f, fx', fy', hc, hfr, hfc, _⟩ := cubicMatricesDeriv_eval (per := (p.1 != 0, p.2 != 0))
    (derivScaling scale (meanStep X)) hx hy (enough hnx) (enough hny) hin.1 hin.2
  obtain ⟨M, hM, hMr, hMc, _⟩ := SpMat.matmul_ok (A := R) (B := D) (hRc.trans hDr.symm)
  obtain ⟨vec, hv⟩ : ∃ vec, hermiteInit G R D init = .ok vec := by
    cases init with
    | number c => exact ⟨_, rfl⟩
    | array l =>
      unfold hermiteInit
      simp only []
      split
      · exact ⟨_, rfl⟩
      · rename_i h
        rcases hi' l rfl with h' | ⟨h', h''⟩
        · exact absurd (h'.trans hGc.symm) h
        · rw [if_neg (by rw [hGr]; exact h''), if_pos (h'.trans hDc.symm), hM]
          simp only [matVec]
          rw [if_pos (by rw [hMc, hDc, h'])]
          exact ⟨_, rfl⟩
  obtain ⟨C, hC, _⟩ := SpMat.matmul_ok (A := f) (B := G) (by rw [hfc, hGr]; rfl)
  simp only [mkHermiteParam, he, bind, Except.bind, hD, hv, hc, hC, pure, Except.pure]
  exact ⟨_, rfl⟩

theorem hermite_structure_level (hx : Increasing xs) (hy : Increasing ys)
    (ux : HFits xs.length sym.1 p.1) (uy : HFits ys.length sym.2 p.2)
    (hm : mkHermiteParam init xs ys X Y sym (p.1 != 0, p.2 != 0) p lo hi bds scale = .ok P)
    {w s : List ℝ} {k : ℝ} {Q : HermiteParam} (hv : Q.vec2f = P.vec2f) (hw : Q.vector = w) (hk : Q.k = k)
    (hs : Q.getStructure = .ok s) {a b : Nat} (ha : a < X.length) (hb : b < Y.length) :
    gridVal X.length (vals s) a b =
      sigmoid k (hSurface xs ys sym p (scale * meanStep X) (vals w) (X.getD a 0) (Y.getD b 0)) := by
  obtain ⟨_, _, hr, _, _, hl⟩ := mkHermite_spec hx hy ux uy hm
  obtain ⟨h1, h2, h3⟩ := hermite_structure_spec hs
  unfold gridVal
  rw [← hl _ a b ha hb, ← hv, ← hw, ← hk]
  exact h3 _ (by
    rw [hv, hr]
    exact idx_lt ha hb)

/-- A Hermite parametrization with parameters `w` and sigmoid strength `k` (`from_vector` without
clipping, `set_k`). -/
def HermiteParam.at (P : HermiteParam) (w : List ℝ) (k : ℝ) : HermiteParam := { P with vector := w, k := k }

/-- C114: for every parameter vector and every strength of the sigmoid, the structure at a fine point
is the sigmoid of the Hermite polynomial of the coarse cell that contains it: cubic along x and along y,
with the values and derivatives at the four corners that the parameters stand for. -/
theorem hermite_structure_cell (hx : Increasing xs) (hy : Increasing ys)
    (ux : HFits xs.length sym.1 p.1) (uy : HFits ys.length sym.2 p.2)
    (hm : mkHermiteParam init xs ys X Y sym (p.1 != 0, p.2 != 0) p lo hi bds scale = .ok P)
    {w : List ℝ} (hw : w.length = 4 * (freePoints xs.length sym.1 p.1 * freePoints ys.length sym.2 p.2))
    (k : ℝ) :
    ∃ s, (P.at w k).getStructure = .ok s ∧ s.length = X.length * Y.length ∧
      ∀ a b, a < X.length → b < Y.length → ∀ i j, i + 1 < xs.length → j + 1 < ys.length →
        xs.getD i 0 ≤ X.getD a 0 → X.getD a 0 ≤ xs.getD (i + 1) 0 →
        ys.getD j 0 ≤ Y.getD b 0 → Y.getD b 0 ≤ ys.getD (j + 1) 0 →
        let F := nodal xs.length ys.length sym p (vals w)
        let d := scale * meanStep X
        let hX := xs.getD (i + 1) 0 - xs.getD i 0
        let hY := ys.getD (j + 1) 0 - ys.getD j 0
        let tx := X.getD a 0 - xs.getD i 0
        let ty := Y.getD b 0 - ys.getD j 0
        gridVal X.length (vals s) a b = sigmoid k (hermite hX tx
          (hermite hY ty (F 0 i j) (F 0 i (j + 1)) (F 2 i j / d) (F 2 i (j + 1) / d))
          (hermite hY ty (F 0 (i + 1) j) (F 0 (i + 1) (j + 1)) (F 2 (i + 1) j / d) (F 2 (i + 1) (j + 1) / d))
          (hermite hY ty (F 1 i j / d) (F 1 i (j + 1) / d) (F 3 i j / d ^ 2) (F 3 i (j + 1) / d ^ 2))
          (hermite hY ty (F 1 (i + 1) j / d) (F 1 (i + 1) (j + 1) / d) (F 3 (i + 1) j / d ^ 2)
            (F 3 (i + 1) (j + 1) / d ^ 2))) := by
  obtain ⟨enx, eny, hr, hc, _, _⟩ := mkHermite_spec hx hy ux uy hm
  obtain ⟨s, hs⟩ := hermite_structure_ok (P := P.at w k) (by
    change P.vec2f.cols = w.length
    rw [hc, hw])
  refine ⟨s, hs, (hermite_structure_spec hs).2.1.trans hr, ?_⟩
  intro a b ha hb i j hi hj h1 h2 h3 h4 F d hX hY tx ty
  rw [hermite_structure_level hx hy ux uy hm (w := w) (k := k) (Q := P.at w k) rfl rfl rfl hs ha hb]
  congr 1
  unfold hSurface surfaceH
  rw [(herm1_closed _ hx _ _ hi h1 h2).1]
  simp only [(herm1_closed _ hy _ _ hj h3 h4).1,
    nodal_wrap ux.fits uy.fits (vals w) _ (show i < xs.length by omega) (show j < ys.length by omega),
    nodal_wrap ux.fits uy.fits (vals w) _ (show i < xs.length by omega) (show j + 1 < ys.length by omega),
    nodal_wrap ux.fits uy.fits (vals w) _ (show i + 1 < xs.length by omega) (show j < ys.length by omega),
    nodal_wrap ux.fits uy.fits (vals w) _ (show i + 1 < xs.length by omega) (show j + 1 < ys.length by omega)]
  simp only [div_eq_inv_mul]
  rfl

/-- C114: the structure is the sigmoid of one surface on the region of the coarse grid that is
continuous, has continuous derivatives along x and y and a continuous mixed derivative, and takes the
values and derivatives of the parameters at the coarse points; `d` is the step that the derivatives
are measured in. -/
theorem hermite_surface (hx : Increasing xs) (hy : Increasing ys)
    (ux : HFits xs.length sym.1 p.1) (uy : HFits ys.length sym.2 p.2) (hd : scale * meanStep X ≠ 0)
    (hm : mkHermiteParam init xs ys X Y sym (p.1 != 0, p.2 != 0) p lo hi bds scale = .ok P)
    {w : List ℝ} (hw : w.length = 4 * (freePoints xs.length sym.1 p.1 * freePoints ys.length sym.2 p.2))
    (k : ℝ) :
    ∃ (s : List ℝ) (S Sx Sy Sxy : ℝ → ℝ → ℝ), (P.at w k).getStructure = .ok s ∧
      (∀ a b, a < X.length → b < Y.length →
        gridVal X.length (vals s) a b = sigmoid k (S (X.getD a 0) (Y.getD b 0))) ∧
      (∀ x y, Inside xs x → Inside ys y →
        HasDerivWithinAt (fun t => S t y) (Sx x y) {t | Inside xs t} x ∧
        HasDerivWithinAt (fun t => S x t) (Sy x y) {t | Inside ys t} y ∧
        HasDerivWithinAt (fun t => Sx x t) (Sxy x y) {t | Inside ys t} y) ∧
      ContinuousOn (fun q : ℝ × ℝ => S q.1 q.2) (region xs ys) ∧
      ContinuousOn (fun q : ℝ × ℝ => Sx q.1 q.2) (region xs ys) ∧
      ContinuousOn (fun q : ℝ × ℝ => Sy q.1 q.2) (region xs ys) ∧
      ContinuousOn (fun q : ℝ × ℝ => Sxy q.1 q.2) (region xs ys) ∧
      ∀ i j, i < xs.length → j < ys.length →
        S (xs.getD i 0) (ys.getD j 0) = nodal xs.length ys.length sym p (vals w) 0 i j ∧
        (scale * meanStep X) * Sx (xs.getD i 0) (ys.getD j 0)
          = nodal xs.length ys.length sym p (vals w) 1 i j ∧
        (scale * meanStep X) * Sy (xs.getD i 0) (ys.getD j 0)
          = nodal xs.length ys.length sym p (vals w) 2 i j ∧
        (scale * meanStep X) ^ 2 * Sxy (xs.getD i 0) (ys.getD j 0)
          = nodal xs.length ys.length sym p (vals w) 3 i j := by
  obtain ⟨enx, eny, hr, hc, _, _⟩ := mkHermite_spec hx hy ux uy hm
  obtain ⟨s, hs⟩ := hermite_structure_ok (P := P.at w k) (by
    change P.vec2f.cols = w.length
    rw [hc, hw])
  obtain ⟨k1, k2, k3, k4⟩ := surfaceH_continuous (per := (p.1 != 0, p.2 != 0)) hx hy enx eny
    (nodal xs.length ys.length sym p (vals w) 0)
    (fun i j => (scale * meanStep X)⁻¹ * nodal xs.length ys.length sym p (vals w) 1 i j)
    (fun i j => (scale * meanStep X)⁻¹ * nodal xs.length ys.length sym p (vals w) 2 i j)
    (fun i j => ((scale * meanStep X) ^ 2)⁻¹ * nodal xs.length ys.length sym p (vals w) 3 i j)
  refine ⟨s, _, _, _, _, hs, fun a b ha hb =>
    hermite_structure_level hx hy ux uy hm (w := w) (k := k) (Q := P.at w k) rfl rfl rfl hs ha hb,
    fun x y hix hiy => surfaceH_derivs hx hy enx.two eny.two _ _ _ _ hix hiy, k1, k2, k3, k4,
    fun i j hi hj => ?_⟩
  obtain ⟨n1, n2, n3, n4⟩ := surfaceH_nodes (per := (p.1 != 0, p.2 != 0)) hx hy enx.two eny.two
    (nodal xs.length ys.length sym p (vals w) 0)
    (fun i j => (scale * meanStep X)⁻¹ * nodal xs.length ys.length sym p (vals w) 1 i j)
    (fun i j => (scale * meanStep X)⁻¹ * nodal xs.length ys.length sym p (vals w) 2 i j)
    (fun i j => ((scale * meanStep X) ^ 2)⁻¹ * nodal xs.length ys.length sym p (vals w) 3 i j) hi hj
  have nw := fun c => nodal_wrap ux.fits uy.fits (vals w) c hi hj
  refine ⟨n1.trans (nw 0), ?_, ?_, ?_⟩
  · rw [n2, nw 1, mul_inv_cancel_left₀ hd]
  · rw [n3, nw 2, mul_inv_cancel_left₀ hd]
  · rw [n4, nw 3, mul_inv_cancel_left₀ (pow_ne_zero 2 hd)]

/-! ## Symmetry -/

/-- C114: for every parameter vector the structure is its own mirror image along the symmetric axes
and is periodic along the axes with periods. -/
theorem hermite_structure_symmetric (hx : Increasing xs) (hy : Increasing ys)
    (ux : HFits xs.length sym.1 p.1) (uy : HFits ys.length sym.2 p.2)
    (hm : mkHermiteParam init xs ys X Y sym (p.1 != 0, p.2 != 0) p lo hi bds scale = .ok P)
    {w s : List ℝ} {k : ℝ} (hs : (P.at w k).getStructure = .ok s) {a a' b b' : Nat}
    (ha : a < X.length) (ha' : a' < X.length) (hb : b < Y.length) (hb' : b' < Y.length)
    (iX : Inside xs (X.getD a 0)) (iX' : Inside xs (X.getD a' 0))
    (iY : Inside ys (Y.getD b 0)) (iY' : Inside ys (Y.getD b' 0)) :
    (sym.1 = true → ∀ c, Mirrored xs c → X.getD a' 0 = c - X.getD a 0 →
      gridVal X.length (vals s) a' b = gridVal X.length (vals s) a b) ∧
    (sym.2 = true → ∀ c, Mirrored ys c → Y.getD b' 0 = c - Y.getD b 0 →
      gridVal X.length (vals s) a b' = gridVal X.length (vals s) a b) ∧
    (p.1 ≠ 0 → ∀ T, Repeating xs ((xs.length - 1) / p.1) T → X.getD a' 0 = X.getD a 0 + T →
      gridVal X.length (vals s) a' b = gridVal X.length (vals s) a b) ∧
    (p.2 ≠ 0 → ∀ T, Repeating ys ((ys.length - 1) / p.2) T → Y.getD b' 0 = Y.getD b 0 + T →
      gridVal X.length (vals s) a b' = gridVal X.length (vals s) a b) := by
  obtain ⟨enx, eny, _⟩ := mkHermite_spec hx hy ux uy hm
  have fx := ux.fits
  have fy := uy.fits
  have per : ∀ {n q : Nat} {σ : Bool}, Fits n σ q → q ≠ 0 →
      0 < (n - 1) / q ∧ n - 1 = (n - 1) / q * q := by
    intro n q σ hf hq
    obtain ⟨h2, hmod⟩ := hf.per hq
    have hd := Nat.dvd_of_mod_eq_zero hmod
    exact ⟨Nat.div_pos (Nat.le_of_dvd (by omega) hd) (Nat.pos_of_ne_zero hq), (Nat.div_mul_cancel hd).symm⟩
  have lev := fun {a b : Nat} (ha : a < X.length) (hb : b < Y.length) =>
    hermite_structure_level hx hy ux uy hm (w := w) (k := k) (Q := P.at w k) rfl rfl rfl hs ha hb
  refine ⟨?_, ?_, ?_, ?_⟩
  · intro hs1 c hc hxa
    rw [lev ha' hb, lev ha hb, hxa]
    congr 1
    unfold hSurface surfaceH
    refine herm1_mirror hx enx.two hc (fun i hi => ?_) (fun i hi => ?_) iX
    · have e : ∀ c j, c % 2 = 0 → nodal xs.length ys.length sym p (vals w) c
          (wrap (p.1 != 0) xs.length (xs.length - 1 - i)) j
          = nodal xs.length ys.length sym p (vals w) c (wrap (p.1 != 0) xs.length i) j := by
        intro c j hc
        rw [nodal_wrap_x fx _ _ _ (by omega), nodal_wrap_x fx _ _ _ hi, nodal_mirror_x fx hs1 _ _ _ hi,
          if_neg (by omega)]
      refine (herm1_congr eny (fun j _ => e 0 j rfl) (fun j _ => ?_) _).1
      exact congrArg (fun z => (scale * meanStep X)⁻¹ * z) (e 2 j rfl)
    · have e : ∀ c j, c % 2 = 1 → nodal xs.length ys.length sym p (vals w) c
          (wrap (p.1 != 0) xs.length (xs.length - 1 - i)) j
          = -nodal xs.length ys.length sym p (vals w) c (wrap (p.1 != 0) xs.length i) j := by
        intro c j hc
        rw [nodal_wrap_x fx _ _ _ (by omega), nodal_wrap_x fx _ _ _ hi, nodal_mirror_x fx hs1 _ _ _ hi,
          if_pos hc]
      rw [← herm1_neg]
      refine (herm1_congr eny (fun j _ => ?_) (fun j _ => ?_) _).1
      · exact (congrArg (fun z => (scale * meanStep X)⁻¹ * z) (e 1 j rfl)).trans (mul_neg _ _)
      · exact (congrArg (fun z => ((scale * meanStep X) ^ 2)⁻¹ * z) (e 3 j rfl)).trans (mul_neg _ _)
  · intro hs1 c hc hyb
    rw [lev ha hb', lev ha hb, hyb]
    congr 1
    unfold hSurface surfaceH
    have e : ∀ c i j, j < ys.length → nodal xs.length ys.length sym p (vals w) c i
        (wrap (p.2 != 0) ys.length (ys.length - 1 - j))
        = if 2 ≤ c then -nodal xs.length ys.length sym p (vals w) c i (wrap (p.2 != 0) ys.length j)
          else nodal xs.length ys.length sym p (vals w) c i (wrap (p.2 != 0) ys.length j) := by
      intro c i j hj
      rw [nodal_wrap_y fy _ _ _ (by omega), nodal_wrap_y fy _ _ _ hj, nodal_mirror_y fy hs1 _ _ _ hj]
    refine (herm1_congr enx (fun i _ => ?_) (fun i _ => ?_) _).1
    · refine herm1_mirror hy eny.two hc (fun j hj => ?_) (fun j hj => ?_) iY
      · exact (e 0 i j hj).trans (if_neg (by decide))
      · exact (congrArg (fun z => (scale * meanStep X)⁻¹ * z) ((e 2 i j hj).trans (if_pos (by decide)))).trans (mul_neg _ _)
    · refine herm1_mirror hy eny.two hc (fun j hj => ?_) (fun j hj => ?_) iY
      · exact congrArg (fun z => (scale * meanStep X)⁻¹ * z) ((e 1 i j hj).trans (if_neg (by decide)))
      · exact (congrArg (fun z => ((scale * meanStep X) ^ 2)⁻¹ * z) ((e 3 i j hj).trans (if_pos (by decide)))).trans (mul_neg _ _)
  · intro hp T hT hxa
    rw [lev ha' hb, lev ha hb, hxa]
    congr 1
    obtain ⟨h1, h2⟩ := per fx hp
    have hb1 : (p.1 != 0) = true := by simpa using hp
    rw [hxa] at iX'
    have e : ∀ c i j, i + (xs.length - 1) / p.1 < xs.length →
        nodal xs.length ys.length sym p (vals w) c (wrap true xs.length (i + (xs.length - 1) / p.1)) j
          = nodal xs.length ys.length sym p (vals w) c (wrap true xs.length i) j := by
      intro c i j hi
      have e1 := nodal_wrap_x (m := ys.length) fx (vals w) c j hi
      have e2 := nodal_wrap_x (m := ys.length) fx (vals w) c j
        (show i < xs.length from Nat.lt_of_le_of_lt (Nat.le_add_right i _) hi)
      rw [hb1] at e1 e2
      rw [e1, e2, nodal_repeat_x fx hp _ _ _ hi]
    unfold hSurface surfaceH
    simp only []
    rw [hb1]
    refine herm1_shift hx enx.two h1 h2 hT (fun i hi => ?_) (fun i hi => ?_) iX iX'
    · refine (herm1_congr eny (fun j _ => e 0 i j hi) (fun j _ => ?_) _).1
      exact congrArg (fun z => (scale * meanStep X)⁻¹ * z) (e 2 i j hi)
    · refine (herm1_congr eny (fun j _ => ?_) (fun j _ => ?_) _).1
      · exact congrArg (fun z => (scale * meanStep X)⁻¹ * z) (e 1 i j hi)
      · exact congrArg (fun z => ((scale * meanStep X) ^ 2)⁻¹ * z) (e 3 i j hi)
  · intro hp T hT hyb
    rw [lev ha hb', lev ha hb, hyb]
    congr 1
    obtain ⟨h1, h2⟩ := per fy hp
    have hb1 : (p.2 != 0) = true := by simpa using hp
    rw [hyb] at iY'
    have e : ∀ c i j, j + (ys.length - 1) / p.2 < ys.length →
        nodal xs.length ys.length sym p (vals w) c i (wrap true ys.length (j + (ys.length - 1) / p.2))
          = nodal xs.length ys.length sym p (vals w) c i (wrap true ys.length j) := by
      intro c i j hj
      have e1 := nodal_wrap_y (n := xs.length) fy (vals w) c i hj
      have e2 := nodal_wrap_y (n := xs.length) fy (vals w) c i
        (show j < ys.length from Nat.lt_of_le_of_lt (Nat.le_add_right j _) hj)
      rw [hb1] at e1 e2
      rw [e1, e2, nodal_repeat_y fy hp _ _ _ hj]
    unfold hSurface surfaceH
    refine (herm1_congr enx (fun i _ => ?_) (fun i _ => ?_) _).1
    · simp only []
      rw [hb1]
      exact herm1_shift hy eny.two h1 h2 hT (fun j hj => e 0 i j hj)
        (fun j hj => congrArg (fun z => (scale * meanStep X)⁻¹ * z) (e 2 i j hj)) iY iY'
    · simp only []
      rw [hb1]
      exact herm1_shift hy eny.two h1 h2 hT (fun j hj => congrArg (fun z => (scale * meanStep X)⁻¹ * z) (e 1 i j hj))
        (fun j hj => congrArg (fun z => ((scale * meanStep X) ^ 2)⁻¹ * z) (e 3 i j hj)) iY iY'

end

end Verif.Cubic
