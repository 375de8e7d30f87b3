import Verif.Cubic.Param
import Verif.Cubic.InterpSym
import Mathlib.Analysis.Calculus.Deriv.Inv
import Mathlib.Analysis.SpecialFunctions.ExpDeriv

/-!
# C84: the structure of a cubic parametrization
-/

set_option linter.unusedVariables false
set_option linter.unusedSectionVars false
set_option linter.unusedSimpArgs false

namespace Verif.Cubic

open Finset

/-! ## What the structure is -/

open Classical in
/-- What is done to the interpolated value: nothing for `k = 0`. -/
noncomputable def shaped (k z : ℝ) : ℝ := if k ≠ 0 then sigmoid k z else z

theorem matVec_spec {A : SpMat ℝ} {v s : List ℝ} (h : matVec A v = .ok s) :
    A.cols = v.length ∧ s.length = A.rows ∧
      ∀ r < A.rows, s.getD r 0 = A.mulVec (fun j => v.getD j 0) r := by
  unfold matVec at h
  split at h
  · rename_i hc
    cases h
    refine ⟨hc, by simp, fun r hr => ?_⟩
    rw [List.getD_eq_getElem _ _ (by simpa using hr)]
    simp
  · cases h

theorem getStructure_spec {P : CubicParam} {s : List ℝ} (h : P.getStructure = .ok s) :
    P.vec2f.cols = P.vector.length ∧ s.length = P.vec2f.rows ∧
      ∀ r < P.vec2f.rows, s.getD r 0 = shaped P.k (P.vec2f.mulVec (fun j => P.vector.getD j 0) r) := by
  unfold CubicParam.getStructure at h
  split at h
  · cases h
  · rename_i z hz
    obtain ⟨h1, h2, h3⟩ := matVec_spec hz
    cases h
    unfold shaped
    split
    · refine ⟨h1, by simpa using h2, fun r hr => ?_⟩
      rw [← h3 r hr, List.getD_eq_getElem _ _ (by simpa [h2] using hr),
        List.getD_eq_getElem _ _ (by simpa [h2] using hr)]
      simp
    · exact ⟨h1, h2, h3⟩

theorem getStructure_ok {P : CubicParam} (h : P.vec2f.cols = P.vector.length) :
    ∃ s, P.getStructure = .ok s := by
  unfold CubicParam.getStructure matVec
  rw [if_pos h]
  exact ⟨_, rfl⟩

theorem srcIdx_wrap {n p i : Nat} {σ : Bool} (hi : i < n) :
    srcIdx n σ p (wrap (p != 0) n i) = srcIdx n σ p i := by
  unfold srcIdx
  rw [← bIdx_wrap hi]
  congr 1
  unfold bIdx
  split
  · split
    · rfl
    · split <;> rfl
  · rfl

theorem freeLen_bIdx {n p i : Nat} (hi : i < freeLen (p != 0) n) : bIdx (p != 0) n i = i := by
  unfold freeLen at hi
  unfold bIdx
  split
  · rename_i h; rw [if_pos h] at hi; rw [if_pos hi]
  · rfl

theorem srcIdx_lt {n p : Nat} {σ : Bool} (h : Fits n σ p) {i : Nat} (hi : i < n) :
    srcIdx n σ p i < freePoints n σ p := by
  by_cases hp : p = 0
  · subst hp
    rw [srcIdx_zero]
    cases σ
    · exact hi
    · simp only [sIdx, if_true, fold, freePoints]
      split <;> omega
  · obtain ⟨h2, hm⟩ := h.per hp
    have hL : 0 < (n - 1) / p :=
      Nat.div_pos (Nat.le_of_dvd (by omega) (Nat.dvd_of_mod_eq_zero hm)) (Nat.pos_of_ne_zero hp)
    have hmod := Nat.mod_lt i hL
    rw [srcIdx_per h hp hi]
    obtain ⟨p, rfl⟩ : ∃ q, p = q + 1 := ⟨p - 1, by omega⟩
    cases σ
    · simpa [freePoints] using hmod
    · simp only [if_true, fold, freePoints]
      split <;> omega

theorem freePoints_le {n p : Nat} {σ : Bool} (h : Fits n σ p) : freePoints n σ p ≤ n := by
  rcases Nat.eq_zero_or_pos p with hp | hp
  · subst hp
    have := h.pos
    cases σ <;> simp only [freePoints] <;> omega
  · obtain ⟨h2, hm⟩ := h.per (by omega)
    have hle : (n - 1) / p ≤ n - 1 := Nat.div_le_self _ _
    obtain ⟨p, rfl⟩ : ∃ q, p = q + 1 := ⟨p - 1, by omega⟩
    cases σ <;> simp only [freePoints] <;> omega

/-- The interpolated value at `(x, y)` for the parameters `v`. -/
noncomputable def level (xs ys : List ℝ) (sym : Bool × Bool) (p : Nat × Nat) (v : Nat → ℝ) (x y : ℝ) : ℝ :=
  interp (p.1 != 0) xs (fun i => interp (p.2 != 0) ys (fun j =>
    v (srcIdx xs.length sym.1 p.1 i + freePoints xs.length sym.1 p.1 * srcIdx ys.length sym.2 p.2 j)) y) x

section
variable {init : Init} {xs ys X Y : List ℝ} {sym : Bool × Bool} {p : Nat × Nat} {lo hi : ℝ}
  {bds : Option (ℝ × ℝ)} {P : CubicParam}

theorem mkCubicParam_spec (hx : Increasing xs) (hy : Increasing ys)
    (fx : Fits xs.length sym.1 p.1) (fy : Fits ys.length sym.2 p.2)
    (hm : mkCubicParam init xs ys X Y sym (p.1 != 0, p.2 != 0) p lo hi bds = .ok P) :
    Enough (p.1 != 0) xs.length ∧ Enough (p.2 != 0) ys.length ∧
    P.vec2f.rows = X.length * Y.length ∧
    P.vec2f.cols = freePoints xs.length sym.1 p.1 * freePoints ys.length sym.2 p.2 ∧
    (∀ v a b, a < X.length → b < Y.length → P.vec2f.mulVec v (a + X.length * b) =
      level xs ys sym p v (X.getD a 0) (Y.getD b 0)) ∧
    P.k = 4 ∧ P.lower = (bds.getD (lo, hi)).1 ∧ P.upper = (bds.getD (lo, hi)).2 ∧
    P.reverse.rows = freePoints xs.length sym.1 p.1 * freePoints ys.length sym.2 p.2 ∧
    P.reverse.cols = xs.length * ys.length ∧
    (∀ v i j, i < freePoints xs.length sym.1 p.1 → j < freePoints ys.length sym.2 p.2 →
      P.reverse.mulVec v (i + freePoints xs.length sym.1 p.1 * j) = v (i + xs.length * j)) ∧
    initVector P.geometry P.reverse init = .ok P.vector ∧ P.geometry.cols = P.vec2f.cols := by
  obtain ⟨G, R, he, hG, hR⟩ := geometryMatrices_pull (K := ℝ) xs.length ys.length sym
    (p.1 != 0, p.2 != 0) p (unitCubic p sym) false fx.ok fy.ok
  have rx : redLen xs.length sym.1 (p.1 != 0) p.1 (unitCubic p sym).1 = freePoints xs.length sym.1 p.1 :=
    redLen_eq
  have ry : redLen ys.length sym.2 (p.2 != 0) p.2 (unitCubic p sym).2 = freePoints ys.length sym.2 p.2 :=
    redLen_eq
  simp only [Bool.false_eq_true, if_false] at hG
  simp only [mkCubicParam, makeGeometryMatrixCubic, he, bind, Except.bind] at hm
  cases hi' : initVector G R init with
  | error e => rw [hi'] at hm; cases hm
  | ok vec =>
    rw [hi'] at hm
    simp only [] at hm
    cases hc : cubicMatrices X Y xs ys (p.1 != 0, p.2 != 0) with
    | error e => rw [hc] at hm; cases hm
    | ok m =>
      obtain ⟨f, fx', fy'⟩ := m
      rw [hc] at hm
      simp only [] at hm
      obtain ⟨h1, h2, h3, h4⟩ := (cubicMatrices_ok_iff hx hy).1 ⟨_, hc⟩
      obtain ⟨f', fx'', fy'', hc', hfr, hfc, hfe⟩ := cubicMatrices_eval hx hy h3 h4 h1 h2
      rw [hc] at hc'
      cases hc'
      obtain ⟨C, hC, hCr, hCc, hCm⟩ := SpMat.matmul_ok (A := f) (B := G) (hfc.trans hG.rows.symm)
      rw [hC] at hm
      simp only [pure, Except.pure] at hm
      have hP := Except.ok.inj hm
      subst hP
      refine ⟨h3, h4, hCr.trans hfr, ?_, ?_, rfl, ?_, ?_, ?_, hR.cols, ?_, hi', hCc.symm⟩
      · change C.cols = _
        rw [hCc, hG.cols, ← rx, ← ry]
      · intro v a b ha hb
        change C.mulVec v _ = _
        rw [hCm, (hfe _ a b ha hb).1]
        unfold level
        refine (interp_congr h3 (fun i hi => (interp_congr h4 (fun j hj => ?_) _).1) _).1
        have := hG.act v i j hi hj
        simp only [bLen] at this
        refine Eq.trans this ?_
        rw [rx]
        have e1 : srcIdx xs.length sym.1 p.1 i
            = redIdx xs.length sym.1 (p.1 != 0) p.1 (unitCubic p sym).1 i := by
          unfold srcIdx
          rw [freeLen_bIdx hi]; rfl
        have e2 : srcIdx ys.length sym.2 p.2 j
            = redIdx ys.length sym.2 (p.2 != 0) p.2 (unitCubic p sym).2 j := by
          unfold srcIdx
          rw [freeLen_bIdx hj]; rfl
        rw [e1, e2]
      · cases bds <;> rfl
      · cases bds <;> rfl
      · change R.rows = _
        rw [hR.rows, ← rx, ← ry]
      · intro v i j hi hj
        have := hR.act v i j (by rw [rx]; exact hi) (by rw [ry]; exact hj)
        simp only [] at this
        rw [rx] at this
        refine Eq.trans this ?_
        have e1 : posIdx xs.length sym.1 p.1 i = i := posIdx_eq fx (by rw [redLen_eq]; exact hi)
        have e2 : posIdx ys.length sym.2 p.2 j = j := posIdx_eq fy (by rw [redLen_eq]; exact hj)
        unfold posIdx at e1 e2
        change v (bIdx (p.1 != 0 && sym.1) _ i + _ * bIdx (p.2 != 0 && sym.2) _ j) = _
        rw [show (unitCubic p sym).1 = (p.1 != 0 && sym.1) from rfl,
          show (unitCubic p sym).2 = (p.2 != 0 && sym.2) from rfl, e1, e2]

/-- C84: a cubic parametrization can be constructed whenever the coarse grid has enough points and
fits the symmetry and the periods, the fine grid ends inside of it, and the initial value is a
number, a parameter vector or a whole grid of values. -/
theorem cubic_param_exists (hx : Increasing xs) (hy : Increasing ys)
    (fx : Fits xs.length sym.1 p.1) (fy : Fits ys.length sym.2 p.2)
    (hnx : if p.1 = 0 then 3 ≤ xs.length else 2 ≤ xs.length)
    (hny : if p.2 = 0 then 3 ≤ ys.length else 2 ≤ ys.length)
    (hX : pyGet 0 xs 0 ≤ pyGet 0 X 0 ∧ pyGet 0 X (-1) ≤ pyGet 0 xs (-1))
    (hY : pyGet 0 ys 0 ≤ pyGet 0 Y 0 ∧ pyGet 0 Y (-1) ≤ pyGet 0 ys (-1))
    (hi' : ∀ l, init = .array l → l.length = xs.length * ys.length ∨
      l.length = freePoints xs.length sym.1 p.1 * freePoints ys.length sym.2 p.2) :
    ∃ P, mkCubicParam init xs ys X Y sym (p.1 != 0, p.2 != 0) p lo hi bds = .ok P := by
  obtain ⟨G, R, he, hG, hR⟩ := geometryMatrices_pull (K := ℝ) xs.length ys.length sym
    (p.1 != 0, p.2 != 0) p (unitCubic p sym) false fx.ok fy.ok
  have rx : redLen xs.length sym.1 (p.1 != 0) p.1 (unitCubic p sym).1 = freePoints xs.length sym.1 p.1 :=
    redLen_eq
  have ry : redLen ys.length sym.2 (p.2 != 0) p.2 (unitCubic p sym).2 = freePoints ys.length sym.2 p.2 :=
    redLen_eq
  have enough : ∀ {n q : Nat}, (if q = 0 then 3 ≤ n else 2 ≤ n) → Enough (q != 0) n := by
    intro n q h
    unfold Enough
    by_cases h0 : q = 0
    · simpa [h0] using h
    · rw [if_neg h0] at h
      simpa [h0] using h
  have hin : fineInside X xs = true ∧ fineInside Y ys = true := by
    have := (interpolation_exists (X := X) (Y := Y) (per := (p.1 != 0, p.2 != 0)) hx hy).2
      ⟨⟨hX, hY⟩, by simpa [Enough] using enough hnx, by simpa [Enough] using enough hny⟩
    have := (cubicMatrices_ok_iff hx hy).1 this
    exact ⟨this.1, this.2.1⟩
  obtain ⟨f, fx', fy', hc, hfr, hfc, _⟩ := cubicMatrices_eval (per := (p.1 != 0, p.2 != 0)) hx hy
    (enough hnx) (enough hny) hin.1 hin.2
  obtain ⟨vec, hv⟩ : ∃ vec, initVector G R init = .ok vec := by
    cases init with
    | number c => exact ⟨_, rfl⟩
    | array l =>
      unfold initVector
      simp only []
      split
      · exact ⟨_, rfl⟩
      · rename_i h
        have hl : l.length = R.cols := by
          rw [hR.cols]
          rcases hi' l rfl with h' | h'
          · exact h'
          · exfalso; apply h; rw [h', hR.rows, ← rx, ← ry]
        rw [if_pos hl]
        unfold matVec
        rw [if_pos hl.symm]
        exact ⟨_, rfl⟩
  have hrows : f.cols = G.rows := by
    rw [hfc, hG.rows]; rfl
  obtain ⟨C, hC, _⟩ := SpMat.matmul_ok (A := f) (B := G) hrows
  simp only [mkCubicParam, makeGeometryMatrixCubic, he, bind, Except.bind, hv, hc, hC, pure, Except.pure]
  exact ⟨_, rfl⟩

/-- The parameters as a function. -/
def vals (w : List ℝ) (j : Nat) : ℝ := w.getD j 0

theorem structure_level (hx : Increasing xs) (hy : Increasing ys)
    (fx : Fits xs.length sym.1 p.1) (fy : Fits ys.length sym.2 p.2)
    (hm : mkCubicParam init xs ys X Y sym (p.1 != 0, p.2 != 0) p lo hi bds = .ok P)
    {w s : List ℝ} {k : ℝ} (hs : ((P.decode w).setK k).getStructure = .ok s) {a b : Nat}
    (ha : a < X.length) (hb : b < Y.length) :
    gridVal X.length (vals s) a b = shaped k (level xs ys sym p (vals w) (X.getD a 0) (Y.getD b 0)) := by
  obtain ⟨_, _, hr, _, hl, _⟩ := mkCubicParam_spec hx hy fx fy hm
  obtain ⟨h1, h2, h3⟩ := getStructure_spec hs
  unfold gridVal
  rw [← hl _ a b ha hb]
  exact h3 _ (by
    change _ < P.vec2f.rows
    rw [hr]
    exact idx_lt ha hb)

/-! ## Symmetry of the structure -/

/-- C84: for every parameter vector and every strength of the sigmoid, the structure on the fine grid
is its own mirror image along the symmetric axes (at fine points that are mirror images of each
other, for coarse coordinates that are) and is periodic along the axes with periods (at fine points
that are a period apart, for coarse coordinates that repeat). -/
theorem structure_symmetric (hx : Increasing xs) (hy : Increasing ys)
    (fx : Fits xs.length sym.1 p.1) (fy : Fits ys.length sym.2 p.2)
    (hm : mkCubicParam init xs ys X Y sym (p.1 != 0, p.2 != 0) p lo hi bds = .ok P)
    {w s : List ℝ} {k : ℝ} (hs : ((P.decode w).setK k).getStructure = .ok s) {a a' b b' : Nat}
    (ha : a < X.length) (ha' : a' < X.length) (hb : b < Y.length) (hb' : b' < Y.length)
    (iX : Inside xs (X.getD a 0)) (iX' : Inside xs (X.getD a' 0))
    (iY : Inside ys (Y.getD b 0)) (iY' : Inside ys (Y.getD b' 0)) :
    (sym.1 = true → ∀ c, Mirrored xs c → X.getD a' 0 = c - X.getD a 0 →
      gridVal X.length (vals s) a' b = gridVal X.length (vals s) a b) ∧
    (sym.2 = true → ∀ c, Mirrored ys c → Y.getD b' 0 = c - Y.getD b 0 →
      gridVal X.length (vals s) a b' = gridVal X.length (vals s) a b) ∧
    (p.1 ≠ 0 → ∀ T, Repeating xs ((xs.length - 1) / p.1) T → X.getD a' 0 = X.getD a 0 + T →
      gridVal X.length (vals s) a' b = gridVal X.length (vals s) a b) ∧
    (p.2 ≠ 0 → ∀ T, Repeating ys ((ys.length - 1) / p.2) T → Y.getD b' 0 = Y.getD b 0 + T →
      gridVal X.length (vals s) a b' = gridVal X.length (vals s) a b) := by
  obtain ⟨enx, eny, _⟩ := mkCubicParam_spec hx hy fx fy hm
  have per : ∀ {n q : Nat} {σ : Bool}, Fits n σ q → q ≠ 0 →
      0 < (n - 1) / q ∧ n - 1 = (n - 1) / q * q := by
    intro n q σ hf hq
    obtain ⟨h2, hmod⟩ := hf.per hq
    have hd := Nat.dvd_of_mod_eq_zero hmod
    exact ⟨Nat.div_pos (Nat.le_of_dvd (by omega) hd) (Nat.pos_of_ne_zero hq), (Nat.div_mul_cancel hd).symm⟩
  refine ⟨?_, ?_, ?_, ?_⟩
  · intro hs1 c hc hxa
    rw [structure_level hx hy fx fy hm hs ha' hb, structure_level hx hy fx fy hm hs ha hb, hxa]
    congr 1
    unfold level
    refine interp_mirror hx enx hc (fun i hi => ?_) iX
    rw [hs1] at fx ⊢
    rw [srcIdx_wrap (by omega), srcIdx_wrap hi, srcIdx_mirror fx hi]
  · intro hs1 c hc hyb
    rw [structure_level hx hy fx fy hm hs ha hb', structure_level hx hy fx fy hm hs ha hb, hyb]
    congr 1
    unfold level
    refine (interp_congr enx (fun i _ => ?_) _).1
    refine interp_mirror hy eny hc (fun j hj => ?_) iY
    rw [hs1] at fy ⊢
    rw [srcIdx_wrap (by omega), srcIdx_wrap hj, srcIdx_mirror fy hj]
  · intro hp T hT hxa
    rw [structure_level hx hy fx fy hm hs ha' hb, structure_level hx hy fx fy hm hs ha hb, hxa]
    congr 1
    unfold level
    obtain ⟨h1, h2⟩ := per fx hp
    have hb1 : (p.1 != 0) = true := by simpa using hp
    rw [hxa] at iX'
    have hw : ∀ i, i + (xs.length - 1) / p.1 < xs.length →
        srcIdx xs.length sym.1 p.1 (wrap true xs.length (i + (xs.length - 1) / p.1))
          = srcIdx xs.length sym.1 p.1 (wrap true xs.length i) := by
      intro i hi
      have e1 := srcIdx_wrap (p := p.1) (σ := sym.1) hi
      have e2 := srcIdx_wrap (p := p.1) (σ := sym.1) (Nat.lt_of_le_of_lt (Nat.le_add_right i _) hi)
      rw [hb1] at e1 e2
      rw [e1, e2, srcIdx_repeat fx hp hi]
    rw [hb1] at enx ⊢
    exact interp_shift hx enx h1 h2 hT (fun i hi => by rw [hw i hi]) iX iX'
  · intro hp T hT hyb
    rw [structure_level hx hy fx fy hm hs ha hb', structure_level hx hy fx fy hm hs ha hb, hyb]
    congr 1
    unfold level
    obtain ⟨h1, h2⟩ := per fy hp
    have hb1 : (p.2 != 0) = true := by simpa using hp
    rw [hyb] at iY'
    have hw : ∀ i, i + (ys.length - 1) / p.2 < ys.length →
        srcIdx ys.length sym.2 p.2 (wrap true ys.length (i + (ys.length - 1) / p.2))
          = srcIdx ys.length sym.2 p.2 (wrap true ys.length i) := by
      intro i hi
      have e1 := srcIdx_wrap (p := p.2) (σ := sym.2) hi
      have e2 := srcIdx_wrap (p := p.2) (σ := sym.2) (Nat.lt_of_le_of_lt (Nat.le_add_right i _) hi)
      rw [hb1] at e1 e2
      rw [e1, e2, srcIdx_repeat fy hp hi]
    refine (interp_congr enx (fun i _ => ?_) _).1
    rw [hb1] at eny ⊢
    exact interp_shift hy eny h1 h2 hT (fun j hj => by rw [hw j hj]) iY iY'

/-! ## Initial values -/

/-- C84: initialised with a number, the structure is uniform. -/
theorem initial_number {c : ℝ} (hx : Increasing xs) (hy : Increasing ys)
    (fx : Fits xs.length sym.1 p.1) (fy : Fits ys.length sym.2 p.2)
    (hm : mkCubicParam (.number c) xs ys X Y sym (p.1 != 0, p.2 != 0) p lo hi bds = .ok P) (k : ℝ) :
    ∃ s, (P.setK k).getStructure = .ok s ∧ s.length = X.length * Y.length ∧
      ∀ a b, a < X.length → b < Y.length → gridVal X.length (vals s) a b = shaped k c := by
  obtain ⟨enx, eny, hr, hc, hl, _, _, _, _, _, _, hiv, hgc⟩ := mkCubicParam_spec hx hy fx fy hm
  have hv : P.vector = List.replicate P.geometry.cols (c * 1) := by
    unfold initVector at hiv
    exact (Except.ok.inj hiv).symm
  obtain ⟨s, hs⟩ := getStructure_ok (P := P.setK k) (by
    change P.vec2f.cols = P.vector.length
    rw [hv, hgc]; simp)
  refine ⟨s, hs, (getStructure_spec hs).2.1.trans hr, fun a b ha hb => ?_⟩
  have hs' : ((P.decode P.vector).setK k).getStructure = .ok s := hs
  rw [structure_level hx hy fx fy hm hs' ha hb]
  congr 1
  unfold level
  have hfx := fun i (hi : i < xs.length) => srcIdx_lt fx hi
  have hfy := fun i (hi : i < ys.length) => srcIdx_lt fy hi
  have hle : ∀ {q n : Nat}, freeLen (q != 0) n ≤ n := by
    intro q n; unfold freeLen; split <;> omega
  rw [(interp_congr enx (g := fun _ => c) (fun i hi => ?_) _).1, interp_const hx enx]
  rw [(interp_congr eny (g := fun _ => c) (fun j hj => ?_) _).1, interp_const hy eny]
  unfold vals
  rw [hv, List.getD_eq_getElem _ _ ?_]
  · simp
  · rw [List.length_replicate, hgc, hc]
    exact idx_lt (hfx i (lt_of_lt_of_le hi hle)) (hfy j (lt_of_lt_of_le hj hle))

/-- C84: initialised with a whole grid of values that has the symmetries, the structure takes these
values (under the sigmoid) at the fine points that are coarse points. -/
theorem initial_grid {l : List ℝ} (hx : Increasing xs) (hy : Increasing ys)
    (fx : Fits xs.length sym.1 p.1) (fy : Fits ys.length sym.2 p.2)
    (hm : mkCubicParam (.array l) xs ys X Y sym (p.1 != 0, p.2 != 0) p lo hi bds = .ok P)
    (hl : l.length = xs.length * ys.length)
    (hinv : Invariant xs.length ys.length sym p (gridVal xs.length (vals l))) (k : ℝ) :
    ∃ s, (P.setK k).getStructure = .ok s ∧
      ∀ a b i j, a < X.length → b < Y.length → i < xs.length → j < ys.length →
        X.getD a 0 = xs.getD i 0 → Y.getD b 0 = ys.getD j 0 →
        gridVal X.length (vals s) a b = shaped k (gridVal xs.length (vals l) i j) := by
  obtain ⟨enx, eny, hr, hc, hlv, _, _, _, hrr, hrc, hra, hiv, hgc⟩ := mkCubicParam_spec hx hy fx fy hm
  -- the parameters are the values at the independent points
  have hpar : P.vector.length = P.vec2f.cols ∧
      ∀ i j, i < freePoints xs.length sym.1 p.1 → j < freePoints ys.length sym.2 p.2 →
        vals P.vector (i + freePoints xs.length sym.1 p.1 * j) = gridVal xs.length (vals l) i j := by
    unfold initVector at hiv
    simp only [] at hiv
    split at hiv
    · rename_i hlen
      have hv := Except.ok.inj hiv
      rw [← hv]
      refine ⟨by rw [hlen, hrr, hc], fun i j hi hj => ?_⟩
      rw [hrr, hl] at hlen
      have h1 := freePoints_le fx
      have h2 := freePoints_le fy
      have hfx : freePoints xs.length sym.1 p.1 = xs.length := by
        by_contra hne
        have : freePoints xs.length sym.1 p.1 * freePoints ys.length sym.2 p.2
            < xs.length * ys.length :=
          Nat.mul_lt_mul_of_lt_of_le (by omega) h2 fy.pos
        omega
      unfold gridVal
      rw [hfx]
    · split at hiv
      · obtain ⟨m1, m2, m3⟩ := matVec_spec hiv
        refine ⟨by rw [m2, hrr, hc], fun i j hi hj => ?_⟩
        unfold vals gridVal
        rw [m3 _ (by rw [hrr]; exact idx_lt hi hj), hra _ i j hi hj]
      · cases hiv
  obtain ⟨s, hs⟩ := getStructure_ok (P := P.setK k) hpar.1.symm
  refine ⟨s, hs, fun a b i j ha hb hi hj hxa hyb => ?_⟩
  have hs' : ((P.decode P.vector).setK k).getStructure = .ok s := hs
  rw [structure_level hx hy fx fy hm hs' ha hb, hxa, hyb]
  congr 1
  unfold level
  rw [(interp_node _ hx enx.two _ hi).1, (interp_node _ hy eny.two _ hj).1, srcIdx_wrap hi, srcIdx_wrap hj,
    hpar.2 _ _ (srcIdx_lt fx hi) (srcIdx_lt fy hj)]
  have hltx : srcIdx xs.length sym.1 p.1 i < xs.length :=
    lt_of_lt_of_le (srcIdx_lt fx hi) (freePoints_le fx)
  have hlty : srcIdx ys.length sym.2 p.2 j < ys.length :=
    lt_of_lt_of_le (srcIdx_lt fy hj) (freePoints_le fy)
  rw [along_axis fx (fun a => gridVal xs.length (vals l) a (srcIdx ys.length sym.2 p.2 j))
    (fun hs a ha => hinv.mirror_x hs a _ ha hlty) (fun hp a ha => hinv.repeat_x hp a _ ha hlty) hi]
  exact along_axis fy (fun b => gridVal xs.length (vals l) i b)
    (fun hs b hb => hinv.mirror_y hs i b hi hb) (fun hp b hb => hinv.repeat_y hp i b hi hb) hj

end

/-! ## Gradient and range -/

theorem sigmoid_hasDerivAt (k z : ℝ) : HasDerivAt (sigmoid k) (sigmoidD k z) z := by
  have h1 : HasDerivAt (fun z : ℝ => -k * (2 * z - 1)) (-k * 2) z := by
    have := (((hasDerivAt_id z).const_mul 2).sub_const 1).const_mul (-k)
    simpa using this
  have h2 := (h1.exp.const_add 1).inv (by positivity)
  unfold sigmoid sigmoidD
  simp only [one_div]
  refine h2.congr_deriv ?_
  ring

theorem mulVec_line (A : SpMat ℝ) (v d : Nat → ℝ) (t : ℝ) (r : Nat) :
    A.mulVec (fun j => v j + t * d j) r = A.mulVec v r + t * A.mulVec d r := by
  unfold SpMat.mulVec
  rw [Finset.mul_sum, ← Finset.sum_add_distrib]
  exact Finset.sum_congr rfl fun j _ => by ring

/-- C84: the gradient is the derivative of the structure: along every line of parameter vectors,
every entry of the structure has the derivative that the gradient matrix gives. -/
theorem gradient_derivative (P : CubicParam) (d : List ℝ) (hv : P.vector.length = P.vec2f.cols)
    (hd : d.length = P.vec2f.cols) :
    ∃ (A : SpMat ℝ) (S : ℝ → List ℝ), P.calculateGradient = .ok A ∧
      (∀ t, (P.decode (List.zipWith (fun x y => x + t * y) P.vector d)).getStructure = .ok (S t)) ∧
      A.rows = P.vec2f.rows ∧ A.cols = P.vector.length ∧
      ∀ r < P.vec2f.rows, HasDerivAt (fun t => vals (S t) r) (A.mulVec (vals d) r) 0 := by
  have hS : ∀ t, ∃ s, (P.decode (List.zipWith (fun x y => x + t * y) P.vector d)).getStructure = .ok s :=
    fun t => getStructure_ok (by
      change P.vec2f.cols = (List.zipWith (fun x y => x + t * y) P.vector d).length
      simp [hv, hd])
  choose S hS using hS
  have hline : ∀ t r, r < P.vec2f.rows → vals (S t) r
      = shaped P.k (P.vec2f.mulVec (vals P.vector) r + t * P.vec2f.mulVec (vals d) r) := by
    intro t r hr
    have h3 := (getStructure_spec (hS t)).2.2 r hr
    unfold vals at *
    refine h3.trans ?_
    rw [← mulVec_line]
    change shaped P.k (P.vec2f.mulVec _ r) = _
    congr 1
    unfold SpMat.mulVec
    refine Finset.sum_congr rfl fun j hj => ?_
    congr 1
    have hj' := mem_range.1 hj
    change (List.zipWith (fun x y => x + t * y) P.vector d).getD j 0
      = P.vector.getD j 0 + t * d.getD j 0
    rw [List.getD_eq_getElem _ _ (by simp; omega), List.getD_eq_getElem _ _ (by omega),
      List.getD_eq_getElem _ _ (by omega)]
    simp
  obtain ⟨z, hz⟩ : ∃ z, matVec P.vec2f P.vector = .ok z := by
    unfold matVec; rw [if_pos hv.symm]; exact ⟨_, rfl⟩
  obtain ⟨z1, z2, z3⟩ := matVec_spec hz
  have hlin : ∀ r, HasDerivAt (fun t : ℝ => P.vec2f.mulVec (vals P.vector) r + t * P.vec2f.mulVec (vals d) r)
      (P.vec2f.mulVec (vals d) r) 0 := by
    intro r
    have := ((hasDerivAt_id (0 : ℝ)).mul_const (P.vec2f.mulVec (vals d) r)).const_add
      (P.vec2f.mulVec (vals P.vector) r)
    simpa using this
  by_cases hk : P.k = 0
  · refine ⟨P.vec2f, S, ?_, hS, rfl, hv.symm, fun r hr => ?_⟩
    · unfold CubicParam.calculateGradient
      rw [hz]
      simp [hk]
    · have : (fun t => vals (S t) r)
          = fun t => P.vec2f.mulVec (vals P.vector) r + t * P.vec2f.mulVec (vals d) r := by
        funext t
        rw [hline t r hr]
        unfold shaped
        simp [hk]
      rw [this]
      exact hlin r
  · obtain ⟨A, hA, hAr, hAc, hAm⟩ := SpMat.matmul_ok
      (A := SpMat.diags z.length fun i => sigmoidD P.k (z.getD i 0)) (B := P.vec2f) z2
    refine ⟨A, S, ?_, hS, hAr.trans z2, hAc.trans hv.symm, fun r hr => ?_⟩
    · unfold CubicParam.calculateGradient
      rw [hz]
      simp only [ne_eq, hk, not_false_eq_true, if_true]
      exact hA
    · have : (fun t => vals (S t) r)
          = fun t => sigmoid P.k (P.vec2f.mulVec (vals P.vector) r + t * P.vec2f.mulVec (vals d) r) := by
        funext t
        rw [hline t r hr]
        unfold shaped
        simp [hk]
      rw [this, hAm, SpMat.diags_mulVec (by rw [z2]; exact hr), z3 r hr]
      have h0 : P.vec2f.mulVec (vals P.vector) r
          = P.vec2f.mulVec (vals P.vector) r + 0 * P.vec2f.mulVec (vals d) r := by ring
      have hsig := sigmoid_hasDerivAt P.k (P.vec2f.mulVec (vals P.vector) r)
      rw [h0] at hsig
      have := HasDerivAt.comp (0 : ℝ) hsig (hlin r)
      rw [← h0] at this
      exact this

/-- C84: with a sigmoid every entry of the structure lies strictly between 0 and 1. -/
theorem structure_range (P : CubicParam) (hk : P.k ≠ 0) {s : List ℝ} (hs : P.getStructure = .ok s) :
    ∀ z ∈ s, 0 < z ∧ z < 1 := by
  obtain ⟨h1, h2, h3⟩ := getStructure_spec hs
  intro z hz
  obtain ⟨r, hr, rfl⟩ := List.getElem_of_mem hz
  have := h3 r (by omega)
  rw [List.getD_eq_getElem _ _ hr] at this
  rw [this]
  unfold shaped sigmoid
  rw [if_pos hk]
  have hpos := Real.exp_pos (-P.k * (2 * P.vec2f.mulVec (fun j => P.vector.getD j 0) r - 1))
  refine ⟨by positivity, ?_⟩
  rw [div_lt_one (by positivity)]
  linarith

/-- C84 fails without the sigmoid (`set_k(0)`, which the cubic shapes of goos use): parameters
between 0 and 1 can give a structure above 1. -/
theorem structure_range_false :
    ∃ P s, mkCubicParam (.array [0, 1, 1, 0, 0, 1, 1, 0, 0, 1, 1, 0]) [0, 1, 2, 3] [0, 1, 2] [3 / 2] [1]
        (false, false) (false, false) (0, 0) 0 1 none = .ok P ∧
      (∀ x ∈ P.vector, P.lower ≤ x ∧ x ≤ P.upper) ∧
      (P.setK 0).getStructure = .ok s ∧ ∃ z ∈ s, 1 < z := by
  have h1 : Increasing ([0, 1, 2, 3] : List ℝ) := by
    intro i j hij hj
    have : j < 4 := hj
    interval_cases j <;> interval_cases i <;> norm_num
  have h2 : Increasing ([0, 1, 2] : List ℝ) := by
    intro i j hij hj
    have : j < 3 := hj
    interval_cases j <;> interval_cases i <;> norm_num
  have f4 : Fits 4 false 0 := ⟨by decide, fun h => by simp at h, fun h => absurd rfl h⟩
  have f3 : Fits 3 false 0 := ⟨by decide, fun h => by simp at h, fun h => absurd rfl h⟩
  obtain ⟨P, hP⟩ := cubic_param_exists
    (init := .array [0, 1, 1, 0, 0, 1, 1, 0, 0, 1, 1, 0]) (xs := [0, 1, 2, 3]) (ys := [0, 1, 2])
    (X := [3 / 2]) (Y := [1]) (sym := (false, false)) (p := (0, 0)) (lo := 0) (hi := 1) (bds := none)
    h1 h2 f4 f3 (by simp) (by simp) (by norm_num [pyGet]) (by norm_num [pyGet])
    (fun l hl => by cases hl; exact Or.inl rfl)
  obtain ⟨enx, eny, hr, hc, hl, _, hlo, hhi, hrr, hrc, hra, hiv, hgc⟩ := mkCubicParam_spec
    (sym := (false, false)) (p := (0, 0)) h1 h2 f4 f3 hP
  have hvec : P.vector = [0, 1, 1, 0, 0, 1, 1, 0, 0, 1, 1, 0] := by
    unfold initVector at hiv
    simp only [] at hiv
    rw [if_pos (by rw [hrr]; rfl)] at hiv
    exact (Except.ok.inj hiv).symm
  obtain ⟨s, hs⟩ := getStructure_ok (P := P.setK 0) (by
    change P.vec2f.cols = P.vector.length
    rw [hc, hvec]; rfl)
  refine ⟨P, s, hP, ?_, hs, ?_⟩
  · rw [hvec, hlo, hhi]
    simp
  · have hs' : ((P.decode P.vector).setK 0).getStructure = .ok s := hs
    have hlev := structure_level (sym := (false, false)) (p := (0, 0)) h1 h2 f4 f3 hP hs'
      (a := 0) (b := 0) (by simp) (by simp)
    have hlen := (getStructure_spec hs).2.1
    have hlen' : s.length = 1 := hlen.trans hr
    refine ⟨s.getD 0 0, ?_, ?_⟩
    · rw [List.getD_eq_getElem _ _ (by omega)]
      exact List.getElem_mem _
    · have hg : gridVal ([3 / 2] : List ℝ).length (vals s) 0 0 = s.getD 0 0 := rfl
      rw [← hg, hlev]
      unfold shaped level
      simp only [ne_eq, not_true_eq_false, if_false, List.getD_cons_zero]
      have hin : ∀ i < 4, interp false ([0, 1, 2] : List ℝ) (fun j =>
          vals P.vector (srcIdx 4 false 0 i + freePoints 4 false 0 * srcIdx 3 false 0 j)) 1
            = if i = 1 ∨ i = 2 then 1 else 0 := by
        intro i hi
        have := (interp_node false h2 (by simp) (fun j =>
          vals P.vector (srcIdx 4 false 0 i + freePoints 4 false 0 * srcIdx 3 false 0 j))
          (i := 1) (by simp)).1
        simp only [List.getD_cons_succ, List.getD_cons_zero] at this
        rw [this, hvec]
        simp only [srcIdx_zero, sIdx, Bool.false_eq_true, if_false, freePoints, wrap, false_and]
        interval_cases i <;> simp [vals]
      have hcg := (interp_congr (xs := ([0, 1, 2, 3] : List ℝ)) (per := false) enx
        (fun i hi => hin i (by simpa [freeLen] using hi)) (3 / 2)).1
      refine lt_of_lt_of_eq ?_ hcg.symm
      rw [(interp_closed false h1 _ (k := 1) (by simp) (by norm_num) (by norm_num)).1]
      norm_num [onCell, hermite, slope, threePoint, wrap]

/-! ## Bounds and saving -/

/-- C84: `from_vector` keeps the parameters between the bounds, changes nothing that lies between
them, and `get_bounds` reports one pair of bounds for every parameter. -/
theorem from_vector_bounds (P : CubicParam) (hb : P.lower ≤ P.upper) (v : List ℝ) :
    (∀ x ∈ (P.fromVector v).toVector, P.lower ≤ x ∧ x ≤ P.upper) ∧
    (P.fromVector v).toVector.length = v.length ∧
    ((∀ x ∈ v, P.lower ≤ x ∧ x ≤ P.upper) → (P.fromVector v).toVector = v) ∧
    (P.fromVector v).getBounds = (List.replicate v.length P.lower, List.replicate v.length P.upper) := by
  unfold CubicParam.fromVector CubicParam.project CubicParam.decode CubicParam.toVector CubicParam.getBounds
  refine ⟨?_, by simp, ?_, by simp⟩
  · intro x hx
    obtain ⟨y, _, rfl⟩ := List.mem_map.1 hx
    exact ⟨le_min (le_max_right _ _) hb, min_le_right _ _⟩
  · intro h
    have : ∀ x ∈ v, min (max x P.lower) P.upper = x := fun x hx => by
      rw [max_eq_left (h x hx).1, min_eq_left (h x hx).2]
    change v.map _ = v
    conv_rhs => rw [← List.map_id v]
    exact List.map_congr_left this

/-- C84: what is saved is restored exactly if the parameters lie between the bounds.  The constructor
does not check that they do. -/
theorem serialize_roundtrip (P Q : CubicParam) (hb : P.lower ≤ P.upper) (hlo : Q.lower = P.lower)
    (hhi : Q.upper = P.upper) :
    ((Q.deserialize P.serialize).toVector = P.toVector ∧ (Q.deserialize P.serialize).k = P.k) ↔
      ∀ x ∈ P.toVector, P.lower ≤ x ∧ x ≤ P.upper := by
  have hq : Q.lower ≤ Q.upper := by rw [hlo, hhi]; exact hb
  obtain ⟨h1, _, h3, _⟩ := from_vector_bounds Q hq P.toVector
  constructor
  · rintro ⟨h, _⟩
    rw [hlo, hhi] at h1
    intro x hx
    apply h1
    have : (Q.fromVector P.toVector).toVector = P.toVector := h
    rw [this]; exact hx
  · intro h
    refine ⟨?_, rfl⟩
    exact h3 (by rw [hlo, hhi]; exact h)

/-- Non-vacuity of the symmetry theorems: a mirrored, repeating coarse grid. -/
example : Increasing ([0, 1, 3, 4, 5, 7, 8] : List ℚ) ∧ Fits 7 true 2 ∧
    Mirrored ([0, 1, 3, 4, 5, 7, 8] : List ℚ) 8 ∧ Repeating ([0, 1, 3, 4, 5, 7, 8] : List ℚ) 3 4 ∧
    Inside ([0, 1, 3, 4, 5, 7, 8] : List ℚ) (1 / 2) := by
  refine ⟨?_, ⟨by decide, fun _ => by decide, fun _ => by decide⟩, ?_, ?_, ?_⟩
  · intro i j hij hj
    have : j < 7 := hj
    interval_cases j <;> interval_cases i <;> norm_num
  · intro i hi
    have : i < 7 := hi
    interval_cases i <;> norm_num
  · intro i hi
    have : i + 3 < 7 := hi
    have : i < 4 := by omega
    interval_cases i <;> norm_num
  · norm_num [Inside]

end Verif.Cubic
