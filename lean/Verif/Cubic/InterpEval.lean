import Verif.Cubic.InterpSteps

/-!
# Lemmas: value and derivatives at a fine point
-/

set_option linter.unusedVariables false
set_option linter.unusedSectionVars false
set_option linter.unusedSimpArgs false

namespace Verif.Cubic

open Finset

variable {K : Type*} [Field K]

theorem makeXY_act {n : Nat} (fx fy : Nat → K → K) (x y : Nat → K) (v : Nat → K) {k : Nat} (hk : k < n) :
    (makeXY n fx fy x y).mulVec v k =
      ∑ i ∈ range 4, ∑ j ∈ range 4, fx i (x k) * fy j (y k) * v (k + n * (i + 4 * j)) := by
  unfold makeXY
  rw [coo_rowSum]
  · rw [rowSum_range]
    refine Finset.sum_congr rfl fun i _ => ?_
    rw [rowSum_range]
    refine Finset.sum_congr rfl fun j _ => ?_
    rw [rowSum_map, Finset.sum_eq_single_of_mem k (Finset.mem_range.2 hk)]
    · rw [rowSum_all _ _ _ (by simp)]
      simp only [List.map_cons, List.map_nil, List.sum_cons, List.sum_nil, add_zero]
      rw [Nat.mul_comm n]
    · intro k' _ hne
      exact rowSum_none _ _ _ (by simpa using hne)
  · intro t ht
    simp only [List.mem_flatMap, List.mem_range, List.mem_map] at ht
    obtain ⟨i, hi, j, hj, k, hk, rfl⟩ := ht
    simp only []
    have : (i + 4 * j) * n ≤ 15 * n := Nat.mul_le_mul_right n (by omega)
    omega

/-- Scale factors of `MakeDXDYcorr_inv`. -/
def corrVal (dx dy : K) (c : Nat) : K :=
  match c / 4 with
  | 0 => 1
  | 1 => dx
  | 2 => dy
  | _ => dx * dy

/-- The product of all matrices of `CubicMatrices`, applied to a vector. -/
theorem cubic_product {n : Nat} (fx fy : Nat → K → K) (x y dx dy : Nat → K) {phi : SpMat K}
    (hphi : phi.rows = 16 * n) {a : SpMat K}
    (ha : mulE ((makeDXDYinv n dx dy).matmul (makeAcubic n)) (makeDXDYcorr n dx dy) = .ok a) :
    ∃ C, mulE ((makeXY n fx fy x y).matmul a) phi = .ok C ∧ C.rows = n ∧ C.cols = phi.cols ∧
      ∀ v k, k < n → C.mulVec v k =
        ∑ i ∈ range 4, ∑ j ∈ range 4, fx i (x k) * fy j (y k) *
          (((dy k)⁻¹) ^ j * ((dx k)⁻¹) ^ i *
            ∑ c ∈ range 16, (((aSingle.getD (i + 4 * j) []).getD c 0 : Int) : K) *
              (corrVal (dx k) (dy k) c * phi.mulVec v (k + n * c))) := by
  obtain ⟨M1, hM1, hr1, hc1, ha1⟩ := SpMat.matmul_ok
    (A := makeDXDYinv n dx dy) (B := makeAcubic n) rfl
  rw [hM1] at ha
  obtain ⟨M2, hM2, hr2, hc2, ha2⟩ := SpMat.matmul_ok (A := M1) (B := makeDXDYcorr n dx dy) hc1
  have hMa : M2 = a := by
    have : M1.matmul (makeDXDYcorr n dx dy) = .ok a := ha
    rw [hM2] at this
    exact Except.ok.inj this
  subst hMa
  obtain ⟨M3, hM3, hr3, hc3, ha3⟩ := SpMat.matmul_ok (A := makeXY n fx fy x y) (B := M2)
    (show 16 * n = M2.rows from (hr2.trans hr1).symm)
  obtain ⟨M4, hM4, hr4, hc4, ha4⟩ := SpMat.matmul_ok (A := M3) (B := phi)
    (show M3.cols = phi.rows from (hc3.trans hc2).trans hphi.symm)
  refine ⟨M4, by rw [hM3]; exact hM4, hr4.trans hr3, hc4, fun v k hk => ?_⟩
  rw [ha4, ha3, makeXY_act _ _ _ _ _ hk]
  refine Finset.sum_congr rfl fun i hi => Finset.sum_congr rfl fun j hj => ?_
  have hi := Finset.mem_range.1 hi
  have hj := Finset.mem_range.1 hj
  congr 1
  have hq : i + 4 * j < 16 := by omega
  have hrow : k + n * (i + 4 * j) < 16 * n := by
    rw [Nat.mul_comm 16]; exact idx_lt hk hq
  rw [ha2, ha1]
  rw [show makeDXDYinv n dx dy = SpMat.diags (16 * n) fun r =>
    ((dy (r % n))⁻¹) ^ (r / n / 4) * ((dx (r % n))⁻¹) ^ (r / n % 4) from rfl,
    SpMat.diags_mulVec hrow, SpMat.add_mul_div' hk, SpMat.add_mul_mod' hk]
  rw [show (i + 4 * j) / 4 = j by omega, show (i + 4 * j) % 4 = i by omega]
  congr 1
  unfold makeAcubic
  rw [SpMat.kronEye_mulVec _ hk]
  refine Finset.sum_congr rfl fun c hc => ?_
  have hc : c < 16 := Finset.mem_range.1 hc
  congr 1
  unfold makeDXDYcorr
  rw [SpMat.diags_mulVec (show k + n * c < 16 * n by rw [Nat.mul_comm 16]; exact idx_lt hk hc),
    SpMat.add_mul_div' hk, SpMat.add_mul_mod' hk]
  rfl

theorem acubic_ok (n : Nat) (dx dy : Nat → K) :
    ∃ a, mulE ((makeDXDYinv n dx dy).matmul (makeAcubic n)) (makeDXDYcorr n dx dy) = .ok a := by
  obtain ⟨M1, hM1, hr1, hc1, ha1⟩ := SpMat.matmul_ok
    (A := makeDXDYinv n dx dy) (B := makeAcubic n) rfl
  obtain ⟨M2, hM2, hr2, hc2, ha2⟩ := SpMat.matmul_ok (A := M1) (B := makeDXDYcorr n dx dy) hc1
  exact ⟨M2, by rw [hM1]; exact hM2⟩

/-- The polynomial in the cell, as a combination of the sixteen corner values. -/
theorem cubic_value (x y dx dy : K) (w : Nat → K) :
    ∑ i ∈ range 4, ∑ j ∈ range 4, pow4 i x * pow4 j y * ((dy⁻¹) ^ j * (dx⁻¹) ^ i *
      ∑ c ∈ range 16, (((aSingle.getD (i + 4 * j) []).getD c 0 : Int) : K) * (corrVal dx dy c * w c)) =
    hermite dx x (hermite dy y (w 0) (w 2) (w 8) (w 10)) (hermite dy y (w 1) (w 3) (w 9) (w 11))
      (hermite dy y (w 4) (w 6) (w 12) (w 14)) (hermite dy y (w 5) (w 7) (w 13) (w 15)) := by
  rw [show range 4 = {0, 1, 2, 3} by decide]
  simp only [Finset.sum_insert (by decide : (0 : Nat) ∉ ({1, 2, 3} : Finset Nat)),
    Finset.sum_insert (by decide : (1 : Nat) ∉ ({2, 3} : Finset Nat)),
    Finset.sum_insert (by decide : (2 : Nat) ∉ ({3} : Finset Nat)), Finset.sum_singleton,
    Nat.mul_zero, Nat.add_zero, Nat.mul_one, Nat.reduceAdd, Nat.reduceMul,
    aRow0, aRow1, aRow2, aRow3, aRow4, aRow5, aRow6, aRow7, aRow8, aRow9, aRow10, aRow11, aRow12,
    aRow13, aRow14, aRow15, corrVal, Nat.reduceDiv, pow4, hermite, Nat.zero_div]
  ring

/-- `hermiteD` before cancelling the length of the cell. -/
def hermiteU (h t f0 f1 d0 d1 : K) : K :=
  f0 * ((-6 * (t / h) + 6 * (t / h) ^ 2) / h) + f1 * ((6 * (t / h) - 6 * (t / h) ^ 2) / h) +
  d0 * (h * ((1 - 4 * (t / h) + 3 * (t / h) ^ 2) / h)) + d1 * (h * ((-2 * (t / h) + 3 * (t / h) ^ 2) / h))

theorem hermiteU_eq {h : K} (hh : h ≠ 0) (t f0 f1 d0 d1 : K) :
    hermiteU h t f0 f1 d0 d1 = hermiteD h t f0 f1 d0 d1 := by
  unfold hermiteU hermiteD
  rw [mul_div_cancel₀ _ hh, mul_div_cancel₀ _ hh]

theorem cubic_value_dx (x y dx dy : K) (hdx : dx ≠ 0) (w : Nat → K) :
    ∑ i ∈ range 4, ∑ j ∈ range 4, dpow4 i x * pow4 j y * ((dy⁻¹) ^ j * (dx⁻¹) ^ i *
      ∑ c ∈ range 16, (((aSingle.getD (i + 4 * j) []).getD c 0 : Int) : K) * (corrVal dx dy c * w c)) =
    hermiteD dx x (hermite dy y (w 0) (w 2) (w 8) (w 10)) (hermite dy y (w 1) (w 3) (w 9) (w 11))
      (hermite dy y (w 4) (w 6) (w 12) (w 14)) (hermite dy y (w 5) (w 7) (w 13) (w 15)) := by
  rw [← hermiteU_eq hdx]
  rw [show range 4 = {0, 1, 2, 3} by decide]
  simp only [Finset.sum_insert (by decide : (0 : Nat) ∉ ({1, 2, 3} : Finset Nat)),
    Finset.sum_insert (by decide : (1 : Nat) ∉ ({2, 3} : Finset Nat)),
    Finset.sum_insert (by decide : (2 : Nat) ∉ ({3} : Finset Nat)), Finset.sum_singleton,
    Nat.mul_zero, Nat.add_zero, Nat.mul_one, Nat.reduceAdd, Nat.reduceMul,
    aRow0, aRow1, aRow2, aRow3, aRow4, aRow5, aRow6, aRow7, aRow8, aRow9, aRow10, aRow11, aRow12,
    aRow13, aRow14, aRow15, corrVal, Nat.reduceDiv, pow4, dpow4, hermite, hermiteU, Nat.zero_div,
    div_eq_mul_inv]
  generalize dy⁻¹ = v at *
  generalize dx⁻¹ = u at *
  ring

theorem cubic_value_dy (x y dx dy : K) (hdy : dy ≠ 0) (w : Nat → K) :
    ∑ i ∈ range 4, ∑ j ∈ range 4, pow4 i x * dpow4 j y * ((dy⁻¹) ^ j * (dx⁻¹) ^ i *
      ∑ c ∈ range 16, (((aSingle.getD (i + 4 * j) []).getD c 0 : Int) : K) * (corrVal dx dy c * w c)) =
    hermite dx x (hermiteD dy y (w 0) (w 2) (w 8) (w 10)) (hermiteD dy y (w 1) (w 3) (w 9) (w 11))
      (hermiteD dy y (w 4) (w 6) (w 12) (w 14)) (hermiteD dy y (w 5) (w 7) (w 13) (w 15)) := by
  simp only [← hermiteU_eq hdy]
  rw [show range 4 = {0, 1, 2, 3} by decide]
  simp only [Finset.sum_insert (by decide : (0 : Nat) ∉ ({1, 2, 3} : Finset Nat)),
    Finset.sum_insert (by decide : (1 : Nat) ∉ ({2, 3} : Finset Nat)),
    Finset.sum_insert (by decide : (2 : Nat) ∉ ({3} : Finset Nat)), Finset.sum_singleton,
    Nat.mul_zero, Nat.add_zero, Nat.mul_one, Nat.reduceAdd, Nat.reduceMul,
    aRow0, aRow1, aRow2, aRow3, aRow4, aRow5, aRow6, aRow7, aRow8, aRow9, aRow10, aRow11, aRow12,
    aRow13, aRow14, aRow15, corrVal, Nat.reduceDiv, pow4, dpow4, hermite, hermiteU, Nat.zero_div,
    div_eq_mul_inv]
  generalize dy⁻¹ = v at *
  generalize dx⁻¹ = u at *
  ring

/-! ## The result -/

variable [LinearOrder K] [IsStrictOrderedRing K]

/-- The interpolating function of one axis, by the cell that the code selects. -/
def interp (per : Bool) (xs : List K) (f : Nat → K) (x : K) : K := onCell per xs f (cellOf xs x) x
/-- Its derivative. -/
def interpD (per : Bool) (xs : List K) (f : Nat → K) (x : K) : K := onCellD per xs f (cellOf xs x) x

theorem cornerVal_interp (H H' : K → K → K → K → K → K → K) (per : Bool × Bool) (xs ys : List K)
    (v : Nat → K) (p q : Nat) (h t h' t' : K)
    (hH : ∀ A B C D i, slope per.1 xs (fun m => H' h' t' (A m) (B m) (C m) (D m)) i =
      H' h' t' (slope per.1 xs A i) (slope per.1 xs B i) (slope per.1 xs C i) (slope per.1 xs D i)) :
    H h t (H' h' t' (cornerVal xs ys per v p q 0) (cornerVal xs ys per v p q 2)
        (cornerVal xs ys per v p q 8) (cornerVal xs ys per v p q 10))
      (H' h' t' (cornerVal xs ys per v p q 1) (cornerVal xs ys per v p q 3)
        (cornerVal xs ys per v p q 9) (cornerVal xs ys per v p q 11))
      (H' h' t' (cornerVal xs ys per v p q 4) (cornerVal xs ys per v p q 6)
        (cornerVal xs ys per v p q 12) (cornerVal xs ys per v p q 14))
      (H' h' t' (cornerVal xs ys per v p q 5) (cornerVal xs ys per v p q 7)
        (cornerVal xs ys per v p q 13) (cornerVal xs ys per v p q 15)) =
    (fun f : Nat → K => H h t (f (wrap per.1 xs.length p)) (f (wrap per.1 xs.length (p + 1)))
      (slope per.1 xs f (wrap per.1 xs.length p)) (slope per.1 xs f (wrap per.1 xs.length (p + 1))))
    (fun i => (fun g : Nat → K => H' h' t' (g (wrap per.2 ys.length q)) (g (wrap per.2 ys.length (q + 1)))
      (slope per.2 ys g (wrap per.2 ys.length q)) (slope per.2 ys g (wrap per.2 ys.length (q + 1))))
      (fun j => v (i + freeLen per.1 xs.length * j))) := by
  simp only [cornerVal, Nat.zero_div, Nat.zero_mod, Nat.reduceDiv, Nat.reduceMod, Nat.add_zero]
  rw [hH, hH]

theorem remOf_eq (xs : List K) (x : K) : remOf xs x = x - xs.getD (cellOf xs x) 0 := rfl

/-- What `CubicMatrices` computes: at every fine point the one-dimensional interpolation along x of
the one-dimensional interpolations along y, and its derivatives. -/
theorem cubicMatrices_eval {X Y xs ys : List K} {per : Bool × Bool} (hx : Increasing xs)
    (hy : Increasing ys) (hnx : Enough per.1 xs.length) (hny : Enough per.2 ys.length)
    (hX : fineInside X xs = true) (hY : fineInside Y ys = true) :
    ∃ f fx fy : SpMat K, cubicMatrices X Y xs ys per = .ok (f, fx, fy) ∧
      f.rows = X.length * Y.length ∧
      f.cols = freeLen per.1 xs.length * freeLen per.2 ys.length ∧
      ∀ v a b, a < X.length → b < Y.length →
        f.mulVec v (a + X.length * b) = interp per.1 xs (fun i => interp per.2 ys
          (fun j => v (i + freeLen per.1 xs.length * j)) (Y.getD b 0)) (X.getD a 0) ∧
        fx.mulVec v (a + X.length * b) = interpD per.1 xs (fun i => interp per.2 ys
          (fun j => v (i + freeLen per.1 xs.length * j)) (Y.getD b 0)) (X.getD a 0) ∧
        fy.mulVec v (a + X.length * b) = interp per.1 xs (fun i => interpD per.2 ys
          (fun j => v (i + freeLen per.1 xs.length * j)) (Y.getD b 0)) (X.getD a 0) := by
  obtain ⟨P, hP, hPr, hPc, hPa⟩ := phi2fii_act (X := X) (Y := Y) hx hy hnx hny
  set x := onFine X.length fun a => remOf xs (X.getD a 0) with hxdef
  set y := onFineY X.length fun b => remOf ys (Y.getD b 0) with hydef
  set dx := onFine X.length fun a => diffOf xs (X.getD a 0) with hdxdef
  set dy := onFineY X.length fun b => diffOf ys (Y.getD b 0) with hdydef
  obtain ⟨a, ha⟩ := acubic_ok (X.length * Y.length) dx dy
  obtain ⟨f, hf, hfr, hfc, hfa⟩ := cubic_product pow4 pow4 x y dx dy hPr ha
  obtain ⟨fx, hfx, hfxr, hfxc, hfxa⟩ := cubic_product dpow4 pow4 x y dx dy hPr ha
  obtain ⟨fy, hfy, hfyr, hfyc, hfya⟩ := cubic_product pow4 dpow4 x y dx dy hPr ha
  refine ⟨f, fx, fy, ?_, hfr, hfc.trans hPc, fun v p q hp hq => ?_⟩
  · unfold cubicMatrices
    rw [hX, hY]
    simp only [Bool.and_self, if_true, hP]
    unfold cubicFrom
    simp only [bind, Except.bind, pure, Except.pure, ← hxdef, ← hydef, ← hdxdef, ← hdydef, ha, hf,
      hfx, hfy]
  · have hk : p + X.length * q < X.length * Y.length := idx_lt hp hq
    have hw : ∀ c < 16, P.mulVec v (p + X.length * q + X.length * Y.length * c) =
        cornerVal xs ys per v (cellOf xs (X.getD p 0)) (cellOf ys (Y.getD q 0)) c :=
      fun c hc => hPa v p q c hp hq hc
    have e1 : x (p + X.length * q) = remOf xs (X.getD p 0) := by
      simp only [hxdef, onFine, SpMat.add_mul_mod' hp]
    have e2 : y (p + X.length * q) = remOf ys (Y.getD q 0) := by
      simp only [hydef, onFineY, SpMat.add_mul_div' hp]
    have e3 : dx (p + X.length * q) = diffOf xs (X.getD p 0) := by
      simp only [hdxdef, onFine, SpMat.add_mul_mod' hp]
    have e4 : dy (p + X.length * q) = diffOf ys (Y.getD q 0) := by
      simp only [hdydef, onFineY, SpMat.add_mul_div' hp]
    have hdx0 : diffOf xs (X.getD p 0) ≠ 0 := by
      have h2 := cellOf_lt hnx.two (X.getD p 0)
      exact sub_ne_zero.2 (hx.ne (Nat.lt_succ_self _) h2).symm
    have hdy0 : diffOf ys (Y.getD q 0) ≠ 0 := by
      have h2 := cellOf_lt hny.two (Y.getD q 0)
      exact sub_ne_zero.2 (hy.ne (Nat.lt_succ_self _) h2).symm
    refine ⟨?_, ?_, ?_⟩
    · rw [hfa v _ hk, e1, e2, e3, e4]
      rw [cubic_value _ _ _ _ (fun c => P.mulVec v (p + X.length * q + X.length * Y.length * c))]
      simp only [hw _ (by decide : 0 < 16), hw _ (by decide : 1 < 16), hw _ (by decide : 2 < 16),
        hw _ (by decide : 3 < 16), hw _ (by decide : 4 < 16), hw _ (by decide : 5 < 16),
        hw _ (by decide : 6 < 16), hw _ (by decide : 7 < 16), hw _ (by decide : 8 < 16),
        hw _ (by decide : 9 < 16), hw _ (by decide : 10 < 16), hw _ (by decide : 11 < 16),
        hw _ (by decide : 12 < 16), hw _ (by decide : 13 < 16), hw _ (by decide : 14 < 16),
        hw _ (by decide : 15 < 16)]
      exact cornerVal_interp hermite hermite per xs ys v _ _ _ _ _ _
        (fun A B C D i => slope_hermite _ _ _ _ _ _ _ _ _)
    · rw [hfxa v _ hk, e1, e2, e3, e4]
      rw [cubic_value_dx _ _ _ _ hdx0
        (fun c => P.mulVec v (p + X.length * q + X.length * Y.length * c))]
      simp only [hw _ (by decide : 0 < 16), hw _ (by decide : 1 < 16), hw _ (by decide : 2 < 16),
        hw _ (by decide : 3 < 16), hw _ (by decide : 4 < 16), hw _ (by decide : 5 < 16),
        hw _ (by decide : 6 < 16), hw _ (by decide : 7 < 16), hw _ (by decide : 8 < 16),
        hw _ (by decide : 9 < 16), hw _ (by decide : 10 < 16), hw _ (by decide : 11 < 16),
        hw _ (by decide : 12 < 16), hw _ (by decide : 13 < 16), hw _ (by decide : 14 < 16),
        hw _ (by decide : 15 < 16)]
      exact cornerVal_interp hermiteD hermite per xs ys v _ _ _ _ _ _
        (fun A B C D i => slope_hermite _ _ _ _ _ _ _ _ _)
    · rw [hfya v _ hk, e1, e2, e3, e4]
      rw [cubic_value_dy _ _ _ _ hdy0
        (fun c => P.mulVec v (p + X.length * q + X.length * Y.length * c))]
      simp only [hw _ (by decide : 0 < 16), hw _ (by decide : 1 < 16), hw _ (by decide : 2 < 16),
        hw _ (by decide : 3 < 16), hw _ (by decide : 4 < 16), hw _ (by decide : 5 < 16),
        hw _ (by decide : 6 < 16), hw _ (by decide : 7 < 16), hw _ (by decide : 8 < 16),
        hw _ (by decide : 9 < 16), hw _ (by decide : 10 < 16), hw _ (by decide : 11 < 16),
        hw _ (by decide : 12 < 16), hw _ (by decide : 13 < 16), hw _ (by decide : 14 < 16),
        hw _ (by decide : 15 < 16)]
      exact cornerVal_interp hermite hermiteD per xs ys v _ _ _ _ _ _
        (fun A B C D i => slope_hermiteD _ _ _ _ _ _ _ _ _)

end Verif.Cubic
