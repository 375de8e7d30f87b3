import Verif.Cubic.InterpEval
import Verif.Cubic.GeometryProps
import Mathlib.Tactic.Tauto
import Mathlib.Data.Rat.Floor
import Mathlib.Tactic.NormNum

/-!
# C82: the interpolation is exact at the coarse points and for quadratic functions
-/

set_option linter.unusedVariables false
set_option linter.unusedSectionVars false
set_option linter.unusedSimpArgs false

namespace Verif.Cubic

open Finset

variable {K : Type*} [Field K] [LinearOrder K] [IsStrictOrderedRing K]

/-! ## Cells -/

theorem digitize_spec {xs : List K} (hx : Increasing xs) (x : K) :
    digitize xs x ≤ xs.length ∧ ∀ i < xs.length, xs.getD i 0 ≤ x ↔ i < digitize xs x := by
  induction xs with
  | nil => simp [digitize]
  | cons c l ih =>
    have hl : Increasing l := by
      intro i j hij hj
      have := hx (i + 1) (j + 1) (by omega) (by simpa using hj)
      simpa using this
    obtain ⟨ih1, ih2⟩ := ih hl
    by_cases hc : c ≤ x
    · have hd : digitize (c :: l) x = digitize l x + 1 := by
        unfold digitize
        rw [List.filter_cons_of_pos (by simpa using hc)]
        rfl
      refine ⟨by rw [hd]; simpa using ih1, ?_⟩
      intro i hi
      rw [hd]
      cases i with
      | zero => simpa using hc
      | succ i =>
        have := ih2 i (by simpa using hi)
        rw [List.getD_cons_succ, this]
        omega
    · have hd : digitize (c :: l) x = 0 := by
        unfold digitize
        rw [List.filter_eq_nil_iff.2]
        · rfl
        · intro b hb
          simp only [decide_eq_true_eq]
          rcases List.mem_cons.1 hb with rfl | hb
          · exact hc
          · obtain ⟨i, hi, rfl⟩ := List.getElem_of_mem hb
            have := hx 0 (i + 1) (by omega) (by simpa using hi)
            simp only [List.getD_cons_zero, List.getD_cons_succ, List.getD_eq_getElem l 0 hi] at this
            intro hle
            exact hc (le_of_lt (lt_of_lt_of_le this hle))
      refine ⟨by rw [hd]; omega, fun i hi => ?_⟩
      rw [hd]
      simp only [Nat.not_lt_zero, iff_false]
      intro hle
      cases i with
      | zero => exact hc (by simpa using hle)
      | succ i =>
        have := hx 0 (i + 1) (by omega) hi
        simp only [List.getD_cons_zero] at this
        exact hc (le_of_lt (lt_of_lt_of_le this hle))

/-- The point lies between the first and the last coordinate. -/
def Inside (xs : List K) (x : K) : Prop := xs.getD 0 0 ≤ x ∧ x ≤ xs.getD (xs.length - 1) 0

theorem cellOf_spec {xs : List K} (hx : Increasing xs) (h2 : 2 ≤ xs.length) {x : K}
    (hin : Inside xs x) :
    xs.getD (cellOf xs x) 0 ≤ x ∧ x ≤ xs.getD (cellOf xs x + 1) 0 ∧
      (x < xs.getD (cellOf xs x + 1) 0 ∨ cellOf xs x + 2 = xs.length) := by
  obtain ⟨h1, h3⟩ := digitize_spec hx x
  have hpos : 0 < digitize xs x := (h3 0 (by omega)).1 hin.1
  unfold cellOf
  by_cases hd : digitize xs x < xs.length
  · rw [Nat.min_eq_left (by omega), Nat.sub_add_cancel hpos]
    have hlt : x < xs.getD (digitize xs x) 0 := by
      rw [← not_le]
      intro hle
      exact lt_irrefl _ ((h3 _ hd).1 hle)
    exact ⟨(h3 _ (by omega)).2 (by omega), le_of_lt hlt, Or.inl hlt⟩
  · rw [Nat.min_eq_right (by omega), Nat.sub_add_cancel (by omega)]
    exact ⟨(h3 _ (by omega)).2 (by omega), hin.2, Or.inr (by omega)⟩

theorem Increasing.le {xs : List K} (hx : Increasing xs) {i j : Nat} (hij : i ≤ j)
    (hj : j < xs.length) : xs.getD i 0 ≤ xs.getD j 0 := by
  rcases Nat.lt_or_eq_of_le hij with h | rfl
  · exact le_of_lt (hx i j h hj)
  · exact le_refl _

theorem Increasing.lt_of {xs : List K} (hx : Increasing xs) {i j : Nat} (hi : i < xs.length)
    (h : xs.getD i 0 < xs.getD j 0) : i < j := by
  by_contra hc
  exact absurd (hx.le (by omega : j ≤ i) hi) (not_le.2 h)

/-- A point of a closed cell belongs to the cell, or is its right end and belongs to the next one. -/
theorem cellOf_closed {xs : List K} (hx : Increasing xs) {k : Nat} (hk : k + 1 < xs.length) {x : K}
    (h1 : xs.getD k 0 ≤ x) (h2 : x ≤ xs.getD (k + 1) 0) :
    cellOf xs x = k ∨ (x = xs.getD (k + 1) 0 ∧ cellOf xs x = k + 1 ∧ k + 2 < xs.length) := by
  have hin : Inside xs x := ⟨(hx.le (by omega) (by omega)).trans h1,
    h2.trans (hx.le (by omega) (by omega))⟩
  obtain ⟨c1, c2, c3⟩ := cellOf_spec hx (by omega) hin
  have hc := cellOf_lt (by omega : 2 ≤ xs.length) x
  rcases lt_trichotomy (cellOf xs x) k with h | h | h
  · exfalso
    rcases c3 with c3 | c3
    · exact absurd (lt_of_lt_of_le c3 (hx.le (by omega) (by omega))) (not_lt.2 h1)
    · omega
  · exact Or.inl h
  · have h4 : xs.getD (k + 1) 0 ≤ xs.getD (cellOf xs x) 0 := hx.le (by omega) (by omega)
    have hxe : x = xs.getD (k + 1) 0 := le_antisymm h2 (h4.trans c1)
    have hk1 : cellOf xs x = k + 1 := by
      by_contra hne
      have h5 : xs.getD (k + 1) 0 < xs.getD (cellOf xs x) 0 := hx _ _ (by omega) (by omega)
      exact absurd (lt_of_lt_of_le h5 c1) (by rw [hxe]; exact lt_irrefl _)
    exact Or.inr ⟨hxe, hk1, by omega⟩

theorem hermite_left {h : K} (f0 f1 d0 d1 : K) : hermite h 0 f0 f1 d0 d1 = f0 := by
  unfold hermite; simp

theorem hermite_right {h : K} (hh : h ≠ 0) (f0 f1 d0 d1 : K) : hermite h h f0 f1 d0 d1 = f1 := by
  unfold hermite; rw [div_self hh]; ring

theorem hermiteD_left {h : K} (f0 f1 d0 d1 : K) : hermiteD h 0 f0 f1 d0 d1 = d0 := by
  unfold hermiteD; simp

theorem hermiteD_right {h : K} (hh : h ≠ 0) (f0 f1 d0 d1 : K) : hermiteD h h f0 f1 d0 d1 = d1 := by
  unfold hermiteD; rw [div_self hh]; ring

theorem onCell_left (per : Bool) (xs : List K) (f : Nat → K) (k : Nat) :
    onCell per xs f k (xs.getD k 0) = f (wrap per xs.length k) := by
  unfold onCell; rw [sub_self, hermite_left]

theorem onCellD_left (per : Bool) (xs : List K) (f : Nat → K) (k : Nat) :
    onCellD per xs f k (xs.getD k 0) = slope per xs f (wrap per xs.length k) := by
  unfold onCellD; rw [sub_self, hermiteD_left]

theorem onCell_right (per : Bool) {xs : List K} (hx : Increasing xs) (f : Nat → K) {k : Nat}
    (hk : k + 1 < xs.length) :
    onCell per xs f k (xs.getD (k + 1) 0) = f (wrap per xs.length (k + 1)) := by
  unfold onCell
  rw [hermite_right (sub_ne_zero.2 (hx.ne (Nat.lt_succ_self k) hk).symm)]

theorem onCellD_right (per : Bool) {xs : List K} (hx : Increasing xs) (f : Nat → K) {k : Nat}
    (hk : k + 1 < xs.length) :
    onCellD per xs f k (xs.getD (k + 1) 0) = slope per xs f (wrap per xs.length (k + 1)) := by
  unfold onCellD
  rw [hermiteD_right (sub_ne_zero.2 (hx.ne (Nat.lt_succ_self k) hk).symm)]

/-- On a closed cell the interpolating function is the cubic of the cell. -/
theorem interp_closed (per : Bool) {xs : List K} (hx : Increasing xs) (f : Nat → K) {k : Nat}
    (hk : k + 1 < xs.length) {x : K} (h1 : xs.getD k 0 ≤ x) (h2 : x ≤ xs.getD (k + 1) 0) :
    interp per xs f x = onCell per xs f k x ∧ interpD per xs f x = onCellD per xs f k x := by
  unfold interp interpD
  rcases cellOf_closed hx hk h1 h2 with h | ⟨h, hc, hk2⟩
  · rw [h]; exact ⟨rfl, rfl⟩
  · rw [hc, h, onCell_left, onCellD_left, onCell_right per hx f hk, onCellD_right per hx f hk]
    exact ⟨rfl, rfl⟩

theorem interp_node (per : Bool) {xs : List K} (hx : Increasing xs) (h2 : 2 ≤ xs.length) (f : Nat → K)
    {i : Nat} (hi : i < xs.length) :
    interp per xs f (xs.getD i 0) = f (wrap per xs.length i) ∧
      interpD per xs f (xs.getD i 0) = slope per xs f (wrap per xs.length i) := by
  by_cases h : i + 1 < xs.length
  · obtain ⟨e1, e2⟩ := interp_closed per hx f h (le_refl _) (hx.le (by omega) h)
    rw [e1, e2, onCell_left, onCellD_left]
    exact ⟨rfl, rfl⟩
  · obtain ⟨k, rfl⟩ : ∃ k, i = k + 1 := ⟨i - 1, by omega⟩
    obtain ⟨e1, e2⟩ := interp_closed per hx f hi (hx.le (by omega) hi) (le_refl _)
    rw [e1, e2, onCell_right per hx f hi, onCellD_right per hx f hi]
    exact ⟨rfl, rfl⟩

theorem interp_congr {per : Bool} {xs : List K} (hn : Enough per xs.length) {f g : Nat → K}
    (h : ∀ m < freeLen per xs.length, f m = g m) (x : K) :
    interp per xs f x = interp per xs g x ∧ interpD per xs f x = interpD per xs g x := by
  have hc := cellOf_lt hn.two x
  have h1 := wrap_lt hn (show cellOf xs x < xs.length by omega)
  have h2 := wrap_lt hn hc
  unfold interp interpD onCell onCellD
  rw [h _ h1, h _ h2, slope_congr hn h h1, slope_congr hn h h2]
  exact ⟨rfl, rfl⟩

/-! ## Quadratic functions -/

theorem threePoint_quadratic {x0 x1 x2 : K} (h01 : x0 ≠ x1) (h12 : x1 ≠ x2) (h02 : x0 ≠ x2)
    (A B C x : K) :
    threePoint x0 x1 x2 (A + B * x0 + C * x0 ^ 2) (A + B * x1 + C * x1 ^ 2) (A + B * x2 + C * x2 ^ 2) x
      = B + 2 * C * x := by
  have h1 : x0 - x1 ≠ 0 := sub_ne_zero.2 h01
  have h2 : x2 - x1 ≠ 0 := sub_ne_zero.2 h12.symm
  have h3 : x0 - x2 ≠ 0 := sub_ne_zero.2 h02
  unfold threePoint
  rw [show x1 - x0 = -(x0 - x1) by ring, show x1 - x2 = -(x2 - x1) by ring,
    show x2 - x0 = -(x0 - x2) by ring]
  field_simp
  ring

theorem slope_quadratic {xs : List K} (hx : Increasing xs) (hn : 3 ≤ xs.length) (A B C : K) {i : Nat}
    (hi : i < xs.length) :
    slope false xs (fun m => A + B * xs.getD m 0 + C * xs.getD m 0 ^ 2) i
      = B + 2 * C * xs.getD i 0 := by
  unfold slope
  simp only [if_false, Bool.false_eq_true]
  split
  · exact threePoint_quadratic (hx.ne (by omega) (by omega)) (hx.ne (by omega) (by omega))
      (hx.ne (by omega) (by omega)) _ _ _ _
  · split
    · rename_i h; subst h
      exact threePoint_quadratic (hx.ne (by omega) (by omega)) (hx.ne (by omega) (by omega))
        (hx.ne (by omega) (by omega)) _ _ _ _
    · exact threePoint_quadratic (hx.ne (by omega) (by omega)) (hx.ne (by omega) (by omega))
        (hx.ne (by omega) (by omega)) _ _ _ _

theorem interp_quadratic {xs : List K} (hx : Increasing xs) (hn : 3 ≤ xs.length) (A B C : K) (x : K) :
    interp false xs (fun m => A + B * xs.getD m 0 + C * xs.getD m 0 ^ 2) x = A + B * x + C * x ^ 2 ∧
    interpD false xs (fun m => A + B * xs.getD m 0 + C * xs.getD m 0 ^ 2) x = B + 2 * C * x := by
  have hc := cellOf_lt (by omega : 2 ≤ xs.length) x
  have hne : xs.getD (cellOf xs x + 1) 0 - xs.getD (cellOf xs x) 0 ≠ 0 :=
    sub_ne_zero.2 (hx.ne (Nat.lt_succ_self _) hc).symm
  unfold interp interpD onCell onCellD
  simp only [wrap, Bool.false_eq_true, false_and, if_false]
  rw [slope_quadratic hx hn A B C hc, slope_quadratic hx hn A B C (show cellOf xs x < xs.length by omega)]
  generalize xs.getD (cellOf xs x + 1) 0 = p at *
  generalize xs.getD (cellOf xs x) 0 = q at *
  obtain ⟨h, rfl⟩ : ∃ h, p = q + h := ⟨p - q, by ring⟩
  obtain ⟨t, rfl⟩ : ∃ t, x = q + t := ⟨x - q, by ring⟩
  rw [show q + h - q = h by ring] at *
  rw [show q + t - q = t by ring]
  unfold hermite hermiteD
  constructor
  · field_simp; ring
  · field_simp; ring

/-! ## When the matrices exist -/

theorem makeDmatrixQuad_error {xs ys : List K} {per : Bool × Bool}
    (h : ¬ (Enough per.1 xs.length ∧ Enough per.2 ys.length)) :
    makeDmatrixQuad xs ys .x per = .error .shape ∨ makeDmatrixQuad xs ys .y per = .error .shape := by
  obtain ⟨px, py⟩ := per
  unfold makeDmatrixQuad Enough at *
  cases px <;> cases py <;>
    simp only [freeLen, Bool.false_eq_true, false_and, if_true, if_false, true_and, false_or,
      Bool.true_eq_false, or_false] at h ⊢
  · by_cases h1 : xs.length < 3
    · left; rw [if_pos h1]
    · right; rw [if_pos (by omega)]
  · by_cases h1 : xs.length < 3
    · left; rw [if_pos (by omega)]
    · right; rw [if_pos (by omega)]
  · by_cases h1 : ys.length < 3
    · right; rw [if_pos (by omega)]
    · left; rw [if_pos (by omega)]
  · left; rw [if_pos (by omega)]

/-- The matrices exist exactly if the fine grid ends inside of the coarse grid and the coarse grid
has enough points. -/
theorem cubicMatrices_ok_iff {X Y xs ys : List K} {per : Bool × Bool} (hx : Increasing xs)
    (hy : Increasing ys) :
    (∃ m, cubicMatrices X Y xs ys per = .ok m) ↔
      fineInside X xs = true ∧ fineInside Y ys = true ∧ Enough per.1 xs.length ∧
        Enough per.2 ys.length := by
  constructor
  · rintro ⟨m, hm⟩
    unfold cubicMatrices at hm
    split at hm
    · rename_i hf
      rw [Bool.and_eq_true] at hf
      refine ⟨hf.1, hf.2, ?_⟩
      by_contra hc
      have he : ∃ e, phi2fii X Y xs ys per = .error e := by
        unfold phi2fii
        rcases makeDmatrixQuad_error hc with h | h
        · simp only [h, bind, Except.bind]
          exact ⟨_, rfl⟩
        · cases hd : makeDmatrixQuad xs ys .x per with
          | error e =>
            simp only [bind, Except.bind]
            exact ⟨_, rfl⟩
          | ok d =>
            simp only [h, bind, Except.bind]
            exact ⟨_, rfl⟩
      obtain ⟨e, he⟩ := he
      rw [he] at hm
      cases hm
    · cases hm
  · rintro ⟨h1, h2, h3, h4⟩
    obtain ⟨f, fx, fy, he, _⟩ := cubicMatrices_eval hx hy h3 h4 h1 h2
    exact ⟨_, he⟩

/-! ## The properties -/

/-- C82: on increasing coarse coordinates, `CubicMatrices` succeeds exactly if the first and last
fine coordinates lie inside of the coarse grid and every axis has enough points: three, or two for a
periodic axis. -/
theorem interpolation_exists {X Y xs ys : List K} {per : Bool × Bool} (hx : Increasing xs)
    (hy : Increasing ys) :
    (∃ m, cubicMatrices X Y xs ys per = .ok m) ↔
      ((pyGet 0 xs 0 ≤ pyGet 0 X 0 ∧ pyGet 0 X (-1) ≤ pyGet 0 xs (-1)) ∧
       (pyGet 0 ys 0 ≤ pyGet 0 Y 0 ∧ pyGet 0 Y (-1) ≤ pyGet 0 ys (-1))) ∧
      (if per.1 then 2 ≤ xs.length else 3 ≤ xs.length) ∧
      (if per.2 then 2 ≤ ys.length else 3 ≤ ys.length) := by
  rw [cubicMatrices_ok_iff hx hy]
  unfold fineInside Enough
  simp only [Bool.not_eq_true', Bool.or_eq_false_iff, decide_eq_false_iff_not, not_lt, gt_iff_lt]
  tauto

/-- C82: at a fine point that is a coarse point the interpolated value is the coarse value.  On a
periodic axis the last coarse point has the value of the first one. -/
theorem interpolates_coarse {X Y xs ys : List K} {per : Bool × Bool} (hx : Increasing xs)
    (hy : Increasing ys) {f fx fy : SpMat K} (hm : cubicMatrices X Y xs ys per = .ok (f, fx, fy))
    (v : Nat → K) {a b i j : Nat} (ha : a < X.length) (hb : b < Y.length) (hi : i < xs.length)
    (hj : j < ys.length) (hax : X.getD a 0 = xs.getD i 0) (hby : Y.getD b 0 = ys.getD j 0) :
    gridVal X.length (f.mulVec v) a b =
      gridVal (if per.1 then xs.length - 1 else xs.length) v
        (if per.1 ∧ i = xs.length - 1 then 0 else i) (if per.2 ∧ j = ys.length - 1 then 0 else j) := by
  obtain ⟨h1, h2, h3, h4⟩ := (cubicMatrices_ok_iff hx hy).1 ⟨_, hm⟩
  obtain ⟨f', fx', fy', he, _, _, hv⟩ := cubicMatrices_eval hx hy h3 h4 h1 h2
  rw [he] at hm
  cases hm
  unfold gridVal
  rw [(hv v a b ha hb).1, hax, hby, (interp_node per.1 hx h3.two _ hi).1,
    (interp_node per.2 hy h4.two _ hj).1]
  have e1 : wrap per.1 xs.length i = if per.1 ∧ i = xs.length - 1 then 0 else i := by
    unfold wrap
    simp only [show (i + 1 = xs.length) = (i = xs.length - 1) from propext ⟨by omega, by omega⟩]
  have e2 : wrap per.2 ys.length j = if per.2 ∧ j = ys.length - 1 then 0 else j := by
    unfold wrap
    simp only [show (j + 1 = ys.length) = (j = ys.length - 1) from propext ⟨by omega, by omega⟩]
  rw [e1, e2]
  rfl

/-- A polynomial of degree two in each variable. -/
def biquadratic (c : Nat → Nat → K) (x y : K) : K :=
  ∑ k ∈ range 3, ∑ l ∈ range 3, c k l * x ^ k * y ^ l

/-- C82: on a non-periodic grid, coarse values of a polynomial of degree two in each variable are
interpolated to the polynomial, and the derivative matrices give its derivatives. -/
theorem interpolates_biquadratic {X Y xs ys : List K} (hx : Increasing xs) (hy : Increasing ys)
    {f fx fy : SpMat K} (hm : cubicMatrices X Y xs ys (false, false) = .ok (f, fx, fy))
    (c : Nat → Nat → K) (v : Nat → K)
    (hv : ∀ i j, i < xs.length → j < ys.length →
      gridVal xs.length v i j = biquadratic c (xs.getD i 0) (ys.getD j 0))
    {a b : Nat} (ha : a < X.length) (hb : b < Y.length) (hax : Inside xs (X.getD a 0))
    (hby : Inside ys (Y.getD b 0)) :
    gridVal X.length (f.mulVec v) a b = biquadratic c (X.getD a 0) (Y.getD b 0) ∧
    gridVal X.length (fx.mulVec v) a b =
      ∑ k ∈ range 3, ∑ l ∈ range 3, c k l * (k * X.getD a 0 ^ (k - 1)) * Y.getD b 0 ^ l ∧
    gridVal X.length (fy.mulVec v) a b =
      ∑ k ∈ range 3, ∑ l ∈ range 3, c k l * X.getD a 0 ^ k * (l * Y.getD b 0 ^ (l - 1)) := by
  obtain ⟨h1, h2, h3, h4⟩ := (cubicMatrices_ok_iff hx hy).1 ⟨_, hm⟩
  obtain ⟨f', fx', fy', he, _, _, hev⟩ := cubicMatrices_eval hx hy h3 h4 h1 h2
  rw [he] at hm
  cases hm
  have n3 : 3 ≤ xs.length := by simpa [Enough] using h3
  have m3 : 3 ≤ ys.length := by simpa [Enough] using h4
  simp only [freeLen, Bool.false_eq_true, if_false] at hev
  generalize hX : X.getD a 0 = x at *
  generalize hY : Y.getD b 0 = y at *
  -- along y
  have hin : ∀ i < xs.length,
      interp false ys (fun j => v (i + xs.length * j)) y =
        (c 0 0 + c 0 1 * y + c 0 2 * y ^ 2) + (c 1 0 + c 1 1 * y + c 1 2 * y ^ 2) * xs.getD i 0 +
          (c 2 0 + c 2 1 * y + c 2 2 * y ^ 2) * xs.getD i 0 ^ 2 ∧
      interpD false ys (fun j => v (i + xs.length * j)) y =
        (c 0 1 + 2 * c 0 2 * y) + (c 1 1 + 2 * c 1 2 * y) * xs.getD i 0 +
          (c 2 1 + 2 * c 2 2 * y) * xs.getD i 0 ^ 2 := by
    intro i hi
    have hq := interp_quadratic hy m3 (c 0 0 + c 1 0 * xs.getD i 0 + c 2 0 * xs.getD i 0 ^ 2)
      (c 0 1 + c 1 1 * xs.getD i 0 + c 2 1 * xs.getD i 0 ^ 2)
      (c 0 2 + c 1 2 * xs.getD i 0 + c 2 2 * xs.getD i 0 ^ 2) y
    have hcg := interp_congr (f := fun j => v (i + xs.length * j)) (per := false) h4
      (g := fun m => (c 0 0 + c 1 0 * xs.getD i 0 + c 2 0 * xs.getD i 0 ^ 2) +
        (c 0 1 + c 1 1 * xs.getD i 0 + c 2 1 * xs.getD i 0 ^ 2) * ys.getD m 0 +
        (c 0 2 + c 1 2 * xs.getD i 0 + c 2 2 * xs.getD i 0 ^ 2) * ys.getD m 0 ^ 2)
      (fun m hm => by
        have := hv i m hi (by simpa [freeLen] using hm)
        simp only [gridVal, biquadratic, Finset.sum_range_succ, Finset.sum_range_zero] at this
        rw [this]; ring) y
    rw [hcg.1, hcg.2, hq.1, hq.2]
    constructor <;> ring
  obtain ⟨e1, e2, e3⟩ := hev v a b ha hb
  rw [hY, hX] at e1 e2 e3
  unfold gridVal
  rw [e1, e2, e3]
  have g1 := interp_congr (per := false) (xs := xs) h3 (fun m hm => (hin m (by simpa [freeLen] using hm)).1)
  have g2 := interp_congr (per := false) (xs := xs) h3 (fun m hm => (hin m (by simpa [freeLen] using hm)).2)
  rw [(g1 x).1, (g1 x).2, (g2 x).1, (interp_quadratic hx n3 _ _ _ x).1,
    (interp_quadratic hx n3 _ _ _ x).2, (interp_quadratic hx n3 _ _ _ x).1]
  simp only [biquadratic, Finset.sum_range_succ, Finset.sum_range_zero]
  refine ⟨by ring, ?_, ?_⟩
  · push_cast
    simp only [Nat.sub_self, Nat.reduceSub, pow_zero, pow_one]
    ring
  · push_cast
    simp only [Nat.sub_self, Nat.reduceSub, pow_zero, pow_one]
    ring

/-- Value, x-derivative and y-derivative at one point: what the matrices of the fine grid with this
single point give. -/
def surface (xs ys : List K) (per : Bool × Bool) (v : Nat → K) (x y : K) : K × K × K :=
  match cubicMatrices [x] [y] xs ys per with
  | .ok (f, fx, fy) => (f.mulVec v 0, fx.mulVec v 0, fy.mulVec v 0)
  | .error _ => (0, 0, 0)

theorem fineInside_one {xs : List K} (h : 0 < xs.length) (x : K) :
    fineInside [x] xs = true ↔ Inside xs x := by
  have e1 := pyGet_nat (0 : K) xs 0
  have e2 := pyGet_neg (0 : K) xs 1 (by omega)
  simp only [Nat.cast_zero, Nat.cast_one] at e1 e2
  have e3 : pyGet (0 : K) [x] 0 = x := rfl
  have e4 : pyGet (0 : K) [x] (-1) = x := rfl
  unfold fineInside Inside
  rw [e1, e2, e3, e4]
  simp only [Bool.not_eq_true', Bool.or_eq_false_iff, decide_eq_false_iff_not, not_lt, gt_iff_lt]

theorem surface_eq {xs ys : List K} {per : Bool × Bool} (hx : Increasing xs) (hy : Increasing ys)
    (hnx : Enough per.1 xs.length) (hny : Enough per.2 ys.length) (v : Nat → K) {x y : K}
    (hix : Inside xs x) (hiy : Inside ys y) :
    surface xs ys per v x y =
      (interp per.1 xs (fun i => interp per.2 ys (fun j => v (i + freeLen per.1 xs.length * j)) y) x,
       interpD per.1 xs (fun i => interp per.2 ys (fun j => v (i + freeLen per.1 xs.length * j)) y) x,
       interp per.1 xs (fun i => interpD per.2 ys (fun j => v (i + freeLen per.1 xs.length * j)) y) x) := by
  have h2 := hnx.two
  have h2' := hny.two
  obtain ⟨f, fx, fy, he, _, _, hv⟩ := cubicMatrices_eval (X := [x]) (Y := [y]) hx hy hnx hny
    ((fineInside_one (by omega) x).2 hix) ((fineInside_one (by omega) y).2 hiy)
  unfold surface
  rw [he]
  have := hv v 0 0 (by simp) (by simp)
  simp only [List.length_singleton, Nat.mul_zero, Nat.add_zero, List.getD_cons_zero] at this
  simp only [this.1, this.2.1, this.2.2]

/-- C82: the value and the derivatives at a fine point depend on the position of that point only,
not on the rest of the fine grid. -/
theorem fine_grid_pointwise {X Y xs ys : List K} {per : Bool × Bool} (hx : Increasing xs)
    (hy : Increasing ys) {f fx fy : SpMat K} (hm : cubicMatrices X Y xs ys per = .ok (f, fx, fy))
    (v : Nat → K) {a b : Nat} (ha : a < X.length) (hb : b < Y.length)
    (hax : Inside xs (X.getD a 0)) (hby : Inside ys (Y.getD b 0)) :
    (gridVal X.length (f.mulVec v) a b, gridVal X.length (fx.mulVec v) a b,
      gridVal X.length (fy.mulVec v) a b) = surface xs ys per v (X.getD a 0) (Y.getD b 0) := by
  obtain ⟨h1, h2, h3, h4⟩ := (cubicMatrices_ok_iff hx hy).1 ⟨_, hm⟩
  obtain ⟨f', fx', fy', he, _, _, hev⟩ := cubicMatrices_eval hx hy h3 h4 h1 h2
  rw [he] at hm
  cases hm
  rw [surface_eq hx hy h3 h4 v hax hby]
  obtain ⟨e1, e2, e3⟩ := hev v a b ha hb
  unfold gridVal
  rw [e1, e2, e3]

/-- Non-vacuity: an irregular grid with four by three points and a fine grid inside of it. -/
example : Increasing ([0, 1, 3, 4] : List ℚ) ∧ Increasing ([0, 2, 3] : List ℚ) ∧
    (∃ m, cubicMatrices [0, 1 / 2, 3] [1, 2] ([0, 1, 3, 4] : List ℚ) [0, 2, 3] (false, true) = .ok m) ∧
    Inside ([0, 1, 3, 4] : List ℚ) (1 / 2) := by
  have h1 : Increasing ([0, 1, 3, 4] : List ℚ) := by
    intro i j hij hj
    have : j < 4 := hj
    interval_cases j <;> interval_cases i <;> norm_num
  have h2 : Increasing ([0, 2, 3] : List ℚ) := by
    intro i j hij hj
    have : j < 3 := hj
    interval_cases j <;> interval_cases i <;> norm_num
  refine ⟨h1, h2, ?_, ?_⟩
  · rw [interpolation_exists h1 h2]
    norm_num [pyGet]
  · norm_num [Inside]

end Verif.Cubic
