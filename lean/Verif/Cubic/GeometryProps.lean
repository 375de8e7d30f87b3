import Verif.Cubic.GeometrySteps

/-!
# C81: symmetry and periodicity of the coarse grid
-/

set_option linter.unusedVariables false

namespace Verif.Cubic

variable {K : Type*} [CommRing K]

/-! ## Specification -/

/-- Value at position `(i, j)` of a grid with `nx` points along x, stored in Fortran order. -/
def gridVal (nx : Nat) (v : Nat → K) (i j : Nat) : K := v (i + nx * j)

/-- What the user asked for: the grid of `nx` by `ny` values is its own mirror image along the axes
with `sym`, and consists of `p` equal periods along the axes with `p ≠ 0`; the last line of the
last period is the first line of the next one, so that a period has `(n - 1) / p` lines. -/
structure Invariant (nx ny : Nat) (sym : Bool × Bool) (p : Nat × Nat) (G : Nat → Nat → K) : Prop where
  mirror_x : sym.1 = true → ∀ i j, i < nx → j < ny → G (nx - 1 - i) j = G i j
  mirror_y : sym.2 = true → ∀ i j, i < nx → j < ny → G i (ny - 1 - j) = G i j
  repeat_x : p.1 ≠ 0 → ∀ i j, i + (nx - 1) / p.1 < nx → j < ny → G (i + (nx - 1) / p.1) j = G i j
  repeat_y : p.2 ≠ 0 → ∀ i j, i < nx → j + (ny - 1) / p.2 < ny → G i (j + (ny - 1) / p.2) = G i j

/-- The number of points along an axis fits the options: at least two points for a symmetric axis
and a whole number of periods. -/
structure Fits (n : Nat) (sym : Bool) (p : Nat) : Prop where
  pos : 0 < n
  two : sym = true → 2 ≤ n
  per : p ≠ 0 → 2 ≤ n ∧ (n - 1) % p = 0

/-- The number of independent points along an axis. -/
def freePoints (n : Nat) (sym : Bool) (p : Nat) : Nat :=
  match p, sym with
  | 0, false => n
  | 0, true => (n + 1) / 2
  | p, false => (n - 1) / p
  | p, true => ((n - 1) / p + 2) / 2

/-! ## One axis -/

theorem Fits.ok {n : Nat} {s : Bool} {p : Nat} (h : Fits n s p) :
    AxisOk n s (p != 0) p (p != 0 && s) := by
  by_cases hp : p = 0
  · subst hp
    refine ⟨by simp, by simpa [bLen] using h.pos, by simp, ?_⟩
    intro hs
    simpa [uLen, pLen, bLen] using h.two hs
  · obtain ⟨h2, hm⟩ := h.per hp
    have hb : (p != 0) = true := by simpa using hp
    have hL : 0 < (n - 1) / p :=
      Nat.div_pos (Nat.le_of_dvd (by omega) (Nat.dvd_of_mod_eq_zero hm)) (Nat.pos_of_ne_zero hp)
    refine ⟨fun _ => h2, by simp only [bLen, hb, if_true]; omega,
      fun _ => by simpa only [bLen, hb, if_true] using hm, ?_⟩
    intro hs
    simp only [uLen, pLen, bLen, hb, hs, Bool.and_self, if_true, hp, if_false]
    omega

/-- Where a line of the whole grid comes from. -/
def srcIdx (n : Nat) (s : Bool) (p i : Nat) : Nat :=
  redIdx n s (p != 0) p (p != 0 && s) (bIdx (p != 0) n i)

/-- Where an independent line sits in the whole grid. -/
def posIdx (n : Nat) (s : Bool) (p i : Nat) : Nat :=
  bIdx (p != 0 && s) (uLen (p != 0 && s) (pLen p (bLen (p != 0) n))) i

theorem srcIdx_zero (n : Nat) (s : Bool) (i : Nat) : srcIdx n s 0 i = sIdx s n i := by
  simp [srcIdx, redIdx, bIdx, pIdx, uLen, pLen, bLen]

theorem srcIdx_per {n : Nat} {s : Bool} {p : Nat} (h : Fits n s p) (hp : p ≠ 0) {i : Nat} (hi : i < n) :
    srcIdx n s p i = if s then fold ((n - 1) / p + 1) (i % ((n - 1) / p)) else i % ((n - 1) / p) := by
  have hb : (p != 0) = true := by simpa using hp
  obtain ⟨h2, hm⟩ := h.per hp
  have hmod : (if i < n - 1 then i else 0) % ((n - 1) / p) = i % ((n - 1) / p) := by
    by_cases hlt : i < n - 1
    · rw [if_pos hlt]
    · rw [if_neg hlt, show i = n - 1 by omega]
      obtain ⟨L, hL⟩ := Nat.dvd_of_mod_eq_zero hm
      rw [hL, Nat.mul_div_cancel_left _ (Nat.pos_of_ne_zero hp), Nat.zero_mod, Nat.mul_mod_left]
  cases s <;>
    simp only [srcIdx, redIdx, bIdx, pIdx, uLen, pLen, bLen, sIdx, hb, hp, if_true, if_false,
      Bool.and_true, Bool.and_false, Bool.false_eq_true, hmod]

theorem posIdx_eq {n : Nat} {s : Bool} {p : Nat} (h : Fits n s p) {i : Nat}
    (hi : i < redLen n s (p != 0) p (p != 0 && s)) : posIdx n s p i = i := by
  unfold posIdx bIdx
  by_cases hu : (p != 0 && s) = true
  · have hp : p ≠ 0 := by
      intro h0; simp [h0] at hu
    have hs : s = true := by
      cases s
      · simp at hu
      · rfl
    have hb : (p != 0) = true := by simpa using hp
    obtain ⟨h2, hm⟩ := h.per hp
    have hL : 0 < (n - 1) / p :=
      Nat.div_pos (Nat.le_of_dvd (by omega) (Nat.dvd_of_mod_eq_zero hm)) (Nat.pos_of_ne_zero hp)
    subst hs
    simp only [redLen, sLen, uLen, pLen, bLen, hb, Bool.and_self, if_true, hp, if_false] at hi ⊢
    rw [if_pos (by omega)]
  · rw [if_neg hu]

theorem redLen_eq {n : Nat} {s : Bool} {p : Nat} :
    redLen n s (p != 0) p (p != 0 && s) = freePoints n s p := by
  cases p with
  | zero => cases s <;> simp [redLen, sLen, uLen, pLen, bLen, freePoints]
  | succ p =>
    cases s
    · simp [redLen, sLen, uLen, pLen, bLen, freePoints]
    · simp [redLen, sLen, uLen, pLen, bLen, freePoints]
      omega

theorem fold_mirror {n i : Nat} (h : i < n) : fold n (n - 1 - i) = fold n i := by
  unfold fold; split <;> split <;> omega

theorem mod_mirror {L p i : Nat} (hL : 0 < L) (hi : i ≤ p * L) :
    (p * L - i) % L = if i % L = 0 then 0 else L - i % L := by
  have hmod := Nat.mod_lt i hL
  obtain ⟨q, r, hq, hr⟩ : ∃ q r, i = L * q + r ∧ r = i % L :=
    ⟨i / L, i % L, (Nat.div_add_mod i L).symm, rfl⟩
  rw [← hr] at hmod ⊢
  have hqp : q ≤ p := by
    by_contra hc
    have : L * (p + 1) ≤ L * q := Nat.mul_le_mul_left L (by omega)
    rw [Nat.mul_succ, Nat.mul_comm L p] at this
    omega
  obtain ⟨d, rfl⟩ : ∃ d, p = q + d := ⟨p - q, by omega⟩
  rw [hq, show (q + d) * L = L * q + L * d by ring, Nat.add_sub_add_left]
  by_cases h0 : r = 0
  · simp [h0]
  · rw [if_neg h0]
    cases d with
    | zero =>
      exfalso
      rw [hq] at hi
      have : (q + 0) * L = L * q := by ring
      omega
    | succ d =>
      have : L * (d + 1) - r = (L - r) + L * d := by
        have : L * (d + 1) = L * d + L := by ring
        omega
      rw [this, Nat.add_mul_mod_self_left, Nat.mod_eq_of_lt (by omega)]

theorem srcIdx_mirror {n p : Nat} (h : Fits n true p) {i : Nat} (hi : i < n) :
    srcIdx n true p (n - 1 - i) = srcIdx n true p i := by
  by_cases hp : p = 0
  · subst hp
    rw [srcIdx_zero, srcIdx_zero]
    exact fold_mirror hi
  · obtain ⟨h2, hm⟩ := h.per hp
    rw [srcIdx_per h hp (by omega), srcIdx_per h hp hi]
    obtain ⟨L, hL⟩ := Nat.dvd_of_mod_eq_zero hm
    have hLp : 0 < L := by
      rcases Nat.eq_zero_or_pos L with h0 | h0
      · subst h0; omega
      · exact h0
    rw [hL, Nat.mul_div_cancel_left _ (Nat.pos_of_ne_zero hp), mod_mirror hLp (by omega)]
    simp only [if_true]
    have := Nat.mod_lt i hLp
    split
    · rename_i h0; rw [h0]
    · unfold fold; split <;> split <;> omega

theorem srcIdx_repeat {n p : Nat} {s : Bool} (h : Fits n s p) (hp : p ≠ 0) {i : Nat}
    (hi : i + (n - 1) / p < n) : srcIdx n s p (i + (n - 1) / p) = srcIdx n s p i := by
  rw [srcIdx_per h hp hi, srcIdx_per h hp (Nat.lt_of_le_of_lt (Nat.le_add_right _ _) hi),
    Nat.add_mod_right]

theorem srcIdx_pos {n p : Nat} {s : Bool} (h : Fits n s p) {i : Nat}
    (hi : i < redLen n s (p != 0) p (p != 0 && s)) : i < n ∧ srcIdx n s p i = i := by
  rw [redLen_eq] at hi
  by_cases hp : p = 0
  · subst hp
    rw [srcIdx_zero]
    cases s
    · exact ⟨hi, rfl⟩
    · simp only [freePoints] at hi
      refine ⟨by omega, ?_⟩
      simp only [sIdx, if_true, fold]
      rw [if_pos hi]
  · obtain ⟨h2, hm⟩ := h.per hp
    have hL : 0 < (n - 1) / p :=
      Nat.div_pos (Nat.le_of_dvd (by omega) (Nat.dvd_of_mod_eq_zero hm)) (Nat.pos_of_ne_zero hp)
    have hle : (n - 1) / p ≤ n - 1 := Nat.div_le_self _ _
    obtain ⟨p, rfl⟩ : ∃ q, p = q + 1 := ⟨p - 1, by omega⟩
    cases s
    · simp only [freePoints] at hi
      refine ⟨by omega, ?_⟩
      rw [srcIdx_per h hp (by omega)]
      simp [Nat.mod_eq_of_lt hi]
    · simp only [freePoints] at hi
      refine ⟨by omega, ?_⟩
      rw [srcIdx_per h hp (by omega), Nat.mod_eq_of_lt (by omega)]
      simp only [if_true, fold]
      rw [if_pos (by omega)]

/-- Values along an axis that have the symmetries are determined by the independent ones. -/
theorem along_axis {α : Type*} {n p : Nat} {s : Bool} (h : Fits n s p) (g : Nat → α)
    (hmir : s = true → ∀ i < n, g (n - 1 - i) = g i)
    (hrep : p ≠ 0 → ∀ i, i + (n - 1) / p < n → g (i + (n - 1) / p) = g i) {i : Nat} (hi : i < n) :
    g (srcIdx n s p i) = g i := by
  by_cases hp : p = 0
  · subst hp
    rw [srcIdx_zero]
    cases s
    · rfl
    · simp only [sIdx, if_true, fold]
      split
      · rfl
      · exact hmir rfl i hi
  · obtain ⟨h2, hm⟩ := h.per hp
    obtain ⟨L, hL⟩ := Nat.dvd_of_mod_eq_zero hm
    have hpp := Nat.pos_of_ne_zero hp
    have hLp : 0 < L := by
      rcases Nat.eq_zero_or_pos L with h0 | h0
      · subst h0; omega
      · exact h0
    have hdiv : (n - 1) / p = L := by rw [hL, Nat.mul_div_cancel_left _ hpp]
    have hmod : ∀ q r, r + L * q < n → g (r + L * q) = g r := by
      intro q
      induction q with
      | zero => intro r _; simp
      | succ q ih =>
        intro r hr
        have he : r + L * (q + 1) = (r + L * q) + (n - 1) / p := by rw [hdiv]; ring
        rw [he] at hr ⊢
        rw [hrep hp _ hr, ih r (by omega)]
    have hg : g (i % L) = g i := by
      conv_rhs => rw [← Nat.mod_add_div i L]
      exact (hmod _ _ (by rw [Nat.mod_add_div]; exact hi)).symm
    rw [srcIdx_per h hp hi, hdiv]
    cases s
    · simpa using hg
    · simp only [if_true, fold]
      split
      · exact hg
      · rename_i hge
        have hlt := Nat.mod_lt i hLp
        rw [← hg]
        obtain ⟨d, rfl⟩ : ∃ d, p = d + 1 := ⟨p - 1, by omega⟩
        have hbig : L + 1 - 1 - i % L + L * d < n := by
          have : (d + 1) * L = L * d + L := by ring
          omega
        rw [← hmod d _ hbig, ← hmir rfl (i % L) (by
          have : (d + 1) * L = L * d + L := by ring
          omega)]
        congr 1
        have : (d + 1) * L = L * d + L := by ring
        omega

/-! ## C81 -/

/-- C81: whenever the number of coarse points fits the options, the geometry matrices exist; there
is one parameter per independent point; every parameter vector is blown up to a grid with exactly
the requested mirror symmetries and periods; every grid with these symmetries is obtained, namely
from the vector the reverse matrix makes of it; and the reverse matrix recovers the parameters. The
periodicity flags are those of the creators: set for the axes with a number of periods. -/
theorem geometry_symmetric (nx ny : Nat) (sym : Bool × Bool) (p : Nat × Nat)
    (hx : Fits nx sym.1 p.1) (hy : Fits ny sym.2 p.2) :
    ∃ G R : SpMat K,
      makeGeometryMatrixCubic (nx, ny) sym (p.1 != 0, p.2 != 0) p true = .ok (G, R) ∧
      G.rows = nx * ny ∧ G.cols = freePoints nx sym.1 p.1 * freePoints ny sym.2 p.2 ∧
      R.rows = G.cols ∧ R.cols = G.rows ∧
      (∀ v, Invariant nx ny sym p (gridVal nx (G.mulVec v))) ∧
      (∀ w, Invariant nx ny sym p (gridVal nx w) →
        ∀ i j, i < nx → j < ny → gridVal nx (G.mulVec (R.mulVec w)) i j = gridVal nx w i j) ∧
      (∀ v k, k < G.cols → R.mulVec (G.mulVec v) k = v k) := by
  obtain ⟨G, R, he, hG, hR⟩ := geometryMatrices_pull (K := K) nx ny sym (p.1 != 0, p.2 != 0) p
    (unitCubic p sym) true hx.ok hy.ok
  refine ⟨G, R, he, hG.rows, ?_, ?_, ?_, ?_, ?_, ?_⟩
  · rw [hG.cols, ← redLen_eq, ← redLen_eq]; rfl
  · rw [hG.cols, hR.rows]
  · rw [hG.rows, hR.cols]; rfl
  · -- the symmetries of the result
    intro v
    have hact : ∀ i j, i < nx → j < ny → gridVal nx (G.mulVec v) i j
        = v (srcIdx nx sym.1 p.1 i + redLen nx sym.1 (p.1 != 0) p.1 (p.1 != 0 && sym.1)
            * srcIdx ny sym.2 p.2 j) := fun i j hi hj => hG.act v i j hi hj
    refine ⟨fun hs i j hi hj => ?_, fun hs i j hi hj => ?_, fun hp i j hi hj => ?_,
      fun hp i j hi hj => ?_⟩
    · rw [hact _ _ (by omega) hj, hact _ _ hi hj]
      rw [hs] at hx ⊢
      rw [srcIdx_mirror hx hi]
    · rw [hact _ _ hi (by omega), hact _ _ hi hj]
      rw [hs] at hy ⊢
      rw [srcIdx_mirror hy hj]
    · rw [hact _ _ hi hj, hact _ _ (Nat.lt_of_le_of_lt (Nat.le_add_right _ _) hi) hj,
        srcIdx_repeat hx hp hi]
    · rw [hact _ _ hi hj, hact _ _ hi (Nat.lt_of_le_of_lt (Nat.le_add_right _ _) hj),
        srcIdx_repeat hy hp hj]
  · -- every symmetric grid
    intro w hw i j hi hj
    have hi' : srcIdx nx sym.1 p.1 i < redLen nx sym.1 (p.1 != 0) p.1 (p.1 != 0 && sym.1) :=
      hG.fst i hi
    have hj' : srcIdx ny sym.2 p.2 j < redLen ny sym.2 (p.2 != 0) p.2 (p.2 != 0 && sym.2) :=
      hG.snd j hj
    have h1 : gridVal nx (G.mulVec (R.mulVec w)) i j
        = gridVal nx w (posIdx nx sym.1 p.1 (srcIdx nx sym.1 p.1 i))
            (posIdx ny sym.2 p.2 (srcIdx ny sym.2 p.2 j)) :=
      (hG.act _ i j hi hj).trans (hR.act w _ _ hi' hj')
    rw [h1, posIdx_eq hx hi', posIdx_eq hy hj']
    have hlt : srcIdx nx sym.1 p.1 i < nx := (srcIdx_pos hx hi').1
    have hltj : srcIdx ny sym.2 p.2 j < ny := (srcIdx_pos hy hj').1
    rw [along_axis hx (fun a => gridVal nx w a (srcIdx ny sym.2 p.2 j))
      (fun hs a ha => hw.mirror_x hs a _ ha hltj) (fun hp a ha => hw.repeat_x hp a _ ha hltj) hi]
    exact along_axis hy (fun b => gridVal nx w i b)
      (fun hs b hb => hw.mirror_y hs i b hi hb) (fun hp b hb => hw.repeat_y hp i b hi hb) hj
  · -- the parameters
    intro v k hk
    rw [hG.cols] at hk
    simp only [] at hk
    generalize hrx : redLen nx sym.1 (p.1 != 0) p.1 (unitCubic p sym).1 = rx at *
    generalize hry : redLen ny sym.2 (p.2 != 0) p.2 (unitCubic p sym).2 = ry at *
    have hrx' : redLen nx sym.1 (p.1 != 0) p.1 (p.1 != 0 && sym.1) = rx := hrx
    have hry' : redLen ny sym.2 (p.2 != 0) p.2 (p.2 != 0 && sym.2) = ry := hry
    have hpos : 0 < rx := by
      rcases Nat.eq_zero_or_pos rx with h0 | h0
      · subst h0; simp at hk
      · exact h0
    have h1 : k % rx < rx := Nat.mod_lt _ hpos
    have h2 : k / rx < ry := Nat.div_lt_of_lt_mul hk
    have hsx := srcIdx_pos hx (i := k % rx) (by rw [hrx']; exact h1)
    have hsy := srcIdx_pos hy (i := k / rx) (by rw [hry']; exact h2)
    have hpx : posIdx nx sym.1 p.1 (k % rx) = k % rx := posIdx_eq hx (by rw [hrx']; exact h1)
    have hpy : posIdx ny sym.2 p.2 (k / rx) = k / rx := posIdx_eq hy (by rw [hry']; exact h2)
    have e1 := hR.act (G.mulVec v) (k % rx) (k / rx) h1 h2
    simp only [] at e1
    have e1' : R.mulVec (G.mulVec v) (k % rx + rx * (k / rx))
        = G.mulVec v (posIdx nx sym.1 p.1 (k % rx) + nx * posIdx ny sym.2 p.2 (k / rx)) := e1
    rw [Nat.mod_add_div, hpx, hpy] at e1'
    rw [e1']
    have e2 := hG.act v (k % rx) (k / rx) hsx.1 hsy.1
    have e2' : G.mulVec v (k % rx + nx * (k / rx))
        = v (srcIdx nx sym.1 p.1 (k % rx) + rx * srcIdx ny sym.2 p.2 (k / rx)) := e2
    rw [e2', hsx.2, hsy.2, Nat.mod_add_div]

/-- Non-vacuity: seven points in three mirror-symmetric periods, and four mirrored points. -/
example : Fits 7 true 3 ∧ Fits 4 true 0 ∧ freePoints 7 true 3 = 2 ∧ freePoints 4 true 0 = 2 :=
  ⟨⟨by decide, fun _ => by decide, fun _ => by decide⟩,
    ⟨by decide, fun _ => by decide, fun h => absurd rfl h⟩, rfl, rfl⟩

/-- C81: a number of points that is not a whole number of periods is rejected. -/
theorem geometry_periods_rejected (nx ny : Nat) (sym per : Bool × Bool) (p : Nat × Nat) (full : Bool)
    (hper : (per.1 = true → 2 ≤ nx) ∧ (per.2 = true → 2 ≤ ny)) (hny : 0 < bLen per.2 ny)
    (h : (p.1 ≠ 0 ∧ bLen per.1 nx % p.1 ≠ 0) ∨ (p.2 ≠ 0 ∧ bLen per.2 ny % p.2 ≠ 0)) :
    makeGeometryMatrixCubic (K := K) (nx, ny) sym per p full = .error .periods := by
  obtain ⟨addY, revAddY, e1, a1, r1⟩ := boundaryStep_pull (K := K) per.2 (nx, ny) .y rfl rfl hper.2
  simp only [setAxis, getAxis, axf] at e1 a1 r1
  obtain ⟨addX, revAddX, e2, a2, r2⟩ := boundaryStep_pull (K := K) per.1 (nx, bLen per.2 ny) .x
    (w := addY.cols) (w' := revAddY.rows) a1.cols r1.rows hper.1
  simp only [setAxis, getAxis, axf] at e2 a2 r2
  by_cases hy : p.2 ≠ 0 ∧ bLen per.2 ny % p.2 ≠ 0
  · have e3 : periodStep (K := K) p.2 (bLen per.1 nx, bLen per.2 ny) .y addX.cols revAddX.rows
        = .error .periods := by
      unfold periodStep
      have h2 : ¬ getAxis (bLen per.1 nx, bLen per.2 ny) .y % p.2 = 0 := hy.2
      rw [if_neg hy.1, if_neg h2]
    simp only [makeGeometryMatrixCubic, geometryMatrices, e1, e2, e3, bind, Except.bind]
  · obtain ⟨perY, revPerY, e3, a3, r3⟩ := periodStep_pull (K := K) p.2
      (bLen per.1 nx, bLen per.2 ny) .y (w := addX.cols) (w' := revAddX.rows) a2.cols r2.rows
      (fun h0 => ⟨by by_contra hc; exact hy ⟨h0, hc⟩, hny⟩)
    simp only [setAxis, getAxis, axf] at e3 a3 r3
    have hx := h.resolve_right hy
    have e4 : periodStep (K := K) p.1 (bLen per.1 nx, pLen p.2 (bLen per.2 ny)) .x perY.cols
        revPerY.rows = .error .periods := by
      unfold periodStep
      have h2 : ¬ getAxis (bLen per.1 nx, pLen p.2 (bLen per.2 ny)) .x % p.1 = 0 := hx.2
      rw [if_neg hx.1, if_neg h2]
    simp only [makeGeometryMatrixCubic, geometryMatrices, e1, e2, e3, e4, bind, Except.bind]

/-- Non-vacuity: six points do not make three periods with a common boundary. -/
example : bLen true 6 % 3 ≠ 0 ∧ 0 < bLen false 4 := by decide

/-- C81 fails for a periodic axis without a number of periods (`periodicity=1`, `periods=0`, the
way to ask for periodic boundaries only): the mirror image is taken of the points without the
duplicated boundary, so the grid is not its own mirror image. -/
theorem periodic_mirror_false [Nontrivial K] (nx ny : Nat) (hx : 4 ≤ nx) (hy : 0 < ny) :
    ∃ G R : SpMat K, makeGeometryMatrixCubic (nx, ny) (true, false) (true, false) (0, 0) true
        = .ok (G, R) ∧
      ∃ v : Nat → K, ¬ Invariant nx ny (true, false) (0, 0) (gridVal nx (G.mulVec v)) := by
  obtain ⟨G, R, he, hG, hR⟩ := geometryMatrices_pull (K := K) nx ny (true, false) (true, false) (0, 0)
    (unitCubic (0, 0) (true, false)) true
    ⟨fun _ => by omega, by simp only [bLen, if_true]; omega, fun h => absurd rfl h,
      fun _ => by simp [uLen, unitCubic, pLen, bLen]; omega⟩
    ⟨fun h => absurd h (by simp), by simpa [bLen] using hy, fun h => absurd rfl h,
      fun h => absurd h (by simp)⟩
  refine ⟨G, R, he, fun k => if k = 0 then 1 else 0, fun hinv => ?_⟩
  have h := hinv.mirror_x rfl 1 0 (by omega) hy
  have h1 := hG.act (fun k => if k = 0 then 1 else 0) (nx - 1 - 1) 0 (by
    simp only [if_true]; omega) hy
  have h2 := hG.act (fun k => if k = 0 then 1 else 0) 1 0 (by simp only [if_true]; omega) hy
  simp only [gridVal] at h
  simp only [if_true] at h1 h2
  rw [h1, h2] at h
  have hr : ∀ i, redIdx nx true true 0 (unitCubic (0, 0) (true, false)).1 (bIdx true nx i)
      = fold (nx - 1) (if i < nx - 1 then i else 0) := fun i => rfl
  have hr' : ∀ i, redIdx ny false false 0 (unitCubic (0, 0) (true, false)).2 (bIdx false ny i) = i :=
    fun i => rfl
  have f1 : fold (nx - 1) (if nx - 1 - 1 < nx - 1 then nx - 1 - 1 else 0) = 0 := by
    rw [if_pos (by omega)]
    unfold fold
    rw [if_neg (by omega)]; omega
  have f2 : fold (nx - 1) (if 1 < nx - 1 then 1 else 0) = 1 := by
    rw [if_pos (by omega)]
    unfold fold
    rw [if_pos (by omega)]
  simp only [hr, hr', f1, f2] at h
  simp at h

/-- C81 fails for a number of periods without the periodicity flag: the unit cell is mirrored about
its own centre and the grid, which ends one line before the next period, is not its own mirror
image. -/
theorem unflagged_mirror_false [Nontrivial K] (L p ny : Nat) (hL : 3 ≤ L) (hp : 0 < p) (hy : 0 < ny) :
    ∃ G R : SpMat K, makeGeometryMatrixCubic (p * L, ny) (true, false) (false, false) (p, 0) true
        = .ok (G, R) ∧
      ∃ v : Nat → K, ¬ Invariant (p * L) ny (true, false) (0, 0) (gridVal (p * L) (G.mulVec v)) := by
  have hpL : L ≤ p * L := Nat.le_mul_of_pos_left L hp
  have hp0 : p ≠ 0 := by omega
  have hdiv : p * L / p = L := Nat.mul_div_cancel_left L hp
  obtain ⟨G, R, he, hG, hR⟩ := geometryMatrices_pull (K := K) (p * L) ny (true, false) (false, false)
    (p, 0) (unitCubic (p, 0) (true, false)) true
    ⟨fun h => absurd h (by simp), by simp only [bLen]; simp; omega, fun _ => by simp [bLen],
      fun _ => by
        have hb : (p != 0) = true := by simpa using hp0
        simp only [uLen, unitCubic, pLen, bLen, hb, hp0, if_false, Bool.and_self, if_true]
        simp only [Bool.false_eq_true, if_false, hdiv]
        omega⟩
    ⟨fun h => absurd h (by simp), by simpa [bLen] using hy, fun h => absurd rfl h,
      fun h => absurd h (by simp)⟩
  refine ⟨G, R, he, fun k => if k = 0 then 1 else 0, fun hinv => ?_⟩
  have h := hinv.mirror_x rfl 0 0 (by omega) hy
  have h1 := hG.act (fun k => if k = 0 then 1 else 0) (p * L - 1 - 0) 0 (by
    simp only [if_true]; omega) hy
  have h2 := hG.act (fun k => if k = 0 then 1 else 0) 0 0 (by simp only [if_true]; omega) hy
  simp only [gridVal] at h
  simp only [if_true] at h1 h2
  rw [h1, h2] at h
  have hb : (p != 0) = true := by simpa using hp0
  have hm : (p * L - 1) % L = L - 1 := by
    obtain ⟨d, rfl⟩ : ∃ d, p = d + 1 := ⟨p - 1, by omega⟩
    have : (d + 1) * L - 1 = (L - 1) + L * d := by
      have : (d + 1) * L = L * d + L := by ring
      omega
    rw [this, Nat.add_mul_mod_self_left, Nat.mod_eq_of_lt (by omega)]
  simp only [redIdx, sIdx, uLen, unitCubic, pLen, bLen, pIdx, bIdx, if_true, hb, hp0, if_false,
    Bool.and_self, Bool.false_eq_true, hdiv, Nat.sub_zero, hm, Nat.zero_mod] at h
  have f1 : fold (L + 1) (L - 1) = 1 := by
    unfold fold
    rw [if_neg (by omega)]; omega
  have f2 : fold (L + 1) 0 = 0 := by
    unfold fold
    rw [if_pos (by omega)]
  simp only [f1, f2] at h
  simp at h

end Verif.Cubic
