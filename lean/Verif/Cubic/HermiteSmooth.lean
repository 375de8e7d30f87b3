import Verif.Cubic.HermiteLemmas

/-!
# Lemmas: signs, smoothness and the level of the Hermite parametrization
-/

set_option linter.unusedVariables false
set_option linter.unusedSectionVars false
set_option linter.unusedSimpArgs false

namespace Verif.Cubic

open Finset Set

/-! ## Signs along an axis -/

section
variable {K : Type*} [CommRing K]

/-- The factor of a derivative along an axis of `n` lines at line `i`: 1 without symmetry; with it, 1
in the first half of a mirrored cell, −1 in the second, 0 on its axis, and, with periods, 0 on the
border of the cell, where a smooth periodic symmetric function has no slope. -/
def dSign (n : Nat) (s : Bool) (p i : Nat) : K :=
  if s then signAt (p != 0) (if p = 0 then n else (n - 1) / p + 1)
    (if p = 0 then i else i % ((n - 1) / p)) else 1

theorem dSign_false (n p i : Nat) : (dSign n false p i : K) = 1 := by simp [dSign]

theorem dSign_wrap {n p i : Nat} {s : Bool} (h : Fits n s p) (hi : i < n) :
    (dSign n s p (wrap (p != 0) n i) : K) = dSign n s p i := by
  by_cases hp : p = 0
  · subst hp
    simp [dSign, wrap]
  · obtain ⟨h2, hm⟩ := h.per hp
    unfold wrap
    split
    · rename_i hc
      unfold dSign
      simp only [hp, if_false]
      rw [show i = n - 1 by omega]
      obtain ⟨L, hL⟩ := Nat.dvd_of_mod_eq_zero hm
      rw [hL, Nat.mul_div_cancel_left _ (Nat.pos_of_ne_zero hp), Nat.mul_mod_left, Nat.zero_mod]
    · rfl

theorem signAt_mirror (per : Bool) {n i : Nat} (hi : i < n) :
    (signAt per n (n - 1 - i) : K) = -signAt per n i := by
  have h0 : (n - 1 - i = 0 ∨ n - 1 - i + 1 = n) ↔ (i = 0 ∨ i + 1 = n) := by omega
  unfold signAt
  simp only [h0]
  rw [← neg_mul]
  congr 1
  by_cases h1 : n % 2 = 1 ∧ i = n / 2
  · rw [if_neg (by omega), if_pos (by omega), if_neg (by omega), if_pos h1, neg_zero]
  · by_cases h2 : i < n / 2
    · rw [if_neg (by omega), if_neg (by omega), if_pos h2]
    · rw [if_pos (by omega), if_neg h2, if_neg h1, neg_neg]

theorem dSign_mirror {n p : Nat} (h : Fits n true p) {i : Nat} (hi : i < n) :
    (dSign n true p (n - 1 - i) : K) = -dSign n true p i := by
  unfold dSign
  by_cases hp : p = 0
  · simp only [hp, if_true]
    exact signAt_mirror _ hi
  · obtain ⟨h2, hm⟩ := h.per hp
    have hb : (p != 0) = true := by simpa using hp
    simp only [hp, if_false, if_true, hb]
    obtain ⟨L, hL⟩ := Nat.dvd_of_mod_eq_zero hm
    have hLp : 0 < L := by
      rcases Nat.eq_zero_or_pos L with h0 | h0
      · subst h0; omega
      · exact h0
    rw [hL, Nat.mul_div_cancel_left _ (Nat.pos_of_ne_zero hp), mod_mirror hLp (by omega)]
    have := Nat.mod_lt i hLp
    split
    · rename_i h0
      rw [h0]
      simp [signAt]
    · have := signAt_mirror (K := K) true (n := L + 1) (i := i % L) (by omega)
      rw [show L + 1 - 1 - i % L = L - i % L by omega] at this
      exact this

theorem dSign_repeat {n p : Nat} {s : Bool} (hp : p ≠ 0) (i : Nat) :
    (dSign n s p (i + (n - 1) / p) : K) = dSign n s p i := by
  unfold dSign
  simp only [hp, if_false, Nat.add_mod_right]

/-- Slopes that have the symmetries are determined by the independent ones. -/
theorem dSign_axis [NoZeroDivisors K] [CharZero K] {n p : Nat} {s : Bool} (h : Fits n s p) (q : Nat → K)
    (hmir : s = true → ∀ i < n, q (n - 1 - i) = -q i)
    (hrep : p ≠ 0 → ∀ i, i + (n - 1) / p < n → q (i + (n - 1) / p) = q i) {i : Nat} (hi : i < n) :
    dSign n s p i * (dSign n s p (srcIdx n s p i) * q (srcIdx n s p i)) = q i := by
  cases s with
  | false =>
    rw [dSign_false, dSign_false, one_mul, one_mul]
    exact along_axis h q (fun hs => by simp at hs) hrep hi
  | true =>
    have hm := hmir rfl
    have zero : ∀ x : K, x = -x → x = 0 := fun x hx => by
      have h2 : (2 : K) * x = 0 := by rw [two_mul]; nth_rw 1 [hx]; ring
      exact (mul_eq_zero.1 h2).resolve_left two_ne_zero
    by_cases hp : p = 0
    · subst hp
      rw [srcIdx_zero]
      simp only [dSign, if_true, sIdx, fold, signAt]
      by_cases hmid : n % 2 = 1 ∧ i = n / 2
      · have hz : q i = 0 := by
          apply zero
          rw [← hm i hi]
          congr 1
          omega
        rw [if_pos (show i < (n + 1) / 2 by omega), hz]
        simp
      · by_cases hlt : i < n / 2
        · rw [if_pos (show i < (n + 1) / 2 by omega), if_pos hlt]
          simp
        · rw [if_neg (show ¬ i < (n + 1) / 2 by omega), if_neg hlt, if_neg hmid,
            if_pos (show n - 1 - i < n / 2 by omega), hm i hi]
          simp
    · obtain ⟨h2, hdiv⟩ := h.per hp
      have hb : (p != 0) = true := by simpa using hp
      obtain ⟨L, hL⟩ := Nat.dvd_of_mod_eq_zero hdiv
      have hpp := Nat.pos_of_ne_zero hp
      have hLp : 0 < L := by
        rcases Nat.eq_zero_or_pos L with h0 | h0
        · subst h0; omega
        · exact h0
      have hdL : (n - 1) / p = L := by rw [hL, Nat.mul_div_cancel_left _ hpp]
      have hrep' := hrep hp
      rw [hdL] at hrep'
      have hmod : ∀ t r, r + L * t < n → q (r + L * t) = q r := by
        intro t
        induction t with
        | zero => intro r _; simp
        | succ t ih =>
          intro r hr
          have he : r + L * (t + 1) = (r + L * t) + L := by ring
          rw [he] at hr ⊢
          rw [hrep' _ hr, ih r (by omega)]
      have hqi : q (i % L) = q i := by
        conv_rhs => rw [← Nat.mod_add_div i L]
        exact (hmod _ _ (by rw [Nat.mod_add_div]; exact hi)).symm
      have hlt := Nat.mod_lt i hLp
      have hLn : L ≤ n - 1 := by rw [hL]; exact Nat.le_mul_of_pos_left L hpp
      -- mirroring within a cell
      have hcell : ∀ r, r ≤ L → q (L - r) = -q r := by
        intro r hr
        obtain ⟨d, rfl⟩ : ∃ d, p = d + 1 := ⟨p - 1, by omega⟩
        have e : (d + 1) * L = L * d + L := by ring
        rw [← hm r (by omega), ← hmod d (L - r) (by omega)]
        congr 1
        omega
      have h0 : q 0 = 0 := by
        apply zero
        have := hcell 0 (by omega)
        rw [Nat.sub_zero] at this
        rw [← this]
        have := hrep' 0 (by omega)
        rw [Nat.zero_add] at this
        exact this.symm
      rw [← hqi]
      rw [srcIdx_per h hp hi]
      simp only [dSign, if_true, hp, if_false, hb, hdL]
      generalize i % L = r at hlt
      simp only [fold]
      by_cases hr0 : r = 0
      · subst hr0
        simp [signAt, h0]
      · by_cases hmid : (L + 1) % 2 = 1 ∧ r = (L + 1) / 2
        · have hz : q r = 0 := by
            apply zero
            rw [← hcell r (by omega)]
            congr 1
            omega
          rw [if_pos (show r < (L + 1 + 1) / 2 by omega), hz]
          simp
        · by_cases hh : r < (L + 1) / 2
          · rw [if_pos (show r < (L + 1 + 1) / 2 by omega), Nat.mod_eq_of_lt hlt]
            simp only [signAt]
            rw [if_pos hh, if_neg (show ¬ (r = 0 ∨ r + 1 = L + 1) by omega)]
            simp
          · rw [if_neg (show ¬ r < (L + 1 + 1) / 2 by omega),
              show L + 1 - 1 - r = L - r by omega, Nat.mod_eq_of_lt (show L - r < L by omega),
              hcell r (by omega)]
            simp only [signAt]
            rw [if_neg hh, if_neg hmid, if_neg (show ¬ (r = 0 ∨ r + 1 = L + 1) by omega),
              if_pos (show L - r < (L + 1) / 2 by omega),
              if_neg (show ¬ (L - r = 0 ∨ L - r + 1 = L + 1) by omega)]
            simp

theorem sg_eq {n p : Nat} {s : Bool} (h : Fits n s p) {i : Nat} (hi : i < freeLen (p != 0) n) :
    (sg s (p != 0) (uLen (p != 0 && s) (pLen p (bLen (p != 0) n))) (pIdx p (bLen (p != 0) n) i) : K)
      = dSign n s p i := by
  unfold sg dSign
  cases s with
  | false => simp
  | true =>
    by_cases hp : p = 0
    · subst hp
      simp [uLen, pLen, bLen, pIdx]
    · have hb : (p != 0) = true := by simpa using hp
      simp only [hb, hp, uLen, pLen, bLen, pIdx, if_true, if_false, Bool.and_true]

theorem sg_red {n p : Nat} {s : Bool} (h : Fits n s p) {i : Nat} (hi : i < freePoints n s p) :
    (sg s (p != 0) (uLen (p != 0 && s) (pLen p (bLen (p != 0) n))) i : K) = if p ≠ 0 ∧ (n - 1) / p = 1
      then sg s (p != 0) (uLen (p != 0 && s) (pLen p (bLen (p != 0) n))) i else dSign n s p i := by
  split
  · rfl
  · rename_i hc
    unfold sg dSign
    cases s with
    | false => simp
    | true =>
      by_cases hp : p = 0
      · subst hp
        simp [uLen, pLen, bLen]
      · have hb : (p != 0) = true := by simpa using hp
        simp only [hb, hp, uLen, pLen, bLen, if_true, if_false, Bool.and_true]
        obtain ⟨h2, hm⟩ := h.per hp
        have hL : 0 < (n - 1) / p :=
          Nat.div_pos (Nat.le_of_dvd (by omega) (Nat.dvd_of_mod_eq_zero hm)) (Nat.pos_of_ne_zero hp)
        obtain ⟨p, rfl⟩ : ∃ q, p = q + 1 := ⟨p - 1, by omega⟩
        simp only [freePoints] at hi
        rw [Nat.mod_eq_of_lt (by omega)]

end

/-! ## Linearity and smoothness in one variable -/

theorem herm1_add_smul (per : Bool) (xs : List ℝ) (f g d e : Nat → ℝ) (c x : ℝ) :
    herm1 per xs (fun m => f m + c * g m) (fun m => d m + c * e m) x
      = herm1 per xs f d x + c * herm1 per xs g e x ∧
    herm1D per xs (fun m => f m + c * g m) (fun m => d m + c * e m) x
      = herm1D per xs f d x + c * herm1D per xs g e x := by
  unfold herm1 herm1D hermite hermiteD
  constructor <;> ring

theorem herm1_hasDerivWithinAt_aux (per : Bool) {xs : List ℝ} (hx : Increasing xs) (f d : Nat → ℝ) :
    ∀ m, m < xs.length → ∀ x ∈ Icc (xs.getD 0 0) (xs.getD m 0), 0 < m →
      HasDerivWithinAt (herm1 per xs f d) (herm1D per xs f d x) (Icc (xs.getD 0 0) (xs.getD m 0)) x := by
  intro m
  induction m with
  | zero => intro _ _ _ h; omega
  | succ m ih =>
    intro hm x hxm _
    have h0m : xs.getD 0 0 ≤ xs.getD m 0 := hx.le (by omega) (by omega)
    have hmm : xs.getD m 0 ≤ xs.getD (m + 1) 0 := hx.le (by omega) hm
    have hcell : x ∈ Icc (xs.getD m 0) (xs.getD (m + 1) 0) →
        HasDerivWithinAt (herm1 per xs f d) (herm1D per xs f d x)
          (Icc (xs.getD m 0) (xs.getD (m + 1) 0)) x := by
      intro hxc
      rw [(herm1_closed per hx f d hm hxc.1 hxc.2).2]
      exact (hermite_hasDerivAt (sub_ne_zero.2 (hx.ne (Nat.lt_succ_self m) hm).symm) _ _ _ _ _
        x).hasDerivWithinAt.congr
        (fun s hs => (herm1_closed per hx f d hm hs.1 hs.2).1)
        (herm1_closed per hx f d hm hxc.1 hxc.2).1
    have hout : ∀ {a b : ℝ}, x ∉ Icc a b →
        HasDerivWithinAt (herm1 per xs f d) (herm1D per xs f d x) (Icc a b) x := by
      intro a b hn
      have hcl : x ∉ closure (Set.Icc a b) := by rwa [isClosed_Icc.closure_eq]
      exact HasFDerivWithinAt.of_notMem_closure hcl
    rw [← Icc_union_Icc_eq_Icc h0m hmm]
    refine HasDerivWithinAt.union ?_ ?_
    · rcases Nat.eq_zero_or_pos m with rfl | hpos
      · by_cases hxe : x = xs.getD 0 0
        · rw [Set.Icc_self, hxe]
          exact HasFDerivWithinAt.singleton (x := xs.getD 0 0)
        · exact hout (by rw [Set.Icc_self]; exact hxe)
      · by_cases hmem : x ∈ Icc (xs.getD 0 0) (xs.getD m 0)
        · exact ih (by omega) x hmem hpos
        · exact hout hmem
    · by_cases hmem : x ∈ Icc (xs.getD m 0) (xs.getD (m + 1) 0)
      · exact hcell hmem
      · exact hout hmem

theorem herm1_hasDerivWithinAt (per : Bool) {xs : List ℝ} (hx : Increasing xs) (h2 : 2 ≤ xs.length)
    (f d : Nat → ℝ) {x : ℝ} (hin : Inside xs x) :
    HasDerivWithinAt (herm1 per xs f d) (herm1D per xs f d x) {s | Inside xs s} x :=
  herm1_hasDerivWithinAt_aux per hx f d (xs.length - 1) (by omega) x hin (by omega)

theorem herm1D_continuousOn_aux (per : Bool) {xs : List ℝ} (hx : Increasing xs) (f d : Nat → ℝ) :
    ∀ m, m < xs.length → ContinuousOn (herm1D per xs f d) (Icc (xs.getD 0 0) (xs.getD m 0)) := by
  intro m
  induction m with
  | zero => intro _; rw [Set.Icc_self]; exact continuousOn_singleton _ _
  | succ m ih =>
    intro hm
    have h0m : xs.getD 0 0 ≤ xs.getD m 0 := hx.le (by omega) (by omega)
    have hmm : xs.getD m 0 ≤ xs.getD (m + 1) 0 := hx.le (by omega) hm
    rw [← Icc_union_Icc_eq_Icc h0m hmm]
    refine (ih (by omega)).union_of_isClosed ?_ isClosed_Icc isClosed_Icc
    refine ContinuousOn.congr (f := fun s => hermiteD (xs.getD (m + 1) 0 - xs.getD m 0) (s - xs.getD m 0)
      (f (wrap per xs.length m)) (f (wrap per xs.length (m + 1)))
      (d (wrap per xs.length m)) (d (wrap per xs.length (m + 1)))) ?_
      (fun s hs => (herm1_closed per hx f d hm hs.1 hs.2).2)
    unfold hermiteD
    fun_prop

theorem herm1D_continuousOn (per : Bool) {xs : List ℝ} (hx : Increasing xs) (h2 : 2 ≤ xs.length)
    (f d : Nat → ℝ) : ContinuousOn (herm1D per xs f d) {s | Inside xs s} :=
  herm1D_continuousOn_aux per hx f d (xs.length - 1) (by omega)

theorem herm1_continuousOn (per : Bool) {xs : List ℝ} (hx : Increasing xs) (h2 : 2 ≤ xs.length)
    (f d : Nat → ℝ) : ContinuousOn (herm1 per xs f d) {s | Inside xs s} :=
  fun x hin => (herm1_hasDerivWithinAt per hx h2 f d hin).continuousWithinAt

theorem herm1_sum (per : Bool) (xs : List ℝ) (a b : Nat → ℝ) (g : Nat → Nat → ℝ) (n : Nat) (x : ℝ) :
    (herm1 per xs (fun m => ∑ s ∈ range n, a s * g s m) (fun m => ∑ s ∈ range n, b s * g s m) x
      = ∑ s ∈ range n, (a s * herm1 per xs (g s) (fun _ => 0) x + b s * herm1 per xs (fun _ => 0) (g s) x)) ∧
    (herm1D per xs (fun m => ∑ s ∈ range n, a s * g s m) (fun m => ∑ s ∈ range n, b s * g s m) x
      = ∑ s ∈ range n, (a s * herm1D per xs (g s) (fun _ => 0) x
          + b s * herm1D per xs (fun _ => 0) (g s) x)) := by
  induction n with
  | zero => unfold herm1 herm1D hermite hermiteD; simp
  | succ n ih =>
    simp only [Finset.sum_range_succ]
    rw [← ih.1, ← ih.2]
    unfold herm1 herm1D hermite hermiteD
    constructor <;> ring

theorem herm1_basis {per : Bool} {xs : List ℝ} (hn : Enough per xs.length) (f d : Nat → ℝ) (x : ℝ) :
    (herm1 per xs f d x = ∑ s ∈ range (freeLen per xs.length),
      (f s * herm1 per xs (unit s) (fun _ => 0) x + d s * herm1 per xs (fun _ => 0) (unit s) x)) ∧
    (herm1D per xs f d x = ∑ s ∈ range (freeLen per xs.length),
      (f s * herm1D per xs (unit s) (fun _ => 0) x + d s * herm1D per xs (fun _ => 0) (unit s) x)) := by
  rw [← (herm1_sum per xs f d unit _ x).1, ← (herm1_sum per xs f d unit _ x).2]
  have key : ∀ (f : Nat → ℝ), ∀ m < freeLen per xs.length,
      f m = ∑ s ∈ range (freeLen per xs.length), f s * unit s m := by
    intro f m hm
    unfold unit
    simp only [mul_ite, mul_one, mul_zero]
    rw [Finset.sum_ite_eq (range (freeLen per xs.length)) m f, if_pos (mem_range.2 hm)]
  exact herm1_congr hn (key f) (key d) x

/-! ## Two variables -/

section
variable {xs ys : List ℝ} {per : Bool × Bool}

/-- The derivative of the surface along x. -/
noncomputable def surfaceHx (xs ys : List ℝ) (per : Bool × Bool) (g gx gy gxy : Nat → Nat → ℝ) (x y : ℝ) : ℝ :=
  herm1D per.1 xs (fun i => herm1 per.2 ys (g i) (gy i) y) (fun i => herm1 per.2 ys (gx i) (gxy i) y) x

/-- The derivative of the surface along y. -/
noncomputable def surfaceHy (xs ys : List ℝ) (per : Bool × Bool) (g gx gy gxy : Nat → Nat → ℝ) (x y : ℝ) : ℝ :=
  herm1 per.1 xs (fun i => herm1D per.2 ys (g i) (gy i) y) (fun i => herm1D per.2 ys (gx i) (gxy i) y) x

/-- The mixed derivative of the surface. -/
noncomputable def surfaceHxy (xs ys : List ℝ) (per : Bool × Bool) (g gx gy gxy : Nat → Nat → ℝ) (x y : ℝ) : ℝ :=
  herm1D per.1 xs (fun i => herm1D per.2 ys (g i) (gy i) y) (fun i => herm1D per.2 ys (gx i) (gxy i) y) x

theorem hermite_comp_deriv {h t : ℝ} {f0 f1 d0 d1 : ℝ → ℝ} {f0' f1' d0' d1' y : ℝ} {s : Set ℝ}
    (a : HasDerivWithinAt f0 f0' s y) (b : HasDerivWithinAt f1 f1' s y)
    (c : HasDerivWithinAt d0 d0' s y) (d : HasDerivWithinAt d1 d1' s y) :
    HasDerivWithinAt (fun y => hermite h t (f0 y) (f1 y) (d0 y) (d1 y)) (hermite h t f0' f1' d0' d1') s y ∧
    HasDerivWithinAt (fun y => hermiteD h t (f0 y) (f1 y) (d0 y) (d1 y)) (hermiteD h t f0' f1' d0' d1') s y := by
  unfold hermite hermiteD
  constructor
  · exact (((a.mul_const _).add (b.mul_const _)).add (c.mul_const _)).add (d.mul_const _)
  · exact (((a.mul_const _).add (b.mul_const _)).add (c.mul_const _)).add (d.mul_const _)

theorem surfaceH_derivs (hx : Increasing xs) (hy : Increasing ys) (h2 : 2 ≤ xs.length) (h2' : 2 ≤ ys.length)
    (g gx gy gxy : Nat → Nat → ℝ) {x y : ℝ} (hix : Inside xs x) (hiy : Inside ys y) :
    HasDerivWithinAt (fun s => surfaceH xs ys per g gx gy gxy s y) (surfaceHx xs ys per g gx gy gxy x y)
      {s | Inside xs s} x ∧
    HasDerivWithinAt (fun s => surfaceH xs ys per g gx gy gxy x s) (surfaceHy xs ys per g gx gy gxy x y)
      {s | Inside ys s} y ∧
    HasDerivWithinAt (fun s => surfaceHx xs ys per g gx gy gxy x s) (surfaceHxy xs ys per g gx gy gxy x y)
      {s | Inside ys s} y := by
  have hd := fun (f d : Nat → ℝ) => herm1_hasDerivWithinAt per.2 hy h2' f d hiy
  refine ⟨herm1_hasDerivWithinAt per.1 hx h2 _ _ hix, ?_, ?_⟩
  · exact (hermite_comp_deriv (hd _ _) (hd _ _) (hd _ _) (hd _ _)).1
  · exact (hermite_comp_deriv (hd _ _) (hd _ _) (hd _ _) (hd _ _)).2

theorem surfaceH_continuous (hx : Increasing xs) (hy : Increasing ys)
    (hnx : Enough per.1 xs.length) (hny : Enough per.2 ys.length) (g gx gy gxy : Nat → Nat → ℝ) :
    ContinuousOn (fun q : ℝ × ℝ => surfaceH xs ys per g gx gy gxy q.1 q.2) (region xs ys) ∧
    ContinuousOn (fun q : ℝ × ℝ => surfaceHx xs ys per g gx gy gxy q.1 q.2) (region xs ys) ∧
    ContinuousOn (fun q : ℝ × ℝ => surfaceHy xs ys per g gx gy gxy q.1 q.2) (region xs ys) ∧
    ContinuousOn (fun q : ℝ × ℝ => surfaceHxy xs ys per g gx gy gxy q.1 q.2) (region xs ys) := by
  have hX : ∀ f d, ContinuousOn (fun q : ℝ × ℝ => herm1 per.1 xs f d q.1) (region xs ys) := fun f d =>
    (herm1_continuousOn per.1 hx hnx.two f d).comp continuousOn_fst (fun q hq => hq.1)
  have hXD : ∀ f d, ContinuousOn (fun q : ℝ × ℝ => herm1D per.1 xs f d q.1) (region xs ys) := fun f d =>
    (herm1D_continuousOn per.1 hx hnx.two f d).comp continuousOn_fst (fun q hq => hq.1)
  have hY : ∀ f d, ContinuousOn (fun q : ℝ × ℝ => herm1 per.2 ys f d q.2) (region xs ys) := fun f d =>
    (herm1_continuousOn per.2 hy hny.two f d).comp continuousOn_snd (fun q hq => hq.2)
  have hYD : ∀ f d, ContinuousOn (fun q : ℝ × ℝ => herm1D per.2 ys f d q.2) (region xs ys) := fun f d =>
    (herm1D_continuousOn per.2 hy hny.two f d).comp continuousOn_snd (fun q hq => hq.2)
  refine ⟨?_, ?_, ?_, ?_⟩
  · refine ContinuousOn.congr (continuousOn_finsetSum (range (freeLen per.1 xs.length)) (fun i _ =>
      ((hY (g i) (gy i)).mul (hX (unit i) (fun _ => 0))).add
        ((hY (gx i) (gxy i)).mul (hX (fun _ => 0) (unit i))))) (fun q _ => ?_)
    exact (herm1_basis hnx _ _ q.1).1
  · refine ContinuousOn.congr (continuousOn_finsetSum (range (freeLen per.1 xs.length)) (fun i _ =>
      ((hY (g i) (gy i)).mul (hXD (unit i) (fun _ => 0))).add
        ((hY (gx i) (gxy i)).mul (hXD (fun _ => 0) (unit i))))) (fun q _ => ?_)
    exact (herm1_basis hnx _ _ q.1).2
  · refine ContinuousOn.congr (continuousOn_finsetSum (range (freeLen per.1 xs.length)) (fun i _ =>
      ((hYD (g i) (gy i)).mul (hX (unit i) (fun _ => 0))).add
        ((hYD (gx i) (gxy i)).mul (hX (fun _ => 0) (unit i))))) (fun q _ => ?_)
    exact (herm1_basis hnx _ _ q.1).1
  · refine ContinuousOn.congr (continuousOn_finsetSum (range (freeLen per.1 xs.length)) (fun i _ =>
      ((hYD (g i) (gy i)).mul (hXD (unit i) (fun _ => 0))).add
        ((hYD (gx i) (gxy i)).mul (hXD (fun _ => 0) (unit i))))) (fun q _ => ?_)
    exact (herm1_basis hnx _ _ q.1).2

theorem surfaceH_nodes (hx : Increasing xs) (hy : Increasing ys) (h2 : 2 ≤ xs.length) (h2' : 2 ≤ ys.length)
    (g gx gy gxy : Nat → Nat → ℝ) {i j : Nat} (hi : i < xs.length) (hj : j < ys.length) :
    surfaceH xs ys per g gx gy gxy (xs.getD i 0) (ys.getD j 0)
      = g (wrap per.1 xs.length i) (wrap per.2 ys.length j) ∧
    surfaceHx xs ys per g gx gy gxy (xs.getD i 0) (ys.getD j 0)
      = gx (wrap per.1 xs.length i) (wrap per.2 ys.length j) ∧
    surfaceHy xs ys per g gx gy gxy (xs.getD i 0) (ys.getD j 0)
      = gy (wrap per.1 xs.length i) (wrap per.2 ys.length j) ∧
    surfaceHxy xs ys per g gx gy gxy (xs.getD i 0) (ys.getD j 0)
      = gxy (wrap per.1 xs.length i) (wrap per.2 ys.length j) := by
  unfold surfaceH surfaceHx surfaceHy surfaceHxy
  simp only [(herm1_node per.1 hx h2 _ _ hi).1, (herm1_node per.1 hx h2 _ _ hi).2,
    (herm1_node per.2 hy h2' _ _ hj).1, (herm1_node per.2 hy h2' _ _ hj).2, and_self]

theorem surfaceH_congr (hnx : Enough per.1 xs.length) (hny : Enough per.2 ys.length)
    {g gx gy gxy g' gx' gy' gxy' : Nat → Nat → ℝ}
    (h : ∀ i j, i < freeLen per.1 xs.length → j < freeLen per.2 ys.length →
      g i j = g' i j ∧ gx i j = gx' i j ∧ gy i j = gy' i j ∧ gxy i j = gxy' i j) (x y : ℝ) :
    surfaceH xs ys per g gx gy gxy x y = surfaceH xs ys per g' gx' gy' gxy' x y := by
  unfold surfaceH
  refine (herm1_congr hnx (fun i hi => ?_) (fun i hi => ?_) x).1
  · exact (herm1_congr hny (fun j hj => (h i j hi hj).1) (fun j hj => (h i j hi hj).2.2.1) y).1
  · exact (herm1_congr hny (fun j hj => (h i j hi hj).2.1) (fun j hj => (h i j hi hj).2.2.2) y).1

end

end Verif.Cubic
