import Verif.Mat.Pchip
/-
The interpolant passes through the samples, lies between neighbouring samples and is monotone between them.
-/
namespace Verif.Mat

/-- A slope is at most three times the chord's, with the same sign. -/
def Mild (d m : ℝ) : Prop := ∃ a, 0 ≤ a ∧ a ≤ 3 ∧ d = a * m

theorem mild_zero (m : ℝ) : Mild 0 m := ⟨0, le_refl _, by norm_num, by ring⟩

theorem mild_three (m : ℝ) : Mild (3 * m) m := ⟨3, by norm_num, le_refl _, rfl⟩

theorem mild_self (m : ℝ) : Mild m m := ⟨1, by norm_num, by norm_num, by ring⟩

theorem mild_of_pos {d m : ℝ} (hm : 0 < m) (h0 : 0 ≤ d) (h3 : d ≤ 3 * m) : Mild d m :=
  ⟨d / m, div_nonneg h0 hm.le, by rw [div_le_iff₀ hm]; exact h3, by field_simp⟩

theorem mild_neg {d m : ℝ} (h : Mild (-d) (-m)) : Mild d m := by
  obtain ⟨a, h0, h3, h⟩ := h
  exact ⟨a, h0, h3, by linarith⟩

theorem edgeCase_neg (h0 h1 m0 m1 : ℝ) : edgeCase h0 h1 (-m0) (-m1) = -edgeCase h0 h1 m0 m1 := by
  have hd : ((2 * h0 + h1) * -m0 - h0 * -m1) / (h0 + h1) = -(((2 * h0 + h1) * m0 - h0 * m1) / (h0 + h1)) := by ring
  unfold edgeCase
  simp only [hd, Left.sign_neg, abs_neg, ne_eq, neg_inj]
  split
  · simp
  · split
    · ring
    · rfl

theorem edge_pos (h0 h1 m0 m1 : ℝ) (hh0 : 0 < h0) (hh1 : 0 < h1) (hm : 0 < m0) : Mild (edgeCase h0 h1 m0 m1) m0 := by
  unfold edgeCase
  simp only []
  set d := ((2 * h0 + h1) * m0 - h0 * m1) / (h0 + h1) with hd
  split
  · exact mild_zero _
  rename_i hs
  simp only [ne_eq, not_not] at hs
  rw [sign_pos hm, sign_eq_one_iff] at hs
  split
  · exact mild_three _
  rename_i hc
  by_cases hm1 : 0 < m1
  · apply mild_of_pos hm hs.le
    rw [hd, div_le_iff₀ (by linarith)]
    nlinarith [mul_pos hh0 hm1, mul_pos hh0 hm, mul_pos hh1 hm]
  · have hne : SignType.sign m0 ≠ SignType.sign m1 := by
      rw [sign_pos hm]
      intro e
      exact hm1 (sign_eq_one_iff.1 e.symm)
    have : ¬ 3 * |m0| < |d| := fun h => hc ⟨hne, h⟩
    rw [abs_of_pos hm, abs_of_pos hs] at this
    exact mild_of_pos hm hs.le (not_lt.1 this)

theorem edge_mild (h0 h1 m0 m1 : ℝ) (hh0 : 0 < h0) (hh1 : 0 < h1) : Mild (edgeCase h0 h1 m0 m1) m0 := by
  rcases lt_trichotomy m0 0 with hm | hm | hm
  · apply mild_neg
    rw [← edgeCase_neg]
    exact edge_pos h0 h1 (-m0) (-m1) hh0 hh1 (by linarith)
  · subst hm
    unfold edgeCase
    simp only []
    split
    · exact mild_zero _
    · rename_i hs
      simp only [ne_eq, not_not, sign_zero, sign_eq_zero_iff] at hs
      split
      · exact mild_three _
      · rw [hs]; exact mild_zero _
  · exact edge_pos h0 h1 m0 m1 hh0 hh1 hm

theorem innerSlope_neg (h0 h1 m0 m1 : ℝ) : innerSlope h0 h1 (-m0) (-m1) = -innerSlope h0 h1 m0 m1 := by
  unfold innerSlope
  simp only [Left.sign_neg, ne_eq, neg_inj, neg_eq_zero]
  split
  · simp
  · rw [div_neg, div_neg, ← neg_add, neg_div, div_neg]

theorem inner_pos (h0 h1 m0 m1 : ℝ) (hh0 : 0 < h0) (hh1 : 0 < h1) (hm0 : 0 < m0) (hm1 : 0 < m1) :
    0 ≤ innerSlope h0 h1 m0 m1 ∧ innerSlope h0 h1 m0 m1 ≤ 3 * m0 ∧ innerSlope h0 h1 m0 m1 ≤ 3 * m1 := by
  unfold innerSlope
  rw [if_neg]
  · have hw : (0 : ℝ) < (2 * h1 + h0) + (h1 + 2 * h0) := by linarith
    have e : 1 / (((2 * h1 + h0) / m0 + (h1 + 2 * h0) / m1) / ((2 * h1 + h0) + (h1 + 2 * h0))) =
        ((2 * h1 + h0) + (h1 + 2 * h0)) * (m0 * m1) / ((2 * h1 + h0) * m1 + (h1 + 2 * h0) * m0) := by
      have h1' : (0 : ℝ) < (2 * h1 + h0) * m1 + (h1 + 2 * h0) * m0 := by positivity
      rw [div_add_div _ _ hm0.ne' hm1.ne', one_div_div, div_div_eq_mul_div]
      congr 1
      ring
    have hden : (0 : ℝ) < (2 * h1 + h0) * m1 + (h1 + 2 * h0) * m0 := by positivity
    have p1 := mul_pos hh0 hm0
    have p2 := mul_pos hh0 hm1
    have p3 := mul_pos hh1 hm0
    have p4 := mul_pos hh1 hm1
    rw [e]
    refine ⟨by positivity, ?_, ?_⟩
    · rw [div_le_iff₀ hden]
      nlinarith [mul_pos p1 hm1, mul_pos p3 hm1, mul_pos p1 hm0, mul_pos p3 hm0]
    · rw [div_le_iff₀ hden]
      nlinarith [mul_pos p1 hm1, mul_pos p3 hm1, mul_pos p2 hm1, mul_pos p4 hm1]
  · rw [sign_pos hm0, sign_pos hm1]
    simp [hm0.ne', hm1.ne']

theorem inner_mild (h0 h1 m0 m1 : ℝ) (hh0 : 0 < h0) (hh1 : 0 < h1) :
    Mild (innerSlope h0 h1 m0 m1) m0 ∧ Mild (innerSlope h0 h1 m0 m1) m1 := by
  by_cases hc : SignType.sign m1 ≠ SignType.sign m0 ∨ m1 = 0 ∨ m0 = 0
  · unfold innerSlope
    rw [if_pos hc]
    exact ⟨mild_zero _, mild_zero _⟩
  · simp only [ne_eq, not_or, not_not] at hc
    obtain ⟨hs, h1', h0'⟩ := hc
    rcases lt_or_gt_of_ne h0' with hm | hm
    · have hm1 : m1 < 0 := by rw [sign_neg hm] at hs; exact sign_eq_neg_one_iff.1 hs
      obtain ⟨a, b, c⟩ := inner_pos h0 h1 (-m0) (-m1) hh0 hh1 (by linarith) (by linarith)
      rw [innerSlope_neg] at a b c
      exact ⟨mild_neg (mild_of_pos (by linarith) a b), mild_neg (mild_of_pos (by linarith) a c)⟩
    · have hm1 : 0 < m1 := by rw [sign_pos hm] at hs; exact sign_eq_one_iff.1 hs
      obtain ⟨a, b, c⟩ := inner_pos h0 h1 m0 m1 hh0 hh1 hm hm1
      exact ⟨mild_of_pos hm a b, mild_of_pos hm1 a c⟩

/-- Strictly increasing samples. -/
def Increasing (n : Nat) (x : Nat → ℝ) : Prop := ∀ i, i + 1 < n → x i < x (i + 1)

theorem hk_pos {n : Nat} {x : Nat → ℝ} (hx : Increasing n x) (i : Nat) (hi : i + 1 < n) : 0 < hk x i :=
  sub_pos.2 (hx i hi)

theorem slope_mild (n : Nat) (x y : Nat → ℝ) (hx : Increasing n x) (i : Nat) (hi : i + 1 < n) :
    Mild (slope n x y i) (mk x y i) ∧ Mild (slope n x y (i + 1)) (mk x y i) := by
  by_cases h2 : n = 2
  · have : i = 0 := by omega
    subst this
    unfold slope
    rw [if_pos h2, if_pos h2]
    exact ⟨mild_self _, mild_self _⟩
  constructor
  · unfold slope
    rw [if_neg h2]
    by_cases h0 : i = 0
    · subst h0
      rw [if_pos rfl]
      exact edge_mild _ _ _ _ (hk_pos hx 0 (by omega)) (hk_pos hx 1 (by omega))
    · rw [if_neg h0, if_neg (by omega)]
      exact (inner_mild _ _ _ _ (hk_pos hx (i - 1) (by omega)) (hk_pos hx i hi)).2
  · unfold slope
    rw [if_neg h2, if_neg (by omega)]
    by_cases hl : i + 1 = n - 1
    · rw [if_pos hl]
      have e : i = n - 2 := by omega
      rw [e]
      exact edge_mild _ _ _ _ (hk_pos hx (n - 2) (by omega)) (hk_pos hx (n - 3) (by omega))
    · rw [if_neg hl, Nat.add_sub_cancel]
      exact (inner_mild _ _ _ _ (hk_pos hx i hi) (hk_pos hx (i + 1) (by omega))).1

theorem increasing_lt {n : Nat} {x : Nat → ℝ} (hx : Increasing n x) (i j : Nat) (hij : i < j) (hj : j < n) : x i < x j := by
  induction j with
  | zero => omega
  | succ j ih =>
    rcases Nat.lt_succ_iff_lt_or_eq.1 hij with h | h
    · exact lt_trans (ih h (by omega)) (hx j hj)
    · subst h; exact hx i hj

theorem increasing_le {n : Nat} {x : Nat → ℝ} (hx : Increasing n x) (i j : Nat) (hij : i ≤ j) (hj : j < n) : x i ≤ x j := by
  rcases Nat.lt_or_eq_of_le hij with h | h
  · exact (increasing_lt hx i j h hj).le
  · rw [h]

theorem filter_range (m i : Nat) (p : Nat → Bool) (h : ∀ j, j < m → (p j = true ↔ j < i)) :
    ((List.range m).filter p).length = min m i := by
  induction m with
  | zero => simp
  | succ m ih =>
    have h' := ih (fun j hj => h j (by omega))
    rw [List.range_succ, List.filter_append, List.length_append, h']
    have hm := h m (by omega)
    by_cases hp : p m = true
    · rw [List.filter_cons_of_pos hp]
      have := hm.1 hp
      simp
      omega
    · rw [List.filter_cons_of_neg hp]
      have : ¬ m < i := fun e => hp (hm.2 e)
      simp
      omega

/-- The piece of a point at or after sample `i` and before sample `i + 1`. -/
theorem piece_eq (n : Nat) (x : Nat → ℝ) (hx : Increasing n x) (q : ℝ) (i : Nat) (hi : i + 1 < n) (h1 : x i ≤ q)
    (h2 : q < x (i + 1)) : piece n x q = i := by
  unfold piece
  rw [filter_range (n - 1) (i + 1)]
  · omega
  · intro j hj
    rw [decide_eq_true_eq]
    constructor
    · intro h
      by_contra hc
      have := increasing_le hx (i + 1) j (by omega) (by omega)
      linarith
    · intro h
      exact le_trans (increasing_le hx j i (by omega) (by omega)) h1

/-- The last piece. -/
theorem piece_last (n : Nat) (x : Nat → ℝ) (hx : Increasing n x) (q : ℝ) (hn : 2 ≤ n) (h1 : x (n - 2) ≤ q) :
    piece n x q = n - 2 := by
  unfold piece
  rw [filter_range (n - 1) (n - 1)]
  · omega
  · intro j hj
    rw [decide_eq_true_eq]
    exact ⟨fun _ => hj, fun _ => le_trans (increasing_le hx j (n - 2) (by omega) (by omega)) h1⟩

/-- Before the first sample the first piece is continued. -/
theorem piece_first (n : Nat) (x : Nat → ℝ) (hx : Increasing n x) (q : ℝ) (hn : 2 ≤ n) (h1 : q < x 0) :
    piece n x q = 0 := by
  unfold piece
  rw [filter_range (n - 1) 0]
  · omega
  · intro j hj
    rw [decide_eq_true_eq]
    constructor
    · intro h
      have := increasing_le hx 0 j (by omega) (by omega)
      linarith
    · intro h; omega

/-- The shape function of a piece. -/
noncomputable def shape (a b t : ℝ) : ℝ := 3 * t ^ 2 - 2 * t ^ 3 + a * (t * (1 - t) ^ 2) - b * (t ^ 2 * (1 - t))

theorem hermite_shape (h m a b y0 s : ℝ) (hh : 0 < h) :
    hermite h m (a * m) (b * m) y0 s = y0 + (m * h) * shape a b (s / h) := by
  unfold hermite shape
  simp only []
  field_simp
  ring

theorem shape_mono (a b : ℝ) (ha : 0 ≤ a) (ha3 : a ≤ 3) (hb : 0 ≤ b) (hb3 : b ≤ 3) (s t : ℝ) (h0 : 0 ≤ s) (hst : s ≤ t)
    (h1 : t ≤ 1) : shape a b s ≤ shape a b t := by
  have k00 : 3 * s ^ 2 - 2 * s ^ 3 ≤ 3 * t ^ 2 - 2 * t ^ 3 := by
    have e : (3 * t ^ 2 - 2 * t ^ 3) - (3 * s ^ 2 - 2 * s ^ 3) =
        (t - s) * (3 * (s * (1 - s) + t * (1 - t)) + (t - s) ^ 2) := by ring
    have : 0 ≤ (t - s) * (3 * (s * (1 - s) + t * (1 - t)) + (t - s) ^ 2) := by
      apply mul_nonneg (by linarith)
      have := mul_nonneg h0 (by linarith : 0 ≤ 1 - s)
      have := mul_nonneg (le_trans h0 hst) (by linarith : 0 ≤ 1 - t)
      nlinarith [sq_nonneg (t - s)]
    linarith
  have k30 : 1 - (1 - s) ^ 3 ≤ 1 - (1 - t) ^ 3 := by
    have := pow_le_pow_left₀ (by linarith : 0 ≤ 1 - t) (by linarith : 1 - t ≤ 1 - s) 3
    linarith
  have k03 : s ^ 3 ≤ t ^ 3 := pow_le_pow_left₀ h0 hst 3
  have k33 : 3 * s - 6 * s ^ 2 + 4 * s ^ 3 ≤ 3 * t - 6 * t ^ 2 + 4 * t ^ 3 := by
    have e : (3 * t - 6 * t ^ 2 + 4 * t ^ 3) - (3 * s - 6 * s ^ 2 + 4 * s ^ 3) =
        (t - s) * (((2 * t - 1) + (2 * s - 1) / 2) ^ 2 + 3 / 4 * (2 * s - 1) ^ 2) := by ring
    have : 0 ≤ (t - s) * (((2 * t - 1) + (2 * s - 1) / 2) ^ 2 + 3 / 4 * (2 * s - 1) ^ 2) :=
      mul_nonneg (by linarith) (by positivity)
    linarith
  have e : ∀ u, shape a b u = (1 - a / 3) * (1 - b / 3) * (3 * u ^ 2 - 2 * u ^ 3) +
      (a / 3) * (1 - b / 3) * (1 - (1 - u) ^ 3) + (1 - a / 3) * (b / 3) * u ^ 3 +
      (a / 3) * (b / 3) * (3 * u - 6 * u ^ 2 + 4 * u ^ 3) := by
    intro u; unfold shape; ring
  rw [e s, e t]
  have a0 : 0 ≤ a / 3 := by linarith
  have a1 : 0 ≤ 1 - a / 3 := by linarith
  have b0 : 0 ≤ b / 3 := by linarith
  have b1 : 0 ≤ 1 - b / 3 := by linarith
  have := mul_le_mul_of_nonneg_left k00 (mul_nonneg a1 b1)
  have := mul_le_mul_of_nonneg_left k30 (mul_nonneg a0 b1)
  have := mul_le_mul_of_nonneg_left k03 (mul_nonneg a1 b0)
  have := mul_le_mul_of_nonneg_left k33 (mul_nonneg a0 b0)
  linarith

theorem shape_zero (a b : ℝ) : shape a b 0 = 0 := by unfold shape; ring
theorem shape_one (a b : ℝ) : shape a b 1 = 1 := by unfold shape; ring

/-- The interpolant between the samples `i` and `i + 1`, both included. -/
theorem pchipAt_piece (n : Nat) (x y : Nat → ℝ) (hx : Increasing n x) (i : Nat) (hi : i + 1 < n) :
    ∃ a b, 0 ≤ a ∧ a ≤ 3 ∧ 0 ≤ b ∧ b ≤ 3 ∧ ∀ q, x i ≤ q → q ≤ x (i + 1) →
      pchipAt n x y q = y i + (y (i + 1) - y i) * shape a b ((q - x i) / (x (i + 1) - x i)) := by
  obtain ⟨⟨a, ha0, ha3, ha⟩, b, hb0, hb3, hb⟩ := slope_mild n x y hx i hi
  have hh := hk_pos hx i hi
  have hmh : mk x y i * hk x i = y (i + 1) - y i := by unfold mk; field_simp
  have at_piece : ∀ q, piece n x q = i →
      pchipAt n x y q = y i + (y (i + 1) - y i) * shape a b ((q - x i) / (x (i + 1) - x i)) := by
    intro q hp
    unfold pchipAt
    simp only [hp]
    rw [ha, hb, hermite_shape _ _ _ _ _ _ hh, hmh]
    rfl
  refine ⟨a, b, ha0, ha3, hb0, hb3, fun q h1 h2 => ?_⟩
  rcases lt_or_eq_of_le h2 with h2 | h2
  · exact at_piece q (piece_eq n x hx q i hi h1 h2)
  · by_cases hl : i + 2 < n
    · -- the next piece starts here
      subst h2
      have hp := piece_eq n x hx (x (i + 1)) (i + 1) hl (le_refl _) (hx (i + 1) hl)
      have e1 : pchipAt n x y (x (i + 1)) = y (i + 1) := by
        unfold pchipAt
        simp only [hp]
        unfold hermite
        simp
      rw [e1, div_self (sub_pos.2 (hx i hi)).ne', shape_one]; ring
    · have : i = n - 2 := by omega
      exact at_piece q (by rw [piece_last n x hx q (by omega) (by rw [← this]; exact h1)]; omega)

/-- The interpolant passes through the samples. -/
theorem pchipAt_sample (n : Nat) (x y : Nat → ℝ) (hx : Increasing n x) (hn : 2 ≤ n) (i : Nat) (hi : i < n) :
    pchipAt n x y (x i) = y i := by
  by_cases h : i + 1 < n
  · obtain ⟨a, b, _, _, _, _, he⟩ := pchipAt_piece n x y hx i h
    rw [he _ (le_refl _) (hx i h).le, sub_self, zero_div, shape_zero]; ring
  · have h2 : i - 1 + 1 < n := by omega
    obtain ⟨a, b, _, _, _, _, he⟩ := pchipAt_piece n x y hx (i - 1) h2
    have e : i - 1 + 1 = i := by omega
    rw [e] at he
    have := hx (i - 1) h2
    rw [e] at this
    rw [he _ this.le (le_refl _), div_self (sub_pos.2 this).ne', shape_one]; ring

/-- The interpolant lies between neighbouring samples. -/
theorem pchipAt_between (n : Nat) (x y : Nat → ℝ) (hx : Increasing n x) (i : Nat) (hi : i + 1 < n) (q : ℝ)
    (h1 : x i ≤ q) (h2 : q ≤ x (i + 1)) :
    min (y i) (y (i + 1)) ≤ pchipAt n x y q ∧ pchipAt n x y q ≤ max (y i) (y (i + 1)) := by
  obtain ⟨a, b, ha, ha3, hb, hb3, he⟩ := pchipAt_piece n x y hx i hi
  have hd := sub_pos.2 (hx i hi)
  rw [he q h1 h2]
  have t0 : 0 ≤ (q - x i) / (x (i + 1) - x i) := div_nonneg (by linarith) hd.le
  have t1 : (q - x i) / (x (i + 1) - x i) ≤ 1 := by rw [div_le_one hd]; linarith
  have s0 := shape_mono a b ha ha3 hb hb3 0 _ (le_refl _) t0 t1
  have s1 := shape_mono a b ha ha3 hb hb3 _ 1 t0 t1 (le_refl _)
  rw [shape_zero] at s0
  rw [shape_one] at s1
  set w := shape a b ((q - x i) / (x (i + 1) - x i))
  rcases le_total (y i) (y (i + 1)) with h | h
  · rw [min_eq_left h, max_eq_right h]
    constructor <;> nlinarith
  · rw [min_eq_right h, max_eq_left h]
    constructor <;> nlinarith

/-- Between neighbouring samples the interpolant rises if they rise and falls if they fall. -/
theorem pchipAt_monotone (n : Nat) (x y : Nat → ℝ) (hx : Increasing n x) (i : Nat) (hi : i + 1 < n) (q r : ℝ)
    (h1 : x i ≤ q) (hqr : q ≤ r) (h2 : r ≤ x (i + 1)) :
    (y i ≤ y (i + 1) → pchipAt n x y q ≤ pchipAt n x y r) ∧
    (y (i + 1) ≤ y i → pchipAt n x y r ≤ pchipAt n x y q) := by
  obtain ⟨a, b, ha, ha3, hb, hb3, he⟩ := pchipAt_piece n x y hx i hi
  have hd := sub_pos.2 (hx i hi)
  rw [he q h1 (le_trans hqr h2), he r (le_trans h1 hqr) h2]
  have t0 : 0 ≤ (q - x i) / (x (i + 1) - x i) := div_nonneg (by linarith) hd.le
  have t1 : (r - x i) / (x (i + 1) - x i) ≤ 1 := by rw [div_le_one hd]; linarith
  have t2 : (q - x i) / (x (i + 1) - x i) ≤ (r - x i) / (x (i + 1) - x i) :=
    div_le_div_of_nonneg_right (by linarith) hd.le
  have s := shape_mono a b ha ha3 hb hb3 _ _ t0 t2 t1
  constructor
  · intro h; nlinarith
  · intro h; nlinarith

end Verif.Mat
