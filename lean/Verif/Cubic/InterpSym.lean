import Verif.Cubic.InterpProps

/-!
# Mirror images, periods and constants under the interpolation
-/

set_option linter.unusedVariables false
set_option linter.unusedSectionVars false
set_option linter.unusedSimpArgs false

namespace Verif.Cubic

variable {K : Type*} [Field K] [LinearOrder K] [IsStrictOrderedRing K]

/-- The coordinates are their own mirror image: position `x` goes to `c - x`. -/
def Mirrored (xs : List K) (c : K) : Prop :=
  ∀ i < xs.length, xs.getD (xs.length - 1 - i) 0 = c - xs.getD i 0

/-- The coordinates repeat after `L` points, shifted by `T`. -/
def Repeating (xs : List K) (L : Nat) (T : K) : Prop :=
  ∀ i, i + L < xs.length → xs.getD (i + L) 0 = xs.getD i 0 + T

theorem threePoint_mirror (c x0 x1 x2 f0 f1 f2 x : K) :
    threePoint (c - x2) (c - x1) (c - x0) f2 f1 f0 (c - x) = - threePoint x0 x1 x2 f0 f1 f2 x := by
  unfold threePoint
  simp only [sub_sub_sub_cancel_left]
  rw [show (x1 - x2) * (x0 - x2) = (x2 - x0) * (x2 - x1) by ring,
    show (x2 - x1) * (x0 - x1) = (x1 - x0) * (x1 - x2) by ring,
    show (x2 - x0) * (x1 - x0) = (x0 - x1) * (x0 - x2) by ring]
  ring

theorem threePoint_shift (T x0 x1 x2 f0 f1 f2 x : K) :
    threePoint (x0 + T) (x1 + T) (x2 + T) f0 f1 f2 (x + T) = threePoint x0 x1 x2 f0 f1 f2 x := by
  unfold threePoint
  simp only [add_sub_add_right_eq_sub]

theorem hermite_mirror {h : K} (hh : h ≠ 0) (t f0 f1 d0 d1 : K) :
    hermite h (h - t) f1 f0 (-d1) (-d0) = hermite h t f0 f1 d0 d1 := by
  unfold hermite
  rw [sub_div, div_self hh]
  ring

/-- Inside of the grid the slope is the derivative of the quadratic through the neighbours. -/
theorem slope_middle {per : Bool} {xs : List K} (f : Nat → K) {i : Nat} (h0 : 0 < i)
    (h1 : i + 1 < xs.length) :
    slope per xs f i = threePoint (xs.getD (i - 1) 0) (xs.getD i 0) (xs.getD (i + 1) 0)
      (f (wrap per xs.length (i - 1))) (f (wrap per xs.length i)) (f (wrap per xs.length (i + 1)))
      (xs.getD i 0) := by
  unfold slope
  cases per
  · simp only [Bool.false_eq_true, if_false, wrap, false_and]
    rw [if_neg (by omega), if_neg (by omega)]
  · simp only [if_true, wrap, true_and]
    rw [if_neg (by omega : ¬ i = 0), if_neg (by omega : ¬ i = 0), if_neg (by omega : ¬ i - 1 + 1 = xs.length),
      if_neg (by omega : ¬ i + 1 = xs.length)]
    simp only [show (i + 1 = xs.length - 1) = (i + 1 + 1 = xs.length) from propext ⟨by omega, by omega⟩]
    congr 1
    split <;> rfl

theorem slope_first {xs : List K} (h2 : 2 ≤ xs.length) (f : Nat → K) :
    slope true xs f 0 =
      threePoint (xs.getD 0 0 - (xs.getD (xs.length - 1) 0 - xs.getD (xs.length - 2) 0)) (xs.getD 0 0)
        (xs.getD 1 0) (f (wrap true xs.length (xs.length - 2))) (f (wrap true xs.length 0))
        (f (wrap true xs.length 1)) (xs.getD 0 0) := by
  unfold slope
  simp only [if_true, wrap, true_and]
  rw [if_neg (by omega : ¬ xs.length - 2 + 1 = xs.length), if_neg (by omega : ¬ 0 + 1 = xs.length)]
  simp only [show (0 + 1 = xs.length - 1) = (1 + 1 = xs.length) from propext ⟨by omega, by omega⟩]
  congr 1
  split <;> rfl

theorem wrap_zero {per : Bool} {n : Nat} : wrap per n 0 = 0 := by unfold wrap; split <;> rfl

theorem wrap_last {n : Nat} (h : 0 < n) : wrap true n (n - 1) = 0 := by
  unfold wrap; rw [if_pos ⟨rfl, by omega⟩]

theorem wrap_of_lt {per : Bool} {n i : Nat} (h : i + 1 < n) : wrap per n i = i := by
  unfold wrap; rw [if_neg (by omega)]

/-! ## Mirror images -/

theorem slope_mirror {per : Bool} {xs : List K} (hn : Enough per xs.length) {c : K}
    (hm : Mirrored xs c) {f : Nat → K}
    (hf : ∀ i < xs.length, f (wrap per xs.length (xs.length - 1 - i)) = f (wrap per xs.length i))
    {i : Nat} (hi : i < xs.length) :
    slope per xs f (wrap per xs.length (xs.length - 1 - i)) = - slope per xs f (wrap per xs.length i) := by
  have h2 := hn.two
  by_cases hmid : 0 < i ∧ i + 1 < xs.length
  · obtain ⟨h0, h1⟩ := hmid
    rw [wrap_of_lt (by omega), wrap_of_lt h1, slope_middle f h0 h1, slope_middle f (by omega) (by omega),
      show xs.length - 1 - i - 1 = xs.length - 1 - (i + 1) by omega,
      show xs.length - 1 - i + 1 = xs.length - 1 - (i - 1) by omega,
      hm _ (by omega), hm _ hi, hm _ (by omega : i - 1 < xs.length), hf _ (by omega), hf _ hi,
      hf _ (by omega : i - 1 < xs.length), threePoint_mirror]
  · cases per with
    | true =>
      have hw : wrap true xs.length i = 0 := by
        by_cases h : i = 0
        · rw [h, wrap_zero]
        · rw [show i = xs.length - 1 by omega, wrap_last (by omega)]
      have hw' : wrap true xs.length (xs.length - 1 - i) = 0 := by
        by_cases h : i = 0
        · rw [h, Nat.sub_zero, wrap_last (by omega)]
        · rw [show xs.length - 1 - i = 0 by omega, wrap_zero]
      rw [hw, hw', slope_first h2]
      have e1 := hm 0 (by omega)
      have e2 := hm 1 (by omega)
      rw [Nat.sub_zero] at e1
      rw [show xs.length - 1 - 1 = xs.length - 2 by omega] at e2
      have e3 := hf 1 (by omega)
      rw [show xs.length - 1 - 1 = xs.length - 2 by omega] at e3
      rw [e1, e2, e3]
      generalize f (wrap true xs.length 1) = u
      generalize f (wrap true xs.length 0) = w
      have := threePoint_mirror (xs.getD 0 0 + xs.getD 0 0) (xs.getD 0 0 - (c - xs.getD 0 0 - (c - xs.getD 1 0)))
        (xs.getD 0 0) (xs.getD 1 0) u w u (xs.getD 0 0)
      rw [show xs.getD 0 0 + xs.getD 0 0 - xs.getD 1 0
          = xs.getD 0 0 - (c - xs.getD 0 0 - (c - xs.getD 1 0)) by ring,
        show xs.getD 0 0 + xs.getD 0 0 - xs.getD 0 0 = xs.getD 0 0 by ring,
        show xs.getD 0 0 + xs.getD 0 0 - (xs.getD 0 0 - (c - xs.getD 0 0 - (c - xs.getD 1 0)))
          = xs.getD 1 0 by ring] at this
      exact this
    | false =>
      have n3 : 3 ≤ xs.length := by simpa [Enough] using hn
      have hwr : ∀ j, wrap false xs.length j = j := fun j => by simp [wrap]
      simp only [hwr] at hf ⊢
      have lo : slope false xs f 0 = threePoint (xs.getD 0 0) (xs.getD 1 0) (xs.getD 2 0) (f 0) (f 1) (f 2)
          (xs.getD 0 0) := by
        unfold slope
        simp only [Bool.false_eq_true, if_false]
        rw [if_neg (by omega), if_pos trivial]
      have hi' : slope false xs f (xs.length - 1) = - slope false xs f 0 := by
        have e0 := hm 0 (by omega)
        have e1 := hm 1 (by omega)
        have e2 := hm 2 (by omega)
        have g0 := hf 0 (by omega)
        have g1 := hf 1 (by omega)
        have g2 := hf 2 (by omega)
        rw [lo, ← threePoint_mirror c, ← e0, ← e1, ← e2, ← g0, ← g1, ← g2]
        unfold slope
        simp only [Bool.false_eq_true, if_false]
        rw [if_pos (by omega)]
        rfl
      by_cases h : i = 0
      · subst h; rw [Nat.sub_zero]; exact hi'
      · rw [show xs.length - 1 - i = 0 by omega, show i = xs.length - 1 by omega, hi', neg_neg]

theorem inside_mirror {xs : List K} (h : 0 < xs.length) {c x : K} (hm : Mirrored xs c)
    (hin : Inside xs x) : Inside xs (c - x) := by
  have e0 := hm 0 h
  rw [Nat.sub_zero] at e0
  obtain ⟨h1, h2⟩ := hin
  rw [e0] at h2
  refine ⟨by linarith, ?_⟩
  rw [e0]
  linarith

theorem interp_mirror {per : Bool} {xs : List K} (hx : Increasing xs) (hn : Enough per xs.length) {c : K}
    (hm : Mirrored xs c) {f : Nat → K}
    (hf : ∀ i < xs.length, f (wrap per xs.length (xs.length - 1 - i)) = f (wrap per xs.length i))
    {x : K} (hin : Inside xs x) : interp per xs f (c - x) = interp per xs f x := by
  have h2 := hn.two
  obtain ⟨c1, c2, _⟩ := cellOf_spec hx h2 hin
  have hk := cellOf_lt h2 x
  generalize cellOf xs x = k at c1 c2 hk
  have m1 := hm k (by omega)
  have m2 := hm (k + 1) (by omega)
  rw [(interp_closed per hx f hk c1 c2).1]
  rw [(interp_closed per hx f (k := xs.length - 1 - (k + 1)) (by omega)
    (by rw [m2]; linarith) (by
      rw [show xs.length - 1 - (k + 1) + 1 = xs.length - 1 - k by omega, m1]; linarith)).1]
  unfold onCell
  rw [show xs.length - 1 - (k + 1) + 1 = xs.length - 1 - k by omega, m1, m2,
    hf _ (by omega), hf _ (by omega), slope_mirror hn hm hf (by omega), slope_mirror hn hm hf (by omega),
    ← hermite_mirror (sub_ne_zero.2 (hx.ne (Nat.lt_succ_self k) hk).symm) (x - xs.getD k 0)]
  congr 1 <;> ring

/-! ## Periods -/

theorem repeating_mul {xs : List K} {L : Nat} {T : K} (hr : Repeating xs L T) (q : Nat) :
    ∀ i, i + L * q < xs.length → xs.getD (i + L * q) 0 = xs.getD i 0 + q * T := by
  induction q with
  | zero => intro i _; simp
  | succ q ih =>
    intro i hi
    have he : i + L * (q + 1) = (i + L * q) + L := by ring
    rw [he] at hi ⊢
    rw [hr _ hi, ih i (by omega)]
    push_cast
    ring

theorem values_mul {α : Type*} {n : Nat} {L : Nat} {g : Nat → α}
    (hr : ∀ i, i + L < n → g (i + L) = g i) (q : Nat) :
    ∀ i, i + L * q < n → g (i + L * q) = g i := by
  induction q with
  | zero => intro i _; simp
  | succ q ih =>
    intro i hi
    have he : i + L * (q + 1) = (i + L * q) + L := by ring
    rw [he] at hi ⊢
    rw [hr _ hi, ih i (by omega)]

theorem slope_shift {xs : List K} (hn : Enough true xs.length) {L p : Nat} {T : K} (hL : 0 < L)
    (hp : xs.length - 1 = L * p) (hr : Repeating xs L T) {f : Nat → K}
    (hf : ∀ i, i + L < xs.length → f (wrap true xs.length (i + L)) = f (wrap true xs.length i))
    {i : Nat} (hi : i + L < xs.length) :
    slope true xs f (wrap true xs.length (i + L)) = slope true xs f (wrap true xs.length i) := by
  have h2 := hn.two
  obtain ⟨p, rfl⟩ : ∃ q, p = q + 1 := ⟨p - 1, by
    rcases Nat.eq_zero_or_pos p with h | h
    · subst h; simp at hp; omega
    · omega⟩
  have hlast : xs.length - 1 = L + L * p := by rw [hp]; ring
  -- the slope at the start of a period
  have hstart : L + 1 < xs.length → slope true xs f L = slope true xs f 0 := by
    intro h1
    rw [slope_middle f hL h1, slope_first h2]
    have e1 := hr 0 (by omega)
    have e2 := hr 1 (by omega)
    have g1 := hf 0 (by omega)
    have g2 := hf 1 (by omega)
    rw [Nat.zero_add] at e1 g1
    rw [Nat.add_comm 1 L] at e2 g2
    have e3 := repeating_mul hr p L (by omega)
    have e4 := repeating_mul hr p (L - 1) (by omega)
    have g4 := values_mul (g := fun i => f (wrap true xs.length i)) hf p (L - 1) (by omega)
    rw [← hlast] at e3
    rw [show L - 1 + L * p = xs.length - 2 by omega] at e4 g4
    rw [e3, e4, g4, g1, g2]
    refine Eq.trans ?_ (threePoint_shift T _ _ _ _ _ _ _)
    rw [← e1, ← e2]
    congr 1
    rw [e1]; ring
  rcases Nat.lt_or_ge (i + L + 1) xs.length with h1 | h1
  · rw [wrap_of_lt h1, wrap_of_lt (by omega)]
    rcases Nat.eq_zero_or_pos i with h0 | h0
    · subst h0
      rw [Nat.zero_add]
      exact hstart (by omega)
    · rw [slope_middle f h0 (by omega), slope_middle f (by omega) h1]
      rw [show i + L - 1 = i - 1 + L by omega, show i + L + 1 = i + 1 + L by omega,
        hr _ (by omega), hr _ (by omega), hr _ (by omega), hf _ (by omega), hf _ (by omega),
        hf _ (by omega), threePoint_shift]
  · rw [show i + L = xs.length - 1 by omega, wrap_last (by omega)]
    rcases Nat.eq_zero_or_pos i with h0 | h0
    · subst h0; rw [wrap_zero]
    · rw [wrap_of_lt (by omega)]
      have hi' : i = L * p := by omega
      have hst : ∀ q, 0 < q → L * q + 1 < xs.length → slope true xs f (L * q) = slope true xs f 0 := by
        intro q
        induction q with
        | zero => intro h; omega
        | succ q ih =>
          intro _ hq
          rcases Nat.eq_zero_or_pos q with hq0 | hq0
          · subst hq0
            rw [Nat.zero_add, Nat.mul_one]
            rw [Nat.zero_add, Nat.mul_one] at hq
            exact hstart hq
          · have he : L * (q + 1) = L * q + L := by ring
            have hpos : 0 < L * q := Nat.mul_pos hL hq0
            rw [he] at hq ⊢
            rw [← ih hq0 (by omega), slope_middle f hpos (by omega), slope_middle f (by omega) hq]
            rw [show L * q + L - 1 = L * q - 1 + L by omega, show L * q + L + 1 = L * q + 1 + L by omega,
              hr _ (by omega), hr _ (by omega), hr _ (by omega), hf _ (by omega), hf _ (by omega),
              hf _ (by omega), threePoint_shift]
      have hp0 : 0 < p := by
        rcases Nat.eq_zero_or_pos p with h | h
        · subst h; omega
        · exact h
      rw [hi', hst p hp0 (by omega)]

theorem interp_shift {xs : List K} (hx : Increasing xs) (hn : Enough true xs.length) {L p : Nat} {T : K}
    (hL : 0 < L) (hp : xs.length - 1 = L * p) (hr : Repeating xs L T) {f : Nat → K}
    (hf : ∀ i, i + L < xs.length → f (wrap true xs.length (i + L)) = f (wrap true xs.length i))
    {x : K} (hin : Inside xs x) (hin' : Inside xs (x + T)) :
    interp true xs f (x + T) = interp true xs f x := by
  have h2 := hn.two
  have hLn : L < xs.length := by
    rcases Nat.eq_zero_or_pos p with h | h
    · subst h; simp at hp; omega
    · have : L ≤ L * p := Nat.le_mul_of_pos_right L h
      omega
  have hT := hr 0 (by omega)
  rw [Nat.zero_add] at hT
  have hTpos : 0 < T := by
    have := hx 0 L hL hLn
    linarith
  obtain ⟨c1, c2, _⟩ := cellOf_spec hx h2 hin
  have hk := cellOf_lt h2 x
  by_cases hkL : cellOf xs x + 1 + L < xs.length
  · generalize cellOf xs x = k at c1 c2 hk hkL
    have m1 := hr k (by omega)
    have m2 := hr (k + 1) hkL
    rw [(interp_closed true hx f hk c1 c2).1]
    rw [(interp_closed true hx f (k := k + L) (by omega)
      (by rw [m1]; linarith) (by
        rw [show k + L + 1 = k + 1 + L by omega, m2]; linarith)).1]
    unfold onCell
    rw [show k + L + 1 = k + 1 + L by omega, m1, m2, hf _ (by omega), hf _ (by omega),
      slope_shift hn hL hp hr hf (by omega), slope_shift hn hL hp hr hf hkL]
    congr 1 <;> ring
  · -- only the first point of the last period is left
    have hlast := hr (xs.length - 1 - L) (by omega)
    rw [show xs.length - 1 - L + L = xs.length - 1 by omega] at hlast
    have h3 := hin'.2
    rw [hlast] at h3
    have h4 : xs.getD (xs.length - 1 - L) 0 ≤ xs.getD (cellOf xs x) 0 := hx.le (by omega) (by omega)
    have hxe : x = xs.getD (xs.length - 1 - L) 0 := le_antisymm (by linarith) (h4.trans c1)
    rw [hxe, ← hlast, (interp_node true hx h2 f (by omega)).1, (interp_node true hx h2 f (by omega)).1]
    have := hf (xs.length - 1 - L) (by omega)
    rw [show xs.length - 1 - L + L = xs.length - 1 by omega] at this
    exact this

/-! ## Constants -/

theorem slope_const {per : Bool} {xs : List K} (hx : Increasing xs) (hn : Enough per xs.length) (c : K)
    {i : Nat} (hi : i < freeLen per xs.length) : slope per xs (fun _ => c) i = 0 := by
  have h2 := hn.two
  have key : ∀ {a b d : K}, a < b → b < d → ∀ x, threePoint a b d c c c x = 0 := by
    intro a b d h1 h2 x
    have := threePoint_quadratic (ne_of_lt h1) (ne_of_lt h2) (ne_of_lt (h1.trans h2)) c 0 0 x
    simpa using this
  cases per with
  | true =>
    simp only [freeLen, if_true] at hi
    rcases Nat.eq_zero_or_pos i with h0 | h0
    · subst h0
      rw [slope_first h2]
      have := hx (xs.length - 2) (xs.length - 1) (by omega) (by omega)
      exact key (by linarith) (hx 0 1 (by omega) (by omega)) _
    · rw [slope_middle _ h0 (by omega)]
      exact key (hx _ _ (by omega) (by omega)) (hx _ _ (by omega) (by omega)) _
  | false =>
    have n3 : 3 ≤ xs.length := by simpa [Enough] using hn
    have := slope_quadratic hx n3 c 0 0 (show i < xs.length by simpa [freeLen] using hi)
    simpa using this

theorem interp_const {per : Bool} {xs : List K} (hx : Increasing xs) (hn : Enough per xs.length) (c x : K) :
    interp per xs (fun _ => c) x = c := by
  have hc := cellOf_lt hn.two x
  unfold interp onCell
  rw [slope_const hx hn c (wrap_lt hn hc), slope_const hx hn c (wrap_lt hn (by omega))]
  unfold hermite
  ring

end Verif.Cubic
