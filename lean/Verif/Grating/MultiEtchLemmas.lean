import Verif.Grating.MultiEtch
import Verif.Grating.ParamProps
import Mathlib.Algebra.Order.Archimedean.Real.Basic
/- Helper lemmas for `MultiEtchEdgeParametrization`. -/
set_option linter.unusedVariables false
namespace Verif.Grating

/-! ### Ramps -/

theorem ramp_zero (c x : ℝ) (h : x ≤ c) : ramp c x = 0 := by
  unfold ramp
  rw [max_eq_right h, min_eq_left (by linarith)]
  ring

theorem ramp_one (c x : ℝ) (h : c + 1 ≤ x) : ramp c x = 1 := by
  unfold ramp
  rw [max_eq_left (by linarith), min_eq_right h]
  ring

theorem ramp_mid (c x : ℝ) (h1 : c ≤ x) (h2 : x ≤ c + 1) : ramp c x = x - c := by
  unfold ramp
  rw [max_eq_left h1, min_eq_left h2]

theorem signed_append (c : ℝ) : ∀ P l : List ℝ, signed c (P ++ l) = signed c P + (if P.length % 2 = 0 then 1 else -1) * signed c l := by
  intro P
  induction P with
  | nil => intro l; simp [signed]
  | cons a P ih =>
    intro l
    simp only [List.cons_append, signed, List.length_cons]
    rw [ih]
    rcases Nat.mod_two_eq_zero_or_one P.length with h | h
    · rw [if_pos h, if_neg (by omega : ¬ (P.length + 1) % 2 = 0)]
      ring
    · rw [if_neg (by omega : ¬ P.length % 2 = 0), if_pos (by omega : (P.length + 1) % 2 = 0)]
      ring

theorem signed_zero (c : ℝ) : ∀ P : List ℝ, (∀ e ∈ P, e ≤ c) → signed c P = 0 := by
  intro P
  induction P with
  | nil => intro _; rfl
  | cons a P ih =>
    intro h
    rw [signed, ramp_zero c a (h a (by simp)), ih fun e he => h e (by simp [he])]
    ring

/-! ### Rasterizing the holes -/

theorem subAt_spec (vec : List ℝ) (i : Nat) (v : ℝ) (hi : i < vec.length) : ∃ r, subAt vec (i : Int) v = some r ∧
    r.length = vec.length ∧ ∀ q, r.getD q 0 = vec.getD q 0 - if q = i then v else 0 := by
  refine ⟨_, by rw [subAt, if_pos ⟨by omega, by exact_mod_cast hi⟩], by simp, fun q => ?_⟩
  simp only [Int.toNat_natCast, List.getD_eq_getElem?_getD, List.getElem?_modify]
  by_cases h : q = i
  · subst h
    rw [List.getElem?_eq_getElem hi]
    simp
  · have h' : ¬ i = q := fun h' => h h'.symm
    simp [h, h']

theorem zeroSlice_spec (vec : List ℝ) (a b : Nat) : (zeroSlice vec a b).length = vec.length ∧
    ∀ q, (zeroSlice vec a b).getD q 0 = if a ≤ q ∧ q < b then 0 else vec.getD q 0 := by
  refine ⟨by simp [zeroSlice], fun q => ?_⟩
  simp only [zeroSlice, List.getD_eq_getElem?_getD, List.getElem?_mapIdx]
  cases h : vec[q]? with
  | none => simp
  | some v =>
    simp only [Option.map_some, Option.getD_some]
    congr 1
    apply propext
    omega

theorem floor_nat (a : ℝ) (h : 0 ≤ a) : ∃ A : Nat, pyInt a = (A : Int) ∧ (A : ℝ) ≤ a ∧ a < A + 1 := by
  refine ⟨⌊a⌋₊, ?_, Nat.floor_le h, Nat.lt_floor_add_one a⟩
  rw [pyInt, if_pos h]
  exact (Int.natCast_floor_eq_floor h).symm

theorem ramp_floor (q A : Nat) (a : ℝ) (h1 : (A : ℝ) ≤ a) (h2 : a < A + 1) :
    ramp q a = if q < A then 1 else if q = A then a - A else 0 := by
  rcases lt_trichotomy q A with h | h | h
  · rw [if_pos h]
    have : (q : ℝ) + 1 ≤ A := by exact_mod_cast h
    exact ramp_one _ _ (by linarith)
  · subst h
    rw [if_neg (lt_irrefl _), if_pos rfl]
    exact ramp_mid _ _ h1 h2.le
  · rw [if_neg (by omega), if_neg (by omega)]
    have : (A : ℝ) + 1 ≤ q := by exact_mod_cast h
    exact ramp_zero _ _ (by linarith)

theorem holeStep_spec (n : Nat) (vec : List ℝ) (hv : vec.length = n) (a b : ℝ) (ha : 0 ≤ a) (hab : a ≤ b) (hb : b < n)
    (hone : ∀ q : Nat, a ≤ q → q < n → vec.getD q 0 = 1) : ∃ r, holeStep vec a b = some r ∧ r.length = n ∧
      ∀ q, q < n → r.getD q 0 = vec.getD q 0 - (ramp q b - ramp q a) := by
  obtain ⟨A, a1, a2, a3⟩ := floor_nat a ha
  obtain ⟨B, b1, b2, b3⟩ := floor_nat b (ha.trans hab)
  have hAB : A ≤ B := by
    have : (A : ℝ) < B + 1 := by linarith
    have : A < B + 1 := by exact_mod_cast this
    omega
  have hBn : B < n := by
    have : (B : ℝ) < n := by linarith
    exact_mod_cast this
  unfold holeStep
  simp only
  rw [a1, b1]
  obtain ⟨z1, z2⟩ := zeroSlice_spec vec (A + 1) B
  rw [show ((A : Int) + 1) = ((A + 1 : Nat) : Int) by push_cast; rfl]
  have hone' : ∀ q, A < q → q < n → vec.getD q 0 = 1 := by
    intro q h1 h2
    apply hone q _ h2
    have : (A : ℝ) + 1 ≤ q := by exact_mod_cast h1
    linarith
  by_cases hne : (A : Int) = B
  · have hne' : A = B := by exact_mod_cast hne
    rw [if_neg (fun h => h hne)]
    obtain ⟨r, r1, r2, r3⟩ := subAt_spec (zeroSlice vec ((A + 1 : Nat) : Int) B) A (b - a) (by rw [z1]; omega)
    refine ⟨r, r1, by rw [r2, z1, hv], fun q hq => ?_⟩
    rw [r3, z2, ramp_floor q A a a2 a3, ramp_floor q B b b2 b3, if_neg (by omega)]
    subst hne'
    by_cases h1 : q < A
    · rw [if_pos h1, if_pos h1, if_neg (by omega)]
      ring
    · by_cases h2 : q = A
      · rw [if_neg h1, if_neg h1, if_pos h2, if_pos h2, if_pos h2]
        ring
      · rw [if_neg h1, if_neg h1, if_neg h2, if_neg h2, if_neg h2]
        ring
  · have hne' : A < B := by omega
    rw [if_pos hne]
    obtain ⟨r, r1, r2, r3⟩ := subAt_spec (zeroSlice vec ((A + 1 : Nat) : Int) B) A (1 - (a - ((A : Int) : ℝ))) (by rw [z1]; omega)
    obtain ⟨s, s1, s2, s3⟩ := subAt_spec r B (b - ((B : Int) : ℝ)) (by rw [r2, z1]; omega)
    refine ⟨s, by rw [r1]; exact s1, by rw [s2, r2, z1, hv], fun q hq => ?_⟩
    rw [s3, r3, z2, ramp_floor q A a a2 a3, ramp_floor q B b b2 b3]
    simp only [Int.cast_natCast]
    rcases lt_trichotomy q A with h | h | h
    · rw [if_neg (by omega : ¬ (A + 1 ≤ q ∧ q < B)), if_neg (by omega : ¬ q = A), if_neg (by omega : ¬ q = B),
        if_pos (by omega : q < B), if_pos h]
      ring
    · rw [if_neg (by omega : ¬ (A + 1 ≤ q ∧ q < B)), if_pos h, if_neg (by omega : ¬ q = B),
        if_pos (by omega : q < B), if_neg (by omega : ¬ q < A), if_pos h]
      ring
    · rw [if_neg (by omega : ¬ q = A), if_neg (by omega : ¬ q < A), if_neg (by omega : ¬ q = A), hone' q h hq]
      rcases lt_trichotomy q B with h' | h' | h'
      · rw [if_pos (by omega : (A + 1 ≤ q ∧ q < B)), if_neg (by omega : ¬ q = B), if_pos h']
        ring
      · rw [if_neg (by omega : ¬ (A + 1 ≤ q ∧ q < B)), if_pos h', if_neg (by omega : ¬ q < B)]
        ring
      · rw [if_neg (by omega : ¬ (A + 1 ≤ q ∧ q < B)), if_neg (by omega : ¬ q = B), if_neg (by omega : ¬ q < B)]
        ring

theorem holes_spec (n : Nat) : ∀ (m : Nat) (l P vec : List ℝ), l.length = 2 * m → (P ++ l).Pairwise (· ≤ ·) → P.length % 2 = 0 →
    (∀ e ∈ l, 0 ≤ e ∧ e < n) → vec.length = n → (∀ q, q < n → vec.getD q 0 = 1 - signed q P) →
    ∃ r, holes l vec = some r ∧ r.length = n ∧ ∀ q, q < n → r.getD q 0 = 1 - signed q (P ++ l) := by
  intro m
  induction m with
  | zero =>
    intro l P vec hl _ _ _ hv hq
    obtain rfl : l = [] := List.length_eq_zero_iff.1 (by omega)
    exact ⟨vec, rfl, hv, by simpa using hq⟩
  | succ m ih =>
    intro l P vec hl hs hP hr hv hq
    match l, hl with
    | a :: b :: l, hl =>
      have hab : a ≤ b := by
        have := (List.pairwise_append.1 hs).2.1
        exact (List.pairwise_cons.1 this).1 b (by simp)
      have hPa : ∀ e ∈ P, e ≤ a := fun e he => (List.pairwise_append.1 hs).2.2 e he a (by simp)
      obtain ⟨r, r1, r2, r3⟩ := holeStep_spec n vec hv a b (hr a (by simp)).1 hab (hr b (by simp)).2 (by
        intro q h1 h2
        rw [hq q h2, signed_zero q P fun e he => (hPa e he).trans h1]
        ring)
      obtain ⟨s, s1, s2, s3⟩ := ih l (P ++ [a, b]) r (by simp at hl; omega) (by simpa using hs)
        (by rw [List.length_append]; simp; omega) (fun e he => hr e (by simp [he])) r2 (by
          intro q h
          rw [r3 q h, hq q h, signed_append, if_pos hP]
          simp only [signed]
          ring)
      refine ⟨s, ?_, s2, ?_⟩
      · rw [holes, r1]
        exact s1
      · intro q h
        rw [s3 q h]
        simp

theorem buildRaster_spec (n : Nat) (l : List ℝ) (he : Even l.length) (hs : l.Pairwise (· ≤ ·)) (hr : ∀ e ∈ l, 0 ≤ e ∧ e < n) :
    ∃ r, buildRaster n l = some r ∧ r.length = n ∧ ∀ q, q < n → r.getD q 0 = 1 - signed q l := by
  obtain ⟨m, hm⟩ := he
  obtain ⟨r, r1, r2, r3⟩ := holes_spec n m l [] (List.replicate n 1) (by omega) (by simpa using hs) rfl hr (by simp) (by
    intro q hq
    simp [hq, signed, List.getD_eq_getElem?_getD])
  exact ⟨r, r1, r2, by simpa using r3⟩

/-! ### The edges of each level -/

/-- The edges where the level crosses from above `k` to at most `k`, or back. -/
def crossings (k : Nat) : Nat → List (ℝ × Nat) → List ℝ
  | _, [] => []
  | last, (e, c) :: l => (if min c last ≤ k ∧ k < max c last then [e] else []) ++ crossings k c l

theorem levelFold_spec : ∀ (l : List (ℝ × Nat)) (st : List (List ℝ) × Nat), st.2 ≤ st.1.length →
    (∀ x ∈ l, x.2 ≤ st.1.length) → ∃ r, l.foldlM levelStep st = some r ∧ r.1.length = st.1.length ∧
      ∀ k v, st.1[k]? = some v → r.1[k]? = some (v ++ crossings k st.2 l) := by
  intro l
  induction l with
  | nil => intro st _ _; exact ⟨st, rfl, rfl, fun k v h => by simpa [crossings] using h⟩
  | cons x l ih =>
    intro st h1 h2
    have hx := h2 x (by simp)
    obtain ⟨r, r1, r2, r3⟩ := ih (st.1.mapIdx (fun k v => if min x.2 st.2 ≤ k ∧ k < max x.2 st.2 then v ++ [x.1] else v), x.2)
      (by simpa using hx) (fun y hy => by simpa using h2 y (by simp [hy]))
    refine ⟨r, ?_, by simpa using r2, ?_⟩
    · rw [List.foldlM_cons, levelStep, if_pos (max_le hx h1)]
      exact r1
    · intro k v hv
      have := r3 k (if min x.2 st.2 ≤ k ∧ k < max x.2 st.2 then v ++ [x.1] else v) (by
        rw [List.getElem?_mapIdx, hv]
        rfl)
      rw [this]
      obtain ⟨e, c⟩ := x
      simp only [crossings, Option.some.injEq]
      split <;> simp

theorem crossings_sublist (k : Nat) : ∀ (l : List (ℝ × Nat)) (last : Nat), (crossings k last l).Sublist (l.map Prod.fst) := by
  intro l
  induction l with
  | nil => intro last; simp [crossings]
  | cons x l ih =>
    intro last
    obtain ⟨e, c⟩ := x
    simp only [crossings, List.map_cons]
    split
    · exact (ih c).cons_cons e
    · exact (ih c).cons e

/-- The level at the end. -/
def lastLevel : Nat → List (ℝ × Nat) → Nat
  | last, [] => last
  | _, (_, c) :: l => lastLevel c l

theorem crossings_parity (k : Nat) : ∀ (l : List (ℝ × Nat)) (last : Nat),
    (crossings k last l).length % 2 = 0 ↔ (k < last ↔ k < lastLevel last l) := by
  intro l
  induction l with
  | nil => intro last; simp [crossings, lastLevel]
  | cons x l ih =>
    intro last
    obtain ⟨e, c⟩ := x
    have := ih c
    have hcr : (min c last ≤ k ∧ k < max c last) ↔ ¬ (k < last ↔ k < c) := by
      by_cases h1 : k < last <;> by_cases h2 : k < c <;> simp only [h1, h2] <;> simp <;> omega
    simp only [crossings, lastLevel, List.length_append, hcr]
    by_cases h1 : k < last <;> by_cases h2 : k < c <;> by_cases h3 : k < lastLevel c l <;>
      simp only [h1, h2, h3, iff_true, iff_false, not_true, not_false_iff, if_true, if_false, List.length_cons, List.length_nil] at this ⊢ <;>
      omega

/-- The sign of an edge for level `k`: `1` where the level falls to `k` or below, `-1` where it rises again. -/
def cross (k last c : Nat) : ℝ := (if k < last then 1 else 0) - (if k < c then 1 else 0)

/-- The sum of the ramps of the crossings. -/
noncomputable def crossSum (c : ℝ) (k : Nat) : Nat → List (ℝ × Nat) → ℝ
  | _, [] => 0
  | last, (e, lev) :: l => cross k last lev * ramp c e + crossSum c k lev l

theorem signed_crossings (c : ℝ) (k : Nat) : ∀ (l : List (ℝ × Nat)) (last : Nat),
    signed c (crossings k last l) = (if k < last then -1 else 1) * crossSum c k last l := by
  intro l
  induction l with
  | nil => intro last; simp [crossings, signed, crossSum]
  | cons x l ih =>
    intro last
    obtain ⟨e, lev⟩ := x
    simp only [crossings, crossSum, cross]
    by_cases h1 : k < last <;> by_cases h2 : k < lev
    · rw [if_neg (by omega)]
      simp only [List.nil_append, ih, h1, h2, if_true]
      ring
    · rw [if_pos (by omega)]
      simp only [List.cons_append, List.nil_append, signed, ih, h1, h2, if_true, if_false]
      ring
    · rw [if_pos (by omega)]
      simp only [List.cons_append, List.nil_append, signed, ih, h1, h2, if_true, if_false]
      ring
    · rw [if_neg (by omega)]
      simp only [List.nil_append, ih, h1, h2, if_false]
      ring

/-! ### A column -/

theorem addAt_spec (z : List ℝ) (i : Nat) (v : ℝ) (hi : i < z.length) : ∃ r, addAt z i v = some r ∧ r.length = z.length ∧
    ∀ q, r.getD q 0 = z.getD q 0 + if q = i then v else 0 := by
  refine ⟨_, by rw [addAt, if_pos hi], by simp, fun q => ?_⟩
  simp only [List.getD_eq_getElem?_getD, List.getElem?_modify]
  by_cases h : q = i
  · subst h
    rw [List.getElem?_eq_getElem hi]
    simp
  · have h' : ¬ i = q := fun h' => h h'.symm
    simp [h, h']

/-- The partial pixel at the end of a layer is not dropped. -/
def GoodFrac (b : ℝ) : Prop := Int.fract b = 0 ∨ 1 / 1000 < Int.fract b

theorem fract_nat (b : ℝ) (Z f : Nat) (p : ℝ) (h : b = Z + f + p) (h0 : 0 ≤ p) (h1 : p < 1) : Int.fract b = p := by
  rw [h, show ((Z : ℝ) + f + p) = ((Z + f : Nat) : ℝ) + p by push_cast; ring, Int.fract_natCast_add]
  exact Int.fract_eq_self.2 ⟨h0, h1⟩

theorem layerRest_spec (D : Nat) (r : ℝ) (z : List ℝ) (Z : Nat) (b' : ℝ) (hz : z.length = D) (hb : (Z : ℝ) ≤ b') (hD : b' ≤ D)
    (hg : GoodFrac b') (h0 : ∀ j, Z ≤ j → z.getD j 0 = 0) : ∃ s, layerRest r z Z (b' - Z) = some s ∧ s.z.length = D ∧
      b' = s.zInd + s.part ∧ 0 ≤ s.part ∧ s.part < 1 ∧ (s.part = 0 ∨ 1 / 1000 < s.part) ∧
      ∀ j, j < D → s.z.getD j 0 = if j < Z then z.getD j 0 else r * ramp j b' := by
  obtain ⟨f, f1, f2, f3⟩ := floor_nat (b' - Z) (by linarith)
  have hfr : Int.fract b' = b' - Z - f := fract_nat b' Z f _ (by ring) (by linarith) (by linarith)
  rw [GoodFrac, hfr] at hg
  have hfD : Z + f ≤ D := by
    have : (Z : ℝ) + f ≤ D := by linarith
    exact_mod_cast this
  -- the full pixels
  have hsecond : ∃ y : List ℝ, (if (0 : Int) < (f : Int) then
        if Z + (f : Int).toNat ≤ z.length then
          some (z.mapIdx fun j v => if Z ≤ j ∧ j < Z + (f : Int).toNat then r else v, Z + (f : Int).toNat)
        else if (f : Int) = 1 then some (z, Z + 1) else none
      else some (z, Z)) = some (y, Z + f) ∧ y.length = D ∧ ∀ j, j < D → y.getD j 0 = if Z ≤ j ∧ j < Z + f then r else z.getD j 0 := by
    by_cases hf : (0 : Int) < (f : Int)
    · rw [if_pos hf, Int.toNat_natCast, if_pos (by omega)]
      refine ⟨_, rfl, by simp [hz], fun j hj => ?_⟩
      simp only [List.getD_eq_getElem?_getD, List.getElem?_mapIdx, List.getElem?_eq_getElem (by omega : j < z.length),
        Option.map_some, Option.getD_some]
    · rw [if_neg hf]
      have : f = 0 := by omega
      subst this
      refine ⟨z, rfl, hz, fun j _ => ?_⟩
      rw [if_neg (by omega)]
  obtain ⟨y, y1, y2, y3⟩ := hsecond
  have hp0 : 0 ≤ b' - Z - f := by linarith
  have hp1 : b' - Z - f < 1 := by linarith
  have hramp : ∀ j : Nat, ramp j b' = if j < Z + f then 1 else if j = Z + f then b' - Z - f else 0 := by
    intro j
    rw [ramp_floor j (Z + f) b' (by push_cast; linarith) (by push_cast; linarith)]
    push_cast
    rw [sub_sub]
  unfold layerRest
  simp only
  rw [f1, y1]
  simp only [Option.bind_some, Int.cast_natCast]
  have htiny : (tiny : ℝ) = 1 / 1000 := rfl
  by_cases ht : tiny < |b' - Z - f|
  · rw [if_pos ht]
    rw [htiny, abs_of_nonneg hp0] at ht
    have hlt : Z + f < D := by
      have : (Z : ℝ) + f < D := by linarith
      exact_mod_cast this
    obtain ⟨w, w1, w2, w3⟩ := addAt_spec y (Z + f) (r * (b' - Z - f)) (by omega)
    rw [w1]
    refine ⟨_, rfl, by rw [w2, y2], by push_cast; ring, hp0, hp1, Or.inr ht, fun j hj => ?_⟩
    show w.getD j 0 = _
    rw [w3, y3 j hj, hramp j]
    rcases lt_or_ge j Z with h | h
    · rw [if_neg (by omega : ¬ (Z ≤ j ∧ j < Z + f)), if_neg (by omega : ¬ j = Z + f), if_pos h]
      ring
    · rcases lt_trichotomy j (Z + f) with h' | h' | h'
      · rw [if_pos (by omega : (Z ≤ j ∧ j < Z + f)), if_neg (by omega : ¬ j = Z + f), if_neg (by omega : ¬ j < Z), if_pos h']
        ring
      · rw [if_neg (by omega : ¬ (Z ≤ j ∧ j < Z + f)), if_pos h', if_neg (by omega : ¬ j < Z), if_neg (by omega : ¬ j < Z + f),
          if_pos h', h0 j h]
        ring
      · rw [if_neg (by omega : ¬ (Z ≤ j ∧ j < Z + f)), if_neg (by omega : ¬ j = Z + f), if_neg (by omega : ¬ j < Z),
          if_neg (by omega : ¬ j < Z + f), if_neg (by omega : ¬ j = Z + f), h0 j h]
        ring
  · rw [if_neg ht]
    rw [htiny, abs_of_nonneg hp0] at ht
    have hpz : b' - Z - f = 0 := by
      rcases hg with h | h
      · exact h
      · exact absurd h ht
    refine ⟨_, rfl, y2, by push_cast; ring, hp0, hp1, Or.inl hpz, fun j hj => ?_⟩
    show y.getD j 0 = _
    rw [y3 j hj, hramp j, hpz]
    rcases lt_or_ge j Z with h | h
    · rw [if_neg (by omega : ¬ (Z ≤ j ∧ j < Z + f)), if_pos h]
    · rcases lt_or_ge j (Z + f) with h' | h'
      · rw [if_pos (by omega : (Z ≤ j ∧ j < Z + f)), if_neg (by omega : ¬ j < Z), if_pos h']
        ring
      · rw [if_neg (by omega : ¬ (Z ≤ j ∧ j < Z + f)), if_neg (by omega : ¬ j < Z), if_neg (by omega : ¬ j < Z + f), h0 j h]
        split <;> ring

/-- The state of the loop when the layers down to the depth `b` have been drawn: `F` is what they amount to. -/
structure ColInv (D : Nat) (s : Col ℝ) (b : ℝ) (F : Nat → ℝ) : Prop where
  len : s.z.length = D
  pos : b = s.zInd + s.part
  p0 : 0 ≤ s.part
  p1 : s.part < 1
  pg : s.part = 0 ∨ 1 / 1000 < s.part
  val : ∀ j, j < D → s.z.getD j 0 = F j
  low : ∀ j : Nat, b ≤ j → F j = 0

theorem layerStep_spec (D : Nat) (s : Col ℝ) (b b' r : ℝ) (F : Nat → ℝ) (h : ColInv D s b F) (i : Nat) (hi : i = 0 → s.part = 0)
    (hb : b ≤ b') (hD : b' ≤ D) (hg : GoodFrac b') (hthick : s.part ≠ 0 → (s.zInd : ℝ) + 1 ≤ b') :
    ∃ s', layerStep s i (b' - b) r = some s' ∧ ColInv D s' b' fun j => F j + r * (ramp j b' - ramp j b) := by
  have htiny : (tiny : ℝ) = 1 / 1000 := rfl
  have hlow' : ∀ j : Nat, b' ≤ j → F j + r * (ramp j b' - ramp j b) = 0 := by
    intro j hj
    rw [h.low j (hb.trans hj), ramp_zero _ _ hj, ramp_zero _ _ (hb.trans hj)]
    ring
  have hzD : ∀ j, D ≤ j → s.z.getD j 0 = 0 := by
    intro j hj
    rw [List.getD_eq_getElem?_getD, List.getElem?_eq_none (by rw [h.len]; exact hj)]
    rfl
  unfold layerStep
  by_cases hc : i ≠ 0 ∧ tiny < |s.part|
  · rw [if_pos hc]
    obtain ⟨_, ht⟩ := hc
    rw [htiny, abs_of_nonneg h.p0] at ht
    have hpne : s.part ≠ 0 := by
      intro h0
      rw [h0] at ht
      norm_num at ht
    have hth := hthick hpne
    have hzl : s.zInd < D := by
      have : (s.zInd : ℝ) + 1 ≤ D := hth.trans hD
      exact_mod_cast this
    obtain ⟨w, w1, w2, w3⟩ := addAt_spec s.z s.zInd (r * (1 - s.part)) (by rw [h.len]; exact hzl)
    rw [w1]
    simp only [Option.bind_some]
    rw [show b' - b - (1 - s.part) = b' - ((s.zInd + 1 : Nat) : ℝ) by rw [h.pos]; push_cast; ring]
    obtain ⟨s', s1, s2, s3, s4, s5, s6, s7⟩ := layerRest_spec D r w (s.zInd + 1) b' (by rw [w2, h.len]) (by push_cast; exact hth)
      hD hg (by
        intro j hj
        rw [w3, if_neg (by omega : ¬ j = s.zInd), add_zero]
        rcases lt_or_ge j D with hjD | hjD
        · rw [h.val j hjD]
          apply h.low
          rw [h.pos]
          have : (s.zInd : ℝ) + 1 ≤ j := by exact_mod_cast hj
          linarith [h.p1]
        · exact hzD j hjD)
    refine ⟨s', s1, s2, s3, s4, s5, s6, ?_, hlow'⟩
    intro j hj
    rw [s7 j hj]
    rcases lt_trichotomy j s.zInd with hjz | hjz | hjz
    · rw [if_pos (by omega : j < s.zInd + 1), w3, if_neg (by omega : ¬ j = s.zInd), h.val j hj]
      have hj1 : (j : ℝ) + 1 ≤ s.zInd := by exact_mod_cast hjz
      rw [ramp_one _ _ (by linarith), ramp_one _ _ (by rw [h.pos]; linarith [h.p0])]
      ring
    · rw [if_pos (by omega : j < s.zInd + 1), w3, if_pos hjz, h.val j hj]
      rw [hjz, ramp_one _ _ hth, ramp_mid _ _ (by rw [h.pos]; linarith [h.p0]) (by rw [h.pos]; linarith [h.p1]), h.pos]
      ring
    · rw [if_neg (by omega : ¬ j < s.zInd + 1)]
      have hj1 : (s.zInd : ℝ) + 1 ≤ j := by exact_mod_cast hjz
      have hbj : b ≤ j := by rw [h.pos]; linarith [h.p1]
      rw [h.low j hbj, ramp_zero _ b hbj]
      ring
  · rw [if_neg hc]
    have hp : s.part = 0 := by
      by_cases hi0 : i = 0
      · exact hi hi0
      · rcases h.pg with hp | hp
        · exact hp
        · exact absurd ⟨hi0, by rw [htiny, abs_of_nonneg h.p0]; exact hp⟩ hc
    have hbz : b = s.zInd := by rw [h.pos, hp, add_zero]
    rw [hbz] at hb ⊢
    obtain ⟨s', s1, s2, s3, s4, s5, s6, s7⟩ := layerRest_spec D r s.z s.zInd b' h.len hb hD hg (by
        intro j hj
        rcases lt_or_ge j D with hjD | hjD
        · rw [h.val j hjD]
          apply h.low
          rw [hbz]
          exact_mod_cast hj
        · exact hzD j hjD)
    rw [hbz] at hlow'
    refine ⟨s', s1, s2, s3, s4, s5, s6, ?_, hlow'⟩
    intro j hj
    rw [s7 j hj]
    rcases lt_or_ge j s.zInd with hjz | hjz
    · rw [if_pos hjz, h.val j hj]
      have hj1 : (j : ℝ) + 1 ≤ s.zInd := by exact_mod_cast hjz
      rw [ramp_one _ _ (by linarith), ramp_one _ _ hj1]
      ring
    · rw [if_neg (by omega : ¬ j < s.zInd)]
      have hj1 : (s.zInd : ℝ) ≤ j := by exact_mod_cast hjz
      rw [h.low j (by rw [hbz]; exact hj1), ramp_zero _ _ hj1]
      ring

/-- The depths that can be drawn: increasing from `b` to at most `D`, no partial pixel is dropped, and each partial pixel is
completed by the next layer. -/
def GoodDepths (D : Nat) : ℝ → List ℝ → Prop
  | _, [] => True
  | b, b' :: l => b ≤ b' ∧ b' ≤ D ∧ GoodFrac b' ∧ (Int.fract b = 0 ∨ (⌊b⌋ : ℝ) + 1 ≤ b') ∧ GoodDepths D b' l

/-- The sum of the layers between the depths. -/
noncomputable def layerSum (j : Nat) : ℝ → List ℝ → List ℝ → ℝ
  | b, b' :: l, r :: rs => r * (ramp j b' - ramp j b) + layerSum j b' l rs
  | _, _, _ => 0

theorem layers_spec (D : Nat) : ∀ (depths rs : List ℝ) (b : ℝ) (s : Col ℝ) (F : Nat → ℝ) (i : Nat), depths.length = rs.length →
    ColInv D s b F → (i = 0 → s.part = 0) → GoodDepths D b depths →
    ∃ s', layers i ((List.zipWith (· - ·) depths (b :: depths)).zip rs) s = some s' ∧
      ColInv D s' (depths.getLastD b) fun j => F j + layerSum j b depths rs := by
  intro depths
  induction depths with
  | nil =>
    intro rs b s F i hl h _ _
    refine ⟨s, rfl, ?_⟩
    have : ∀ j, layerSum j b [] rs = 0 := fun j => by simp [layerSum]
    simp only [this, add_zero]
    exact h
  | cons b' l ih =>
    intro rs b s F i hl h hi hg
    obtain ⟨g1, g2, g3, g4, g5⟩ := hg
    cases rs with
    | nil => simp at hl
    | cons r rs =>
      have hfl : s.part ≠ 0 → (s.zInd : ℝ) + 1 ≤ b' := by
        intro hp
        have hfr : Int.fract b = s.part := fract_nat b s.zInd 0 s.part (by rw [h.pos]; simp) h.p0 h.p1
        rcases g4 with h4 | h4
        · exact absurd (hfr ▸ h4) hp
        · have : (⌊b⌋ : ℝ) = b - Int.fract b := by rw [Int.fract]; ring
          rw [this, hfr, h.pos] at h4
          linarith
      obtain ⟨s', s1, s2⟩ := layerStep_spec D s b b' r F h i hi g1 g2 g3 hfl
      obtain ⟨s'', t1, t2⟩ := ih rs b' s' _ (i + 1) (by simpa using hl) s2 (fun h => by omega) g5
      refine ⟨s'', ?_, ?_⟩
      · simp only [List.zipWith_cons_cons, List.zip_cons_cons, layers]
        rw [s1]
        exact t1
      · have e1 : (b' :: l).getLastD b = l.getLastD b' := by rw [List.getLastD_cons]
        rw [e1]
        have e2 : ∀ j, F j + layerSum j b (b' :: l) (r :: rs) = F j + r * (ramp j b' - ramp j b) + layerSum j b' l rs := by
          intro j
          rw [layerSum]
          ring
        simp only [e2]
        exact t2

theorem finish_spec (D : Nat) (s : Col ℝ) (b : ℝ) (F : Nat → ℝ) (h : ColInv D s b F) (hD : b ≤ D) :
    ∃ r, finish s = some r ∧ r.length = D ∧ ∀ j, j < D → r.getD j 0 = F j + (1 - ramp j b) := by
  have htiny : (tiny : ℝ) = 1 / 1000 := rfl
  unfold finish
  have hmap : ∀ (y : List ℝ) (Z j : Nat), y.length = D → j < D →
      (y.mapIdx fun j v => if Z ≤ j then 1 else v).getD j 0 = if Z ≤ j then 1 else y.getD j 0 := by
    intro y Z j hy hj
    simp only [List.getD_eq_getElem?_getD, List.getElem?_mapIdx, List.getElem?_eq_getElem (by omega : j < y.length),
      Option.map_some, Option.getD_some]
  by_cases ht : tiny < |s.part|
  · rw [if_pos ht]
    rw [htiny, abs_of_nonneg h.p0] at ht
    have hzl : s.zInd < D := by
      have : (s.zInd : ℝ) < D := by
        have := h.pos
        linarith
      exact_mod_cast this
    obtain ⟨w, w1, w2, w3⟩ := addAt_spec s.z s.zInd (1 - s.part) (by rw [h.len]; exact hzl)
    rw [w1]
    refine ⟨_, rfl, by simp [w2, h.len], fun j hj => ?_⟩
    rw [hmap w _ j (by rw [w2, h.len]) hj, w3, h.val j hj]
    rcases lt_trichotomy j s.zInd with hjz | hjz | hjz
    · have hj1 : (j : ℝ) + 1 ≤ s.zInd := by exact_mod_cast hjz
      rw [if_neg (by omega : ¬ s.zInd + 1 ≤ j), if_neg (by omega : ¬ j = s.zInd), ramp_one _ _ (by rw [h.pos]; linarith [h.p0])]
      ring
    · rw [if_neg (by omega : ¬ s.zInd + 1 ≤ j), if_pos hjz]
      rw [hjz, ramp_mid _ _ (by rw [h.pos]; linarith [h.p0]) (by rw [h.pos]; linarith [h.p1]), h.pos]
      ring
    · have hj1 : (s.zInd : ℝ) + 1 ≤ j := by exact_mod_cast hjz
      have hbj : b ≤ j := by rw [h.pos]; linarith [h.p1]
      rw [if_pos (by omega : s.zInd + 1 ≤ j), h.low j hbj, ramp_zero _ _ hbj]
      ring
  · rw [if_neg ht]
    rw [htiny, abs_of_nonneg h.p0] at ht
    have hp : s.part = 0 := by
      rcases h.pg with hp | hp
      · exact hp
      · exact absurd hp ht
    have hbz : b = s.zInd := by rw [h.pos, hp, add_zero]
    refine ⟨_, rfl, by simp [h.len], fun j hj => ?_⟩
    rw [hmap s.z _ j h.len hj, h.val j hj]
    rcases lt_or_ge j s.zInd with hjz | hjz
    · have hj1 : (j : ℝ) + 1 ≤ s.zInd := by exact_mod_cast hjz
      rw [if_neg (by omega : ¬ s.zInd ≤ j), ramp_one _ _ (by rw [hbz]; exact hj1)]
      ring
    · have hj1 : (s.zInd : ℝ) ≤ j := by exact_mod_cast hjz
      rw [if_pos hjz, h.low j (by rw [hbz]; exact hj1), ramp_zero _ _ (by rw [hbz]; exact hj1)]
      ring

theorem goodDepths_last (D : Nat) : ∀ (depths : List ℝ) (b : ℝ), b ≤ D → GoodDepths D b depths →
    depths.getLastD b ≤ D := by
  intro depths
  induction depths with
  | nil => intro b h _; simpa using h
  | cons b' l ih =>
    intro b _ hg
    have := ih b' hg.2.1 hg.2.2.2.2
    rw [List.getLastD_cons]
    exact this

theorem column_spec (D : Nat) (depths rs : List ℝ) (hl : depths.length = rs.length) (hg : GoodDepths D 0 depths) :
    ∃ r, column D depths rs = some r ∧ r.length = D ∧
      ∀ j, j < D → r.getD j 0 = layerSum j 0 depths rs + (1 - ramp j (depths.getLastD 0)) := by
  obtain ⟨s, s1, s2⟩ := layers_spec D depths rs 0 ⟨List.replicate D 0, 0, 0⟩ (fun _ => 0) 0 hl
    ⟨by simp, by simp, le_rfl, by simp, Or.inl rfl, fun j hj => by simp [List.getD_eq_getElem?_getD, hj], fun _ _ => rfl⟩
    (fun _ => rfl) hg
  obtain ⟨r, r1, r2, r3⟩ := finish_spec D s _ _ s2 (goodDepths_last D depths 0 (Nat.cast_nonneg D) hg)
  refine ⟨r, ?_, r2, fun j hj => by rw [r3 j hj, zero_add]⟩
  unfold column layerPixels
  rw [s1]
  exact r1

end Verif.Grating
