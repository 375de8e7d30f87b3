import Verif.Far.MeshCorners
import Mathlib.Tactic.LinearCombination
/-
Lemmas: the geometry of one step of the refinement.
-/
namespace Verif.Far
set_option linter.unusedVariables false
set_option linter.unusedSimpArgs false

def dot (a b : V3) : ℝ := a 0 * b 0 + a 1 * b 1 + a 2 * b 2

def det (a b c : V3) : ℝ :=
  a 0 * (b 1 * c 2 - b 2 * c 1) - a 1 * (b 0 * c 2 - b 2 * c 0) + a 2 * (b 0 * c 1 - b 1 * c 0)

/-- A combination of the corners of a triangle. -/
def comb (u v w : ℝ) (t : Corners) : V3 := fun i => u * t.1 i + v * t.2.1 i + w * t.2.2 i

/-- The directions strictly inside a triangle, and those in it or on its sides. -/
def Inside (t : Corners) (x : V3) : Prop := ∃ u v w, 0 < u ∧ 0 < v ∧ 0 < w ∧ x = comb u v w t
def Within (t : Corners) (x : V3) : Prop := ∃ u v w, 0 ≤ u ∧ 0 ≤ v ∧ 0 ≤ w ∧ x = comb u v w t

/-- The triangle lies in one octant. -/
def Octant (t : Corners) : Prop := ∃ σ : Fin 3 → ℝ, ∀ i, (σ i = 1 ∨ σ i = -1) ∧ 0 ≤ σ i * t.1 i ∧ 0 ≤ σ i * t.2.1 i ∧ 0 ≤ σ i * t.2.2 i

/-- A triangle on the sphere with sides of at least the cosine `1 - e` and no obtuse angle. -/
structure Nice (e : ℝ) (a b c : V3) : Prop where
  ha : dot a a = 1
  hb : dot b b = 1
  hc : dot c c = 1
  ab : 1 - e ≤ dot a b
  bc : 1 - e ≤ dot b c
  ca : 1 - e ≤ dot c a
  angA : dot a b * dot c a ≤ dot b c
  angB : dot a b * dot b c ≤ dot c a
  angC : dot b c * dot c a ≤ dot a b
  det : det a b c ≠ 0
  oct : Octant (a, b, c)

theorem dot_comm (a b : V3) : dot a b = dot b a := by simp only [dot]; ring

theorem mid_comm (a b : V3) : mid a b = mid b a := by
  rw [mid, mid]; congr 1; funext i; ring

theorem dot_sub_nonneg (a b : V3) (ha : dot a a = 1) (hb : dot b b = 1) : dot a b ≤ 1 := by
  have : 0 ≤ (a 0 - b 0) ^ 2 + (a 1 - b 1) ^ 2 + (a 2 - b 2) ^ 2 := by positivity
  simp only [dot] at *
  nlinarith

/-- The length of the sum of two corners. -/
noncomputable def len (a b : V3) : ℝ := Real.sqrt (2 + 2 * dot a b)

theorem mid_eq {a b : V3} (ha : dot a a = 1) (hb : dot b b = 1) : mid a b = fun i => (a i + b i) / len a b := by
  funext i
  show (a i + b i) / Real.sqrt ((a 0 + b 0) ^ 2 + (a 1 + b 1) ^ 2 + (a 2 + b 2) ^ 2) = _
  rw [len]
  congr 2
  simp only [dot] at *
  linear_combination ha + hb

theorem len_sq {a b : V3} (h : 0 ≤ dot a b) : len a b ^ 2 = 2 + 2 * dot a b := Real.sq_sqrt (by linarith)
theorem len_pos {a b : V3} (h : 0 ≤ dot a b) : 0 < len a b := Real.sqrt_pos.2 (by linarith)
theorem len_comm (a b : V3) : len a b = len b a := by rw [len, len, dot_comm]

theorem dot_mid {a b : V3} (ha : dot a a = 1) (hb : dot b b = 1) (h : 0 ≤ dot a b) : dot a (mid a b) = len a b / 2 := by
  have h1 := len_sq h
  have h2 := len_pos h
  rw [mid_eq ha hb]
  have : dot a (fun i => (a i + b i) / len a b) = (dot a a + dot a b) / len a b := by simp only [dot]; ring
  rw [this, ha]
  field_simp
  linarith

theorem mid_unit {a b : V3} (ha : dot a a = 1) (hb : dot b b = 1) (h : 0 ≤ dot a b) : dot (mid a b) (mid a b) = 1 := by
  have h1 := len_sq h
  have h2 := len_pos h
  rw [mid_eq ha hb]
  have : dot (fun i => (a i + b i) / len a b) (fun i => (a i + b i) / len a b) = (dot a a + 2 * dot a b + dot b b) / len a b ^ 2 := by
    simp only [dot]; field_simp; ring
  rw [this, ha, hb, h1]
  field_simp
  ring

/-- The product of two middles that share the corner `a`. -/
theorem mid_mid {a b c : V3} (ha : dot a a = 1) (hb : dot b b = 1) (hc : dot c c = 1) :
    dot (mid a b) (mid c a) = (1 + dot a b + dot b c + dot c a) / (len a b * len c a) := by
  rw [mid_eq ha hb, mid_eq hc ha, ← ha]
  simp only [dot]
  ring

variable {e : ℝ} {a b c : V3}

theorem Nice.swap (h : Nice e a b c) : Nice e b a c where
  ha := h.hb
  hb := h.ha
  hc := h.hc
  ab := by rw [dot_comm]; exact h.ab
  bc := by rw [dot_comm]; exact h.ca
  ca := by rw [dot_comm]; exact h.bc
  angA := by rw [dot_comm b a, dot_comm c b, dot_comm a c]; exact h.angB
  angB := by rw [dot_comm b a, dot_comm c b, dot_comm a c]; exact h.angA
  angC := by rw [dot_comm b a, dot_comm c b, dot_comm a c, mul_comm]; exact h.angC
  det := by
    have := h.det
    intro h0
    apply this
    simp only [Far.det] at *
    linear_combination -h0
  oct := by
    obtain ⟨σ, hσ⟩ := h.oct
    exact ⟨σ, fun i => ⟨(hσ i).1, (hσ i).2.2.1, (hσ i).2.1, (hσ i).2.2.2⟩⟩

theorem Nice.rot (h : Nice e a b c) : Nice e c a b where
  ha := h.hc
  hb := h.ha
  hc := h.hb
  ab := h.ca
  bc := h.ab
  ca := h.bc
  angA := by rw [mul_comm]; exact h.angC
  angB := by rw [mul_comm]; exact h.angA
  angC := h.angB
  det := by
    have := h.det
    intro h0
    apply this
    simp only [Far.det] at *
    linear_combination h0
  oct := by
    obtain ⟨σ, hσ⟩ := h.oct
    exact ⟨σ, fun i => ⟨(hσ i).1, (hσ i).2.2.2, (hσ i).2.1, (hσ i).2.2.1⟩⟩

theorem Nice.nonneg (h : Nice e a b c) (he : e ≤ 1) : 0 ≤ dot a b ∧ 0 ≤ dot b c ∧ 0 ≤ dot c a :=
  ⟨by have := h.ab; linarith, by have := h.bc; linarith, by have := h.ca; linarith⟩

theorem Nice.le_one (h : Nice e a b c) : dot a b ≤ 1 ∧ dot b c ≤ 1 ∧ dot c a ≤ 1 :=
  ⟨dot_sub_nonneg _ _ h.ha h.hb, dot_sub_nonneg _ _ h.hb h.hc, dot_sub_nonneg _ _ h.hc h.ha⟩

/-- No angle of the flat triangle is obtuse. -/
theorem Nice.flat (h : Nice e a b c) : dot a b + dot c a ≤ 1 + dot b c ∧ dot a b + dot b c ≤ 1 + dot c a ∧
    dot b c + dot c a ≤ 1 + dot a b := by
  obtain ⟨h1, h2, h3⟩ := h.le_one
  have := h.angA
  have := h.angB
  have := h.angC
  refine ⟨?_, ?_, ?_⟩ <;> nlinarith

theorem half_len {p e : ℝ} (he0 : 0 ≤ e) (he : e ≤ 1) (hp : 1 - e ≤ p) : 1 - e / (4 - 2 * e) ≤ Real.sqrt (2 + 2 * p) / 2 := by
  have h1 : 0 < 4 - 2 * e := by linarith
  rw [le_div_iff₀ two_pos]
  refine Real.le_sqrt_of_sq_le ?_
  have h2 : (1 - e / (4 - 2 * e)) = (4 - 3 * e) / (4 - 2 * e) := by rw [eq_div_iff h1.ne', sub_mul, div_mul_cancel₀ _ h1.ne']; ring
  rw [h2, mul_pow, div_pow, div_mul_eq_mul_div, div_le_iff₀ (by positivity)]
  have h3 : 0 ≤ 3 * e ^ 2 - 2 * e ^ 3 := by nlinarith [sq_nonneg e]
  have h4 : (2 * (2 - e)) * (4 - 2 * e) ^ 2 ≤ (2 + 2 * p) * (4 - 2 * e) ^ 2 :=
    mul_le_mul_of_nonneg_right (by linarith) (by positivity)
  nlinarith

theorem mids_close {p q r e : ℝ} (he0 : 0 ≤ e) (he : e ≤ 1) (hp : 1 - e ≤ p) (hq : 1 - e ≤ q) (hr : 1 - e ≤ r) {s1 s3 : ℝ}
    (h1 : 0 < s1) (h3 : 0 < s3) (k1 : s1 ^ 2 = 2 + 2 * p) (k3 : s3 ^ 2 = 2 + 2 * r) :
    1 - e / (4 - 2 * e) ≤ (1 + p + q + r) / (s1 * s3) := by
  have h0 : 0 < 4 - 2 * e := by linarith
  have hs : s1 * s3 ≤ 2 + p + r := by nlinarith [sq_nonneg (s1 - s3)]
  have hpos : 0 < s1 * s3 := mul_pos h1 h3
  have hS : 0 ≤ 1 + p + q + r := by linarith
  calc 1 - e / (4 - 2 * e) ≤ (1 + p + q + r) / (2 + p + r) := by
        have h2 : (1 - e / (4 - 2 * e)) = (4 - 3 * e) / (4 - 2 * e) := by rw [eq_div_iff h0.ne', sub_mul, div_mul_cancel₀ _ h0.ne']; ring
        rw [h2, div_le_div_iff₀ h0 (by linarith)]
        nlinarith
    _ ≤ (1 + p + q + r) / (s1 * s3) := div_le_div_of_nonneg_left hS hpos hs

theorem Nice.corner (h : Nice e a b c) (he0 : 0 ≤ e) (he : e ≤ 1) : Nice (e / (4 - 2 * e)) a (mid a b) (mid c a) := by
  obtain ⟨n1, n2, n3⟩ := h.nonneg he
  obtain ⟨f1, f2, f3⟩ := h.flat
  have l1 := len_pos n1
  have l3 := len_pos n3
  have k1 := len_sq n1
  have k3 := len_sq n3
  have p1 : dot a (mid a b) = len a b / 2 := dot_mid h.ha h.hb n1
  have p3 : dot (mid c a) a = len c a / 2 := by
    rw [dot_comm, mid_comm, dot_mid h.ha h.hc (by rw [dot_comm]; exact n3), len_comm]
  have p2 := mid_mid h.ha h.hb h.hc
  have hpos : 0 < len a b * len c a := mul_pos l1 l3
  refine ⟨h.ha, mid_unit h.ha h.hb n1, mid_unit h.hc h.ha n3, ?_, ?_, ?_, ?_, ?_, ?_, ?_, ?_⟩
  · rw [p1]; exact half_len he0 he h.ab
  · rw [p2]; exact mids_close he0 he h.ab h.bc h.ca l1 l3 k1 k3
  · rw [p3]; exact half_len he0 he h.ca
  · rw [p1, p2, p3, le_div_iff₀ hpos]
    have h1 : len a b / 2 * (len c a / 2) * (len a b * len c a) = len a b ^ 2 * len c a ^ 2 / 4 := by ring
    rw [h1, k1, k3]
    nlinarith [h.angA]
  · rw [p1, p2, p3]
    have h1 : len a b / 2 * ((1 + dot a b + dot b c + dot c a) / (len a b * len c a)) =
        (1 + dot a b + dot b c + dot c a) / (2 * len c a) := by field_simp
    rw [h1, div_le_iff₀ (by positivity)]
    nlinarith
  · rw [p1, p2, p3]
    have h1 : (1 + dot a b + dot b c + dot c a) / (len a b * len c a) * (len c a / 2) =
        (1 + dot a b + dot b c + dot c a) / (2 * len a b) := by field_simp
    rw [h1, div_le_iff₀ (by positivity)]
    nlinarith
  · rw [mid_eq h.ha h.hb, mid_eq h.hc h.ha]
    have : Far.det a (fun i => (a i + b i) / len a b) (fun i => (c i + a i) / len c a) = Far.det a b c / (len a b * len c a) := by
      simp only [Far.det]; field_simp; ring
    rw [this]
    exact div_ne_zero h.det hpos.ne'
  · obtain ⟨σ, hσ⟩ := h.oct
    refine ⟨σ, fun i => ?_⟩
    obtain ⟨g0, g1, g2, g3⟩ := hσ i
    refine ⟨g0, g1, ?_, ?_⟩
    · show 0 ≤ σ i * mid a b i
      rw [mid_eq h.ha h.hb]
      show 0 ≤ σ i * ((a i + b i) / len a b)
      rw [mul_div_assoc', mul_add]
      exact div_nonneg (add_nonneg g1 g2) l1.le
    · show 0 ≤ σ i * mid c a i
      rw [mid_eq h.hc h.ha]
      show 0 ≤ σ i * ((c i + a i) / len c a)
      rw [mul_div_assoc', mul_add]
      exact div_nonneg (add_nonneg g3 g1) l3.le

theorem Nice.middle (h : Nice e a b c) (he0 : 0 ≤ e) (he : e ≤ 1) : Nice (e / (4 - 2 * e)) (mid a b) (mid b c) (mid c a) := by
  obtain ⟨n1, n2, n3⟩ := h.nonneg he
  obtain ⟨f1, f2, f3⟩ := h.flat
  have l1 := len_pos n1
  have l2 := len_pos n2
  have l3 := len_pos n3
  have k1 := len_sq n1
  have k2 := len_sq n2
  have k3 := len_sq n3
  have q1 : dot (mid a b) (mid b c) = (1 + dot a b + dot b c + dot c a) / (len a b * len b c) := by
    have := mid_mid h.hb h.hc h.ha
    rw [dot_comm, this, mul_comm]; congr 1; ring
  have q2 : dot (mid b c) (mid c a) = (1 + dot a b + dot b c + dot c a) / (len b c * len c a) := by
    have := mid_mid h.hc h.ha h.hb
    rw [dot_comm, this, mul_comm]; congr 1; ring
  have q3 : dot (mid c a) (mid a b) = (1 + dot a b + dot b c + dot c a) / (len a b * len c a) := by
    rw [dot_comm, mid_mid h.ha h.hb h.hc]
  have hS : 0 < 1 + dot a b + dot b c + dot c a := by linarith
  have key : ∀ s t u S : ℝ, 0 < s → 0 < t → 0 < u → 0 < S → S ≤ u ^ 2 → S / (u * s) * (S / (u * t)) ≤ S / (s * t) := by
    intro s t u S hs ht hu hS h
    have h1 : S / (u * s) * (S / (u * t)) = S / (s * t) * (S / u ^ 2) := by field_simp
    rw [h1]
    exact mul_le_of_le_one_right (by positivity) ((div_le_one (by positivity)).2 h)
  refine ⟨mid_unit h.ha h.hb n1, mid_unit h.hb h.hc n2, mid_unit h.hc h.ha n3, ?_, ?_, ?_, ?_, ?_, ?_, ?_, ?_⟩
  · rw [q1]
    have := mids_close he0 he h.ab h.ca h.bc l1 l2 k1 k2
    refine this.trans (le_of_eq ?_); congr 1; ring
  · rw [q2]
    have := mids_close he0 he h.bc h.ab h.ca l2 l3 k2 k3
    refine this.trans (le_of_eq ?_); congr 1; ring
  · rw [q3]; exact mids_close he0 he h.ab h.bc h.ca l1 l3 k1 k3
  · rw [q1, q2, q3]
    exact key _ _ _ _ l2 l3 l1 hS (by linarith)
  · rw [q1, q2, q3, mul_comm (len a b) (len b c)]
    exact key _ _ _ _ l1 l3 l2 hS (by linarith)
  · rw [q1, q2, q3, mul_comm (len b c) (len c a), mul_comm (len a b) (len c a), mul_comm (len a b) (len b c)]
    exact key _ _ _ _ l2 l1 l3 hS (by linarith)
  · rw [mid_eq h.ha h.hb, mid_eq h.hc h.ha, mid_eq h.hb h.hc]
    have : Far.det (fun i => (a i + b i) / len a b) (fun i => (b i + c i) / len b c) (fun i => (c i + a i) / len c a) =
        2 * Far.det a b c / (len a b * len b c * len c a) := by
      simp only [Far.det]; field_simp; ring
    rw [this]
    exact div_ne_zero (mul_ne_zero two_ne_zero h.det) (by positivity)
  · obtain ⟨σ, hσ⟩ := h.oct
    refine ⟨σ, fun i => ?_⟩
    obtain ⟨g0, g1, g2, g3⟩ := hσ i
    refine ⟨g0, ?_, ?_, ?_⟩
    · show 0 ≤ σ i * mid a b i
      rw [mid_eq h.ha h.hb]
      show 0 ≤ σ i * ((a i + b i) / len a b)
      rw [mul_div_assoc', mul_add]
      exact div_nonneg (add_nonneg g1 g2) l1.le
    · show 0 ≤ σ i * mid b c i
      rw [mid_eq h.hb h.hc]
      show 0 ≤ σ i * ((b i + c i) / len b c)
      rw [mul_div_assoc', mul_add]
      exact div_nonneg (add_nonneg g2 g3) l2.le
    · show 0 ≤ σ i * mid c a i
      rw [mid_eq h.hc h.ha]
      show 0 ≤ σ i * ((c i + a i) / len c a)
      rw [mul_div_assoc', mul_add]
      exact div_nonneg (add_nonneg g3 g1) l3.le

/-- `Nice` for a triple. -/
def NiceT (e : ℝ) (t : Corners) : Prop := Nice e t.1 t.2.1 t.2.2

theorem split_nice {t : Corners} (h : NiceT e t) (he0 : 0 ≤ e) (he : e ≤ 1) : ∀ u ∈ split4 t, NiceT (e / (4 - 2 * e)) u := by
  obtain ⟨a, b, c⟩ := t
  have h' : Nice e a b c := h
  intro u hu
  simp only [split4, List.mem_cons, List.not_mem_nil, or_false] at hu
  rcases hu with rfl | rfl | rfl | rfl
  · exact h'.middle he0 he
  · exact h'.corner he0 he
  · have := h'.swap.corner he0 he
    rw [mid_comm b a, mid_comm c b] at this
    exact this
  · exact h'.rot.corner he0 he

/-! ### Directions -/

theorem comb_unique {a b c : V3} (hd : det a b c ≠ 0) {u v w u' v' w' : ℝ} (h : comb u v w (a, b, c) = comb u' v' w' (a, b, c)) :
    u = u' ∧ v = v' ∧ w = w' := by
  have h0 := congrFun h 0
  have h1 := congrFun h 1
  have h2 := congrFun h 2
  simp only [comb] at h0 h1 h2
  refine ⟨?_, ?_, ?_⟩
  · refine sub_eq_zero.1 ((mul_eq_zero.1 ?_).resolve_right hd)
    simp only [det]
    linear_combination (b 1 * c 2 - b 2 * c 1) * h0 - (b 0 * c 2 - b 2 * c 0) * h1 + (b 0 * c 1 - b 1 * c 0) * h2
  · refine sub_eq_zero.1 ((mul_eq_zero.1 ?_).resolve_right hd)
    simp only [det]
    linear_combination -(a 1 * c 2 - a 2 * c 1) * h0 + (a 0 * c 2 - a 2 * c 0) * h1 - (a 0 * c 1 - a 1 * c 0) * h2
  · refine sub_eq_zero.1 ((mul_eq_zero.1 ?_).resolve_right hd)
    simp only [det]
    linear_combination (a 1 * b 2 - a 2 * b 1) * h0 - (a 0 * b 2 - a 2 * b 0) * h1 + (a 0 * b 1 - a 1 * b 0) * h2

/-- Every direction of a triangle is in one of its four parts. -/
theorem split_within {t : Corners} (h : NiceT e t) (he : e ≤ 1) {x : V3} (hx : Within t x) : ∃ u ∈ split4 t, Within u x := by
  obtain ⟨a, b, c⟩ := t
  have h' : Nice e a b c := h
  obtain ⟨n1, n2, n3⟩ := h'.nonneg he
  have l1 := len_pos n1
  have l2 := len_pos n2
  have l3 := len_pos n3
  obtain ⟨u, v, w, hu, hv, hw, rfl⟩ := hx
  have e1 := mid_eq h'.ha h'.hb
  have e2 := mid_eq h'.hb h'.hc
  have e3 := mid_eq h'.hc h'.ha
  by_cases c1 : v + w ≤ u
  · refine ⟨(a, mid a b, mid c a), by simp [split4], u - v - w, v * len a b, w * len c a, by linarith, by positivity, by positivity, ?_⟩
    funext i
    simp only [comb, e1, e3]
    field_simp
    ring
  by_cases c2 : u + w ≤ v
  · refine ⟨(b, mid a b, mid b c), by simp [split4], v - u - w, u * len a b, w * len b c, by linarith, by positivity, by positivity, ?_⟩
    funext i
    simp only [comb, e1, e2]
    field_simp
    ring
  by_cases c3 : u + v ≤ w
  · refine ⟨(c, mid c a, mid b c), by simp [split4], w - u - v, u * len c a, v * len b c, by linarith, by positivity, by positivity, ?_⟩
    funext i
    simp only [comb, e3, e2]
    field_simp
    ring
  rw [not_le] at c1 c2 c3
  refine ⟨(mid a b, mid b c, mid c a), by simp [split4], (u + v - w) / 2 * len a b, (v + w - u) / 2 * len b c, (u + w - v) / 2 * len c a,
    mul_nonneg (by linarith) l1.le, mul_nonneg (by linarith) l2.le, mul_nonneg (by linarith) l3.le, ?_⟩
  funext i
  simp only [comb, e1, e2, e3]
  field_simp
  ring

/-- Where the directions inside the four parts lie. -/
theorem split_inside {t : Corners} (h : NiceT e t) (he : e ≤ 1) : 
    (∀ p ∈ split4 t, ∀ x, Inside p x → ∃ u v w, 0 < u ∧ 0 < v ∧ 0 < w ∧ x = comb u v w t) ∧
    ∀ x, (Inside (mid t.1 t.2.1, mid t.2.1 t.2.2, mid t.2.2 t.1) x → ∃ u v w, x = comb u v w t ∧ u < v + w ∧ v < u + w ∧ w < u + v) ∧
      (Inside (t.1, mid t.1 t.2.1, mid t.2.2 t.1) x → ∃ u v w, x = comb u v w t ∧ 0 < v ∧ 0 < w ∧ v + w < u) ∧
      (Inside (t.2.1, mid t.1 t.2.1, mid t.2.1 t.2.2) x → ∃ u v w, x = comb u v w t ∧ 0 < u ∧ 0 < w ∧ u + w < v) ∧
      (Inside (t.2.2, mid t.2.2 t.1, mid t.2.1 t.2.2) x → ∃ u v w, x = comb u v w t ∧ 0 < u ∧ 0 < v ∧ u + v < w) := by
  obtain ⟨a, b, c⟩ := t
  have h' : Nice e a b c := h
  obtain ⟨n1, n2, n3⟩ := h'.nonneg he
  have l1 := len_pos n1
  have l2 := len_pos n2
  have l3 := len_pos n3
  have e1 := mid_eq h'.ha h'.hb
  have e2 := mid_eq h'.hb h'.hc
  have e3 := mid_eq h'.hc h'.ha
  have k0 : ∀ x, Inside (mid a b, mid b c, mid c a) x → ∃ α β γ, 0 < α ∧ 0 < β ∧ 0 < γ ∧
      x = comb (α + γ) (α + β) (β + γ) (a, b, c) := by
    rintro x ⟨α, β, γ, hα, hβ, hγ, rfl⟩
    refine ⟨α / len a b, β / len b c, γ / len c a, by positivity, by positivity, by positivity, ?_⟩
    funext i
    simp only [comb, e1, e2, e3]
    field_simp
    ring
  have k1 : ∀ x, Inside (a, mid a b, mid c a) x → ∃ α β γ, 0 < α ∧ 0 < β ∧ 0 < γ ∧ x = comb (α + β + γ) β γ (a, b, c) := by
    rintro x ⟨α, β, γ, hα, hβ, hγ, rfl⟩
    refine ⟨α, β / len a b, γ / len c a, by positivity, by positivity, by positivity, ?_⟩
    funext i
    simp only [comb, e1, e2, e3]
    field_simp
    ring
  have k2 : ∀ x, Inside (b, mid a b, mid b c) x → ∃ α β γ, 0 < α ∧ 0 < β ∧ 0 < γ ∧ x = comb β (α + β + γ) γ (a, b, c) := by
    rintro x ⟨α, β, γ, hα, hβ, hγ, rfl⟩
    refine ⟨α, β / len a b, γ / len b c, by positivity, by positivity, by positivity, ?_⟩
    funext i
    simp only [comb, e1, e2, e3]
    field_simp
    ring
  have k3 : ∀ x, Inside (c, mid c a, mid b c) x → ∃ α β γ, 0 < α ∧ 0 < β ∧ 0 < γ ∧ x = comb β γ (α + β + γ) (a, b, c) := by
    rintro x ⟨α, β, γ, hα, hβ, hγ, rfl⟩
    refine ⟨α, β / len c a, γ / len b c, by positivity, by positivity, by positivity, ?_⟩
    funext i
    simp only [comb, e1, e2, e3]
    field_simp
    ring
  refine ⟨?_, fun x => ⟨fun hx => ?_, fun hx => ?_, fun hx => ?_, fun hx => ?_⟩⟩
  · intro p hp x hx
    simp only [split4, List.mem_cons, List.not_mem_nil, or_false] at hp
    rcases hp with rfl | rfl | rfl | rfl
    · obtain ⟨α, β, γ, hα, hβ, hγ, rfl⟩ := k0 x hx
      exact ⟨_, _, _, by linarith, by linarith, by linarith, rfl⟩
    · obtain ⟨α, β, γ, hα, hβ, hγ, rfl⟩ := k1 x hx
      exact ⟨_, _, _, by linarith, by linarith, by linarith, rfl⟩
    · obtain ⟨α, β, γ, hα, hβ, hγ, rfl⟩ := k2 x hx
      exact ⟨_, _, _, by linarith, by linarith, by linarith, rfl⟩
    · obtain ⟨α, β, γ, hα, hβ, hγ, rfl⟩ := k3 x hx
      exact ⟨_, _, _, by linarith, by linarith, by linarith, rfl⟩
  · obtain ⟨α, β, γ, hα, hβ, hγ, rfl⟩ := k0 x hx
    exact ⟨_, _, _, rfl, by linarith, by linarith, by linarith⟩
  · obtain ⟨α, β, γ, hα, hβ, hγ, rfl⟩ := k1 x hx
    exact ⟨_, _, _, rfl, by linarith, by linarith, by linarith⟩
  · obtain ⟨α, β, γ, hα, hβ, hγ, rfl⟩ := k2 x hx
    exact ⟨_, _, _, rfl, by linarith, by linarith, by linarith⟩
  · obtain ⟨α, β, γ, hα, hβ, hγ, rfl⟩ := k3 x hx
    exact ⟨_, _, _, rfl, by linarith, by linarith, by linarith⟩

/-- No direction is inside both. -/
def Apart (s t : Corners) : Prop := ∀ x, ¬(Inside s x ∧ Inside t x)

theorem split_apart {t : Corners} (h : NiceT e t) (he : e ≤ 1) : (split4 t).Pairwise Apart := by
  obtain ⟨_, hk⟩ := split_inside h he
  have hd : det t.1 t.2.1 t.2.2 ≠ 0 := Nice.det h
  have huniq : ∀ {u v w u' v' w' : ℝ} {x : V3}, x = comb u v w t → x = comb u' v' w' t → u = u' ∧ v = v' ∧ w = w' :=
    fun h1 h2 => comb_unique hd (h1.symm.trans h2)
  simp only [split4, List.pairwise_cons, List.mem_cons, List.not_mem_nil, or_false, forall_eq_or_imp, forall_eq, List.Pairwise.nil,
    and_true, IsEmpty.forall_iff, implies_true]
  refine ⟨⟨?_, ?_, ?_⟩, ⟨?_, ?_⟩, ?_⟩
  · rintro x ⟨h1, h2⟩
    obtain ⟨u, v, w, k, k1, k2, k3⟩ := (hk x).1 h1
    obtain ⟨u', v', w', k', k1', k2', k3'⟩ := (hk x).2.1 h2
    obtain ⟨rfl, rfl, rfl⟩ := huniq k k'
    linarith
  · rintro x ⟨h1, h2⟩
    obtain ⟨u, v, w, k, k1, k2, k3⟩ := (hk x).1 h1
    obtain ⟨u', v', w', k', k1', k2', k3'⟩ := (hk x).2.2.1 h2
    obtain ⟨rfl, rfl, rfl⟩ := huniq k k'
    linarith
  · rintro x ⟨h1, h2⟩
    obtain ⟨u, v, w, k, k1, k2, k3⟩ := (hk x).1 h1
    obtain ⟨u', v', w', k', k1', k2', k3'⟩ := (hk x).2.2.2 h2
    obtain ⟨rfl, rfl, rfl⟩ := huniq k k'
    linarith
  · rintro x ⟨h1, h2⟩
    obtain ⟨u, v, w, k, k1, k2, k3⟩ := (hk x).2.1 h1
    obtain ⟨u', v', w', k', k1', k2', k3'⟩ := (hk x).2.2.1 h2
    obtain ⟨rfl, rfl, rfl⟩ := huniq k k'
    linarith
  · rintro x ⟨h1, h2⟩
    obtain ⟨u, v, w, k, k1, k2, k3⟩ := (hk x).2.1 h1
    obtain ⟨u', v', w', k', k1', k2', k3'⟩ := (hk x).2.2.2 h2
    obtain ⟨rfl, rfl, rfl⟩ := huniq k k'
    linarith
  · rintro x ⟨h1, h2⟩
    obtain ⟨u, v, w, k, k1, k2, k3⟩ := (hk x).2.2.1 h1
    obtain ⟨u', v', w', k', k1', k2', k3'⟩ := (hk x).2.2.2 h2
    obtain ⟨rfl, rfl, rfl⟩ := huniq k k'
    linarith

theorem split_sub {t : Corners} (h : NiceT e t) (he : e ≤ 1) : ∀ p ∈ split4 t, ∀ x, Inside p x → Inside t x := by
  obtain ⟨hp, _⟩ := split_inside h he
  exact hp

end Verif.Far
