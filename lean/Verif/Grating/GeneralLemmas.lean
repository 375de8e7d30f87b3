import Verif.Grating.General
import Verif.Grating.GeneralSpec
import Verif.Grating.FitLemmas
import Mathlib.Algebra.Order.BigOperators.Group.Finset
import Mathlib.Tactic.Ring
import Mathlib.Tactic.Linarith
import Mathlib.Tactic.FieldSimp
import Mathlib.Tactic.Positivity
import Mathlib.Tactic.ByContra
/- Helper lemmas for the discretisation to a multi-level grating. -/
set_option linter.unusedSectionVars false
set_option linter.unusedVariables false
namespace Verif.Grating.General
variable {K : Type} [Field K] [LinearOrder K] [IsStrictOrderedRing K]

theorem levelAt_append (s : Nat) (S : List (Nat × Nat)) (k b c : Nat) :
    levelAt s (S ++ [(k, b)]) c = if k ≤ c then b else levelAt s S c := by
  unfold levelAt
  rw [List.filter_append]
  by_cases h : k ≤ c <;> simp [h]

theorem levelAt_nil (s c : Nat) : levelAt s [] c = s := rfl

theorem sum_two (q m : Nat) (A B : K) (hm : m ≤ q) :
    ∑ r ∈ Finset.range q, (if r < m then A else B) = m * A + (q - m : K) * B := by
  obtain ⟨t, rfl⟩ := Nat.exists_eq_add_of_le hm
  rw [Finset.sum_range_add]
  rw [Finset.sum_congr rfl (g := fun _ => A) (fun r hr => by simp [Finset.mem_range.1 hr])]
  rw [Finset.sum_congr rfl (s₁ := Finset.range t) (g := fun _ => B) (fun r hr => by simp)]
  simp

/-- What is needed of the arguments: some divisions, levels in range, and features of at least a pixel. -/
structure Valid (p : Dp K) : Prop where
  q : 1 ≤ p.divisions
  start : p.start < p.num
  stop : p.stop < p.num
  min : ∀ a, a < p.num → p.divisions ≤ p.dMin.getD a 0

/-- The beginnings of the allowed gratings: up to the edge `k` from level `a` to level `b`. -/
inductive Reach (p : Dp K) : List (Nat × Nat) → Nat → Nat → Nat → Prop
  | first (k b : Nat) : k ≤ p.dMax.getD p.start 0 → b ≠ p.start → b < p.num → Reach p [(k, b)] k p.start b
  | next (S : List (Nat × Nat)) (i c a k b : Nat) : Reach p S i c a → i + p.dMin.getD a 0 ≤ k → k ≤ i + p.dMax.getD a 0 →
      b ≠ a → b < p.num → Reach p (S ++ [(k, b)]) k a b

theorem Reach.lt {p : Dp K} (hp : Valid p) {S : List (Nat × Nat)} {k a b : Nat} (h : Reach p S k a b) :
    a < p.num ∧ b < p.num ∧ a ≠ b := by
  induction h with
  | first k b h1 h2 h3 => exact ⟨hp.start, h3, fun e => h2 e.symm⟩
  | next S i c a k b h h1 h2 h3 h4 ih => exact ⟨ih.2.1, h4, fun e => h3 e.symm⟩

theorem Reach.level {p : Dp K} (hp : Valid p) {S : List (Nat × Nat)} {k a b : Nat} (h : Reach p S k a b) (c : Nat) :
    (k ≤ c → levelAt p.start S c = b) ∧ (c < k → k ≤ c + p.divisions → levelAt p.start S c = a) := by
  cases h with
  | first k b h1 h2 h3 =>
    have := levelAt_append p.start [] k b c
    rw [List.nil_append] at this
    rw [this]
    constructor
    · intro h; simp [h]
    · intro h _; rw [if_neg (by omega), levelAt_nil]
  | next S i d a k b h h1 h2 h3 h4 =>
    rw [levelAt_append]
    constructor
    · intro h; simp [h]
    · intro hc hk
      rw [if_neg (by omega)]
      have hm := hp.min a (h.lt hp).2.1
      have hge : i ≤ c := by omega
      clear hk hc
      cases h with
      | first i b h1 h2 h3 =>
        have := levelAt_append p.start [] i a c
        rw [List.nil_append] at this
        rw [this, if_pos hge]
      | next S i' d' a' i b' h' h1 h2 h3 h4 => rw [levelAt_append, if_pos hge]

/-- The error of pixel `j`. -/
def err (p : Dp K) (S : List (Nat × Nat)) (j : Nat) : K :=
  (pixelHeight p.depths p.start p.divisions S j - p.px j) ^ 2

theorem err_nonneg (p : Dp K) (S : List (Nat × Nat)) (j : Nat) : 0 ≤ err p S j := sq_nonneg _

/-- The error up to `k`. -/
def cost (p : Dp K) (S : List (Nat × Nat)) (k : Nat) : K :=
  ∑ j ∈ Finset.range (k / p.divisions), err p S j +
    if k / p.divisions < p.x.length then err p S (k / p.divisions) * p.frac k else 0

theorem frac_bounds (p : Dp K) (hq : 1 ≤ p.divisions) (k : Nat) : 0 ≤ p.frac k ∧ p.frac k ≤ 1 := by
  have hq' : (0 : K) < p.divisions := by exact_mod_cast hq
  unfold Dp.frac
  refine ⟨by positivity, ?_⟩
  rw [div_le_one hq']
  exact_mod_cast (Nat.mod_lt k hq).le

theorem height_flat (p : Dp K) (hq : 1 ≤ p.divisions) (S : List (Nat × Nat)) (j l : Nat)
    (h : ∀ r, r < p.divisions → levelAt p.start S (p.divisions * j + r) = l) :
    pixelHeight p.depths p.start p.divisions S j = p.h l := by
  have hq' : (p.divisions : K) ≠ 0 := by
    have : (0 : K) < p.divisions := by exact_mod_cast hq
    exact this.ne'
  unfold pixelHeight
  rw [Finset.sum_congr rfl (g := fun _ => p.h l) (fun r hr => by rw [h r (Finset.mem_range.1 hr)]; rfl)]
  simp [hq']

theorem height_edge (p : Dp K) (hq : 1 ≤ p.divisions) (S : List (Nat × Nat)) (k a b : Nat)
    (h : ∀ c, (k ≤ c → levelAt p.start S c = b) ∧ (c < k → k ≤ c + p.divisions → levelAt p.start S c = a)) :
    pixelHeight p.depths p.start p.divisions S (k / p.divisions) = p.nextPixel k a b := by
  have hq' : (0 : K) < p.divisions := by exact_mod_cast hq
  have hdm := Nat.div_add_mod k p.divisions
  have hml := Nat.mod_lt k hq
  unfold pixelHeight Dp.nextPixel Dp.frac
  rw [Finset.sum_congr rfl (g := fun r => if r < k % p.divisions then p.h a else p.h b) (fun r hr => by
    have hr' := Finset.mem_range.1 hr
    split
    · rw [(h _).2 (by omega) (by omega)]; rfl
    · rw [(h _).1 (by omega)]; rfl)]
  rw [sum_two _ _ _ _ hml.le]
  field_simp

theorem height_congr (p : Dp K) (S T : List (Nat × Nat)) (j : Nat)
    (h : ∀ r, r < p.divisions → levelAt p.start S (p.divisions * j + r) = levelAt p.start T (p.divisions * j + r)) :
    pixelHeight p.depths p.start p.divisions S j = pixelHeight p.depths p.start p.divisions T j := by
  unfold pixelHeight
  rw [Finset.sum_congr rfl (fun r hr => by rw [h r (Finset.mem_range.1 hr)])]

theorem levelValue_eq (p : Dp K) (a j : Nat) (hj : j ≤ p.x.length) :
    p.levelValue a j = ∑ i ∈ Finset.range j, (p.h a - p.px i) ^ 2 := flatValue_getD _ _ _ hj

theorem levelValue_diff (p : Dp K) (a i j : Nat) (hi : i ≤ j) (hj : j ≤ p.x.length) :
    ∑ m ∈ Finset.Ico i j, (p.h a - p.px m) ^ 2 = p.levelValue a j - p.levelValue a i := by
  rw [levelValue_eq p a j hj, levelValue_eq p a i (hi.trans hj), ← Finset.sum_range_add_sum_Ico _ hi]
  ring

theorem levelValue_mono (p : Dp K) (a i j : Nat) (hi : i ≤ j) (hj : j ≤ p.x.length) : p.levelValue a i ≤ p.levelValue a j := by
  have := levelValue_diff p a i j hi hj
  have h2 : 0 ≤ ∑ m ∈ Finset.Ico i j, (p.h a - p.px m) ^ 2 := Finset.sum_nonneg fun _ _ => sq_nonneg _
  linarith

theorem sqd_comm (a b : K) : sqd a b = (b - a) ^ 2 := by unfold sqd; ring

theorem div_le_len (p : Dp K) (hq : 1 ≤ p.divisions) (k : Nat) (hk : k ≤ p.maxK) : k / p.divisions ≤ p.x.length := by
  unfold Dp.maxK at hk
  calc k / p.divisions ≤ (p.divisions * p.x.length) / p.divisions := Nat.div_le_div_right hk
    _ = p.x.length := Nat.mul_div_cancel_left _ hq

/-- The value for a first edge is the error up to it. -/
theorem cost_first (p : Dp K) (hp : Valid p) (k b : Nat) (h1 : k ≤ p.dMax.getD p.start 0) (h2 : b ≠ p.start) (h3 : b < p.num)
    (hk : k ≤ p.maxK) : cost p [(k, b)] k = p.firstVal k p.start b := by
  have hr := Reach.first (p := p) k b h1 h2 h3
  have hl := div_le_len p hp.q k hk
  have hf : p.firstVal k p.start b = if k / p.divisions < p.x.length then p.levelValue p.start (k / p.divisions) +
      sqd (p.px (k / p.divisions)) (p.nextPixel k p.start b) * p.frac k else p.levelValue p.start (k / p.divisions) := by
    unfold Dp.firstVal
    rw [if_pos (And.intro rfl h1)]
  rw [hf]
  unfold cost
  have e1 : ∑ j ∈ Finset.range (k / p.divisions), err p [(k, b)] j = p.levelValue p.start (k / p.divisions) := by
    rw [levelValue_eq p _ _ hl]
    apply Finset.sum_congr rfl
    intro j hj
    have hj' := Finset.mem_range.1 hj
    unfold err
    rw [height_flat p hp.q _ j p.start]
    intro r hr
    have := levelAt_append p.start [] k b (p.divisions * j + r)
    rw [List.nil_append] at this
    rw [this, if_neg, levelAt_nil]
    have h4 : p.divisions * (j + 1) ≤ p.divisions * (k / p.divisions) := Nat.mul_le_mul_left _ hj'
    have h5 := Nat.mul_div_le k p.divisions
    rw [Nat.mul_add] at h4
    omega
  rw [e1]
  split
  · unfold err
    rw [height_edge p hp.q _ k p.start b (hr.level hp), sqd_comm]
  · simp

theorem edge_gap (q i k : Nat) (hq : 1 ≤ q) (h : i + q ≤ k) : i / q + 1 ≤ k / q := by
  rw [← Nat.add_div_right _ hq]
  exact Nat.div_le_div_right h

/-- One more edge adds what the code adds. -/
theorem cost_next (p : Dp K) (hp : Valid p) (S : List (Nat × Nat)) (i c a k b : Nat) (h : Reach p S i c a)
    (h1 : i + p.dMin.getD a 0 ≤ k) (h2 : k ≤ i + p.dMax.getD a 0) (h3 : b ≠ a) (h4 : b < p.num) (hk : k ≤ p.maxK) :
    cost p (S ++ [(k, b)]) k = cost p S i + (err p S (i / p.divisions) * (1 - p.frac i) +
      (p.levelValue a (k / p.divisions) - p.levelValue a (i / p.divisions + 1)) +
      if k / p.divisions < p.x.length then sqd (p.px (k / p.divisions)) (p.nextPixel k a b) * p.frac k else 0) := by
  have hr := Reach.next (p := p) S i c a k b h h1 h2 h3 h4
  have hl := div_le_len p hp.q k hk
  have hm := hp.min a (h.lt hp).2.1
  have hg := edge_gap p.divisions i k hp.q (by omega)
  have hik : i / p.divisions < p.x.length := by omega
  unfold cost
  rw [if_pos hik, sum_split _ (i / p.divisions) (k / p.divisions) hg]
  have same : ∀ j, j ≤ i / p.divisions → err p (S ++ [(k, b)]) j = err p S j := by
    intro j hj
    unfold err
    rw [height_congr p _ S j]
    intro r hr
    rw [levelAt_append, if_neg]
    have h5 : p.divisions * (j + 1) ≤ p.divisions * (k / p.divisions) := Nat.mul_le_mul_left _ (by omega)
    have h6 := Nat.mul_div_le k p.divisions
    rw [Nat.mul_add] at h5
    omega
  rw [Finset.sum_congr rfl (g := fun j => err p S j) (fun j hj => same j (Finset.mem_range.1 hj).le), same _ le_rfl]
  have flat : ∑ j ∈ Finset.Ico (i / p.divisions + 1) (k / p.divisions), err p (S ++ [(k, b)]) j =
      p.levelValue a (k / p.divisions) - p.levelValue a (i / p.divisions + 1) := by
    rw [← levelValue_diff p a _ _ hg hl]
    apply Finset.sum_congr rfl
    intro j hj
    obtain ⟨j1, j2⟩ := Finset.mem_Ico.1 hj
    unfold err
    rw [height_flat p hp.q _ j a]
    intro r hr
    have h5 : p.divisions * (j + 1) ≤ p.divisions * (k / p.divisions) := Nat.mul_le_mul_left _ j2
    have h6 := Nat.mul_div_le k p.divisions
    rw [Nat.mul_add] at h5
    rw [levelAt_append, if_neg (by omega)]
    have h7 : p.divisions * (i / p.divisions + 1) ≤ p.divisions * j := Nat.mul_le_mul_left _ j1
    have h8 := Nat.lt_mul_div_succ i hp.q
    exact ((h.level hp) _).1 (by omega)
  rw [flat]
  have last : (if k / p.divisions < p.x.length then err p (S ++ [(k, b)]) (k / p.divisions) * p.frac k else 0) =
      if k / p.divisions < p.x.length then sqd (p.px (k / p.divisions)) (p.nextPixel k a b) * p.frac k else 0 := by
    unfold err
    rw [height_edge p hp.q _ k a b (hr.level hp), sqd_comm]
  rw [last]
  ring

theorem Reach.err_last {p : Dp K} (hp : Valid p) {S : List (Nat × Nat)} {i c a : Nat} (h : Reach p S i c a) :
    err p S (i / p.divisions) = sqd (p.px (i / p.divisions)) (p.lastPixel i c a) := by
  unfold err
  rw [height_edge p hp.q _ i c a (h.level hp), sqd_comm]
  unfold Dp.nextPixel Dp.lastPixel
  ring

/-- The error of a whole grating. -/
theorem cost_total (p : Dp K) (hp : Valid p) (S : List (Nat × Nat)) (k a : Nat) (h : Reach p S k a p.stop) (hk : k < p.maxK) :
    levelError p.x p.depths p.start p.divisions S = cost p S k + (sqd (p.px (k / p.divisions)) (p.lastPixel k a p.stop) *
      (1 - p.frac k) + p.levelValue p.stop p.x.length - p.levelValue p.stop (k / p.divisions + 1)) := by
  have hl : k / p.divisions < p.x.length := by
    unfold Dp.maxK at hk
    exact Nat.div_lt_of_lt_mul hk
  rw [← h.err_last hp]
  unfold cost levelError
  rw [if_pos hl]
  change ∑ j ∈ Finset.range p.x.length, err p S j = _
  rw [sum_split _ (k / p.divisions) p.x.length hl]
  have flat : ∑ j ∈ Finset.Ico (k / p.divisions + 1) p.x.length, err p S j =
      p.levelValue p.stop p.x.length - p.levelValue p.stop (k / p.divisions + 1) := by
    rw [← levelValue_diff p p.stop _ _ hl le_rfl]
    apply Finset.sum_congr rfl
    intro j hj
    obtain ⟨j1, j2⟩ := Finset.mem_Ico.1 hj
    unfold err
    rw [height_flat p hp.q _ j p.stop]
    intro r hr
    have h7 : p.divisions * (k / p.divisions + 1) ≤ p.divisions * j := Nat.mul_le_mul_left _ j1
    have h8 := Nat.lt_mul_div_succ k hp.q
    exact ((h.level hp) _).1 (by omega)
  rw [flat]
  ring

theorem cost_end (p : Dp K) (hp : Valid p) (S : List (Nat × Nat)) :
    levelError p.x p.depths p.start p.divisions S = cost p S p.maxK := by
  unfold cost levelError
  have : p.maxK / p.divisions = p.x.length := by
    unfold Dp.maxK
    exact Nat.mul_div_cancel_left _ hp.q
  rw [this]
  simp
  rfl

theorem cost_nonneg (p : Dp K) (hp : Valid p) (S : List (Nat × Nat)) (k : Nat) : 0 ≤ cost p S k := by
  unfold cost
  have h1 : 0 ≤ ∑ j ∈ Finset.range (k / p.divisions), err p S j := Finset.sum_nonneg fun _ _ => err_nonneg _ _ _
  have h2 := (frac_bounds p hp.q k).1
  split
  · have := mul_nonneg (err_nonneg p S (k / p.divisions)) h2
    linarith
  · linarith

/-- What the code adds for one more edge. -/
def added (p : Dp K) (i c a k b : Nat) : K :=
  sqd (p.px (i / p.divisions)) (p.lastPixel i c a) * (1 - p.frac i) +
      (p.levelValue a (k / p.divisions) - p.levelValue a (i / p.divisions + 1)) +
      if k / p.divisions < p.x.length then sqd (p.px (k / p.divisions)) (p.nextPixel k a b) * p.frac k else 0

theorem added_nonneg (p : Dp K) (hq : 1 ≤ p.divisions) (i c a k b : Nat) (h : i + p.divisions ≤ k) (hk : k ≤ p.maxK) :
    0 ≤ added p i c a k b := by
  have hl := div_le_len p hq k hk
  have hg := edge_gap p.divisions i k hq h
  have h1 := levelValue_mono p a _ _ hg hl
  have h2 := frac_bounds p hq i
  have h3 := frac_bounds p hq k
  have h4 : 0 ≤ sqd (p.px (i / p.divisions)) (p.lastPixel i c a) * (1 - p.frac i) :=
    mul_nonneg (sq_nonneg _) (by linarith)
  unfold added
  split
  · have h5 : 0 ≤ sqd (p.px (k / p.divisions)) (p.nextPixel k a b) * p.frac k := mul_nonneg (sq_nonneg _) h3.1
    linarith
  · linarith

theorem nextVal_eq (p : Dp K) (tab : List (List (List (Entry K)))) (k a b i c : Nat) :
    p.nextVal tab k a b i c = (read tab i c a).1 + added p i c a k b := by
  unfold Dp.nextVal added
  simp only []
  split <;> ring

end Verif.Grating.General
