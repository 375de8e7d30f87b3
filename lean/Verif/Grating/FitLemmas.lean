import Verif.Grating.Fit
import Verif.Grating.FitSpec
import Mathlib.Algebra.BigOperators.Intervals
import Mathlib.Algebra.Order.BigOperators.Group.Finset
import Mathlib.Tactic.Ring
import Mathlib.Tactic.Linarith
import Mathlib.Tactic.FieldSimp
import Mathlib.Tactic.NormNum
import Mathlib.Tactic.IntervalCases
import Mathlib.Tactic.Positivity
/- Helper lemmas for the discretisation of a grating. -/
set_option linter.unusedSectionVars false
set_option linter.unusedVariables false
namespace Verif.Grating
variable {K : Type} [Field K] [LinearOrder K] [IsStrictOrderedRing K]

/-! ### Cumulative sums -/

theorem cumsumFrom_getD : ∀ (l : List K) (acc : K) (m : Nat), m < l.length →
    (cumsumFrom acc l).getD m 0 = acc + ∑ q ∈ Finset.range (m + 1), l.getD q 0 := by
  intro l
  induction l with
  | nil => intro acc m h; simp at h
  | cons a l ih =>
    intro acc m h
    cases m with
    | zero => simp [cumsumFrom]
    | succ m =>
      rw [cumsumFrom, List.getD_cons_succ, ih (acc + a) m (by simpa using h), Finset.sum_range_succ' _ (m + 1)]
      simp only [List.getD_cons_succ, List.getD_cons_zero]
      ring

theorem flatValue_getD (x : List K) (b : K) (m : Nat) (hm : m ≤ x.length) :
    (flatValue x b).getD m 0 = ∑ q ∈ Finset.range m, (b - x.getD q 0) ^ 2 := by
  unfold flatValue
  cases m with
  | zero => simp
  | succ m =>
    rw [List.getD_cons_succ, cumsumFrom_getD _ _ _ (by simpa using hm), zero_add]
    apply Finset.sum_congr rfl
    intro q hq
    have : q < x.length := by
      have := Finset.mem_range.1 hq
      omega
    simp only [List.getD_eq_getElem?_getD, List.getElem?_map, List.getElem?_eq_getElem this, Option.map_some,
      Option.getD_some, sqd]
    ring

/-! ### Solid fifths -/

/-- The edge lists built by the loops, with the last edge. -/
inductive Reach (d : Nat) : List Nat → Nat → Prop
  | nil : Reach d [] 0
  | first (k : Nat) : d ≤ k → Reach d [0, k] k
  | next (S : List Nat) (i j k : Nat) : Reach d S i → i + d ≤ j → j + d ≤ k → Reach d (S ++ [j, k]) k

theorem Reach.le {d : Nat} {S : List Nat} {i : Nat} (h : Reach d S i) : ∀ e ∈ S, e ≤ i := by
  induction h with
  | nil => simp
  | first k _ => simp
  | next S i j k _ h1 h2 ih =>
    intro e he
    simp only [List.mem_append, List.mem_cons, List.not_mem_nil, or_false] at he
    rcases he with he | rfl | rfl
    · have := ih e he
      omega
    · omega
    · exact le_rfl

theorem Reach.even {d : Nat} {S : List Nat} {i : Nat} (h : Reach d S i) : Even S.length := by
  induction h with
  | nil => simp
  | first k _ => exact ⟨1, rfl⟩
  | next S i j k _ h1 h2 ih =>
    rw [List.length_append]
    exact ih.add ⟨1, rfl⟩

theorem solid_after {d : Nat} {S : List Nat} {i : Nat} (h : Reach d S i) (p : Nat) (hp : i ≤ p) : Solid S p := by
  unfold Solid
  have : S.countP (fun e => decide (e ≤ p)) = S.length := by
    rw [List.countP_eq_length]
    intro e he
    have := h.le e he
    simpa using this.trans hp
  rw [this]
  exact h.even

theorem solid_next {d : Nat} {S : List Nat} {i : Nat} (h : Reach d S i) (j k p : Nat) (h1 : i + d ≤ j) (h2 : j + d ≤ k) :
    Solid (S ++ [j, k]) p ↔ if p < j then Solid S p else k ≤ p := by
  unfold Solid
  rw [List.countP_append]
  by_cases h3 : p < j
  · rw [if_pos h3]
    have e1 : ¬ j ≤ p := by omega
    have e2 : ¬ k ≤ p := by omega
    simp [e1, e2]
  · rw [if_neg h3]
    have e1 : j ≤ p := by omega
    have : Even (S.countP fun e => decide (e ≤ p)) := solid_after h p (by omega)
    by_cases e2 : k ≤ p
    · simp only [List.countP_cons, List.countP_nil, e1, e2, decide_true, if_true, iff_true]
      exact this.add (by decide)
    · simp only [List.countP_cons, List.countP_nil, e1, e2, decide_true, decide_false, if_true, iff_false, Bool.false_eq_true, if_false]
      rw [Nat.not_even_iff_odd]
      exact this.add_odd (by decide)

theorem solid_first (k p : Nat) : Solid [0, k] p ↔ k ≤ p := by
  unfold Solid
  by_cases e2 : k ≤ p <;> simp [e2]

/-- A pixel that is solid from the edge `k` on. -/
theorem fill_of_from (S : List Nat) (q k : Nat) (hk : k / 5 = q) (h : ∀ r, r < 5 → (Solid S (5 * q + r) ↔ k ≤ 5 * q + r)) :
    (fill S q : K) = 1 - frac k := by
  unfold fill frac
  have : ∀ r ∈ Finset.range 5, (if Solid S (5 * q + r) then (1 : K) else 0) = if k % 5 ≤ r then 1 else 0 := by
    intro r hr
    have hr := Finset.mem_range.1 hr
    simp only [h r hr]
    congr 1
    apply propext
    omega
  rw [Finset.sum_congr rfl this]
  have hm : k % 5 < 5 := Nat.mod_lt _ (by norm_num)
  generalize k % 5 = m at hm
  simp only [Finset.sum_range_succ, Finset.sum_range_zero]
  interval_cases m <;> norm_num

/-- A pixel that is solid up to the edge `j`. -/
theorem fill_of_to (S : List Nat) (q j : Nat) (hj : j / 5 = q) (h : ∀ r, r < 5 → (Solid S (5 * q + r) ↔ 5 * q + r < j)) :
    (fill S q : K) = frac j := by
  unfold fill frac
  have : ∀ r ∈ Finset.range 5, (if Solid S (5 * q + r) then (1 : K) else 0) = if r < j % 5 then 1 else 0 := by
    intro r hr
    have hr := Finset.mem_range.1 hr
    simp only [h r hr]
    congr 1
    apply propext
    omega
  rw [Finset.sum_congr rfl this]
  have hm : j % 5 < 5 := Nat.mod_lt _ (by norm_num)
  generalize j % 5 = m at hm
  simp only [Finset.sum_range_succ, Finset.sum_range_zero]
  interval_cases m <;> norm_num

theorem fill_congr (S T : List Nat) (q : Nat) (h : ∀ r, r < 5 → (Solid S (5 * q + r) ↔ Solid T (5 * q + r))) :
    (fill S q : K) = fill T q := by
  unfold fill
  congr 1
  apply Finset.sum_congr rfl
  intro r hr
  simp only [h r (Finset.mem_range.1 hr)]

theorem fill_one (S : List Nat) (q : Nat) (h : ∀ r, r < 5 → Solid S (5 * q + r)) : (fill S q : K) = 1 := by
  rw [fill_of_from S q (5 * q) (by omega) (fun r hr => ⟨fun _ => by omega, fun _ => h r hr⟩)]
  simp [frac]

theorem fill_zero (S : List Nat) (q : Nat) (h : ∀ r, r < 5 → ¬ Solid S (5 * q + r)) : (fill S q : K) = 0 := by
  rw [fill_of_to S q (5 * q) (by omega) (fun r hr => ⟨fun hs => absurd hs (h r hr), fun _ => by omega⟩)]
  simp [frac]

/-- The pixel of the last edge. -/
theorem fill_last {d : Nat} (hd : 5 ≤ d) {S : List Nat} {i : Nat} (h : Reach d S i) : (fill S (i / 5) : K) = 1 - frac i := by
  apply fill_of_from _ _ _ rfl
  intro r hr
  cases h with
  | nil => simp [Solid]
  | first k hk => exact solid_first _ _
  | next S i' j k h' h1 h2 =>
    rw [solid_next h' j i _ h1 h2, if_neg (by omega)]

/-! ### The cost -/

/-- The cost of the pixels and the part of a pixel on the left of `k`. -/
def cost (x : List K) (S : List Nat) (k : Nat) : K :=
  ∑ q ∈ Finset.range (k / 5), (fill S q - x.getD q 0) ^ 2 + frac k * (fill S (k / 5) - x.getD (k / 5) 0) ^ 2

theorem cost_nil (x : List K) : cost x [] 0 = 0 := by simp [cost, frac]

theorem cost_full (x : List K) (S : List Nat) : cost x S (5 * x.length) = fitError x S := by
  have h1 : 5 * x.length / 5 = x.length := by omega
  have h2 : 5 * x.length % 5 = 0 := by omega
  simp [cost, frac, fitError, h1, h2]

/-- The sum of the costs of solid or empty pixels. -/
def flat (x : List K) (b : K) (m : Nat) : K := ∑ q ∈ Finset.range m, (b - x.getD q 0) ^ 2

theorem flat_mono (x : List K) (b : K) (m n : Nat) (h : m ≤ n) : flat x b m ≤ flat x b n := by
  unfold flat
  exact Finset.sum_le_sum_of_subset_of_nonneg (Finset.range_mono h) fun _ _ _ => sq_nonneg _

theorem cost_first (x : List K) (k : Nat) : cost x [0, k] k = flat x 0 (k / 5) + frac k * (1 - frac k - x.getD (k / 5) 0) ^ 2 := by
  unfold cost flat
  congr 1
  · apply Finset.sum_congr rfl
    intro q hq
    have := Finset.mem_range.1 hq
    rw [fill_zero _ _ (fun r hr => by rw [solid_first]; omega)]
  · rw [fill_of_from [0, k] (k / 5) k rfl fun r _ => solid_first _ _]

/-- The cost of a wall from `i` to `j` and a hole from `j` to `k`. -/
def trans (x : List K) (i j k : Nat) : K :=
  (1 - frac i) * (1 - frac i - x.getD (i / 5) 0) ^ 2 + (flat x 1 (j / 5) - flat x 1 (i / 5 + 1)) +
    (frac j - x.getD (j / 5) 0) ^ 2 + (flat x 0 (k / 5) - flat x 0 (j / 5 + 1)) +
    frac k * (1 - frac k - x.getD (k / 5) 0) ^ 2

theorem sum_split (f : Nat → K) (a b : Nat) (h : a < b) :
    ∑ q ∈ Finset.range b, f q = ∑ q ∈ Finset.range a, f q + f a + ∑ q ∈ Finset.Ico (a + 1) b, f q := by
  rw [← Finset.sum_range_succ, Finset.sum_range_add_sum_Ico _ (by omega : a + 1 ≤ b)]

theorem flat_diff (x : List K) (b : K) (m n : Nat) (h : m ≤ n) :
    ∑ q ∈ Finset.Ico m n, (b - x.getD q 0) ^ 2 = flat x b n - flat x b m := by
  unfold flat
  rw [← Finset.sum_range_add_sum_Ico _ h]
  ring

theorem cost_next (x : List K) {d : Nat} (hd : 5 ≤ d) {S : List Nat} {i : Nat} (h : Reach d S i) (j k : Nat) (h1 : i + d ≤ j)
    (h2 : j + d ≤ k) : cost x (S ++ [j, k]) k = cost x S i + trans x i j k := by
  have hs := fun p => solid_next h j k p h1 h2
  have f1 : ∀ q, q ≤ i / 5 → (fill (S ++ [j, k]) q : K) = fill S q := by
    intro q hq
    exact fill_congr _ _ _ fun r hr => by rw [hs, if_pos (by omega)]
  have f2 : ∀ q, q ∈ Finset.Ico (i / 5 + 1) (j / 5) → (fill (S ++ [j, k]) q - x.getD q 0) ^ 2 = (1 - x.getD q 0) ^ 2 := by
    intro q hq
    have hq := Finset.mem_Ico.1 hq
    rw [fill_one _ _ fun r hr => by rw [hs, if_pos (by omega)]; exact solid_after h _ (by omega)]
  have f3 : (fill (S ++ [j, k]) (j / 5) : K) = frac j := by
    refine fill_of_to _ _ _ rfl fun r hr => ?_
    rw [hs]
    split
    · rename_i h3
      exact ⟨fun _ => h3, fun _ => solid_after h _ (by omega)⟩
    · omega
  have f4 : ∀ q, q ∈ Finset.Ico (j / 5 + 1) (k / 5) → (fill (S ++ [j, k]) q - x.getD q 0) ^ 2 = (0 - x.getD q 0) ^ 2 := by
    intro q hq
    have hq := Finset.mem_Ico.1 hq
    rw [fill_zero _ _ fun r hr => by rw [hs, if_neg (by omega)]; omega]
  have f5 : (fill (S ++ [j, k]) (k / 5) : K) = 1 - frac k :=
    fill_last hd (Reach.next S i j k h h1 h2)
  unfold cost trans
  rw [sum_split _ (j / 5) (k / 5) (by omega), sum_split _ (i / 5) (j / 5) (by omega), Finset.sum_congr rfl f2,
    Finset.sum_congr rfl f4, flat_diff _ _ _ _ (by omega), flat_diff _ _ _ _ (by omega), f3, f5, f1 _ le_rfl,
    fill_last hd h,
    Finset.sum_congr rfl (fun q hq => by rw [f1 q (by have := Finset.mem_range.1 hq; omega)] :
      ∀ q ∈ Finset.range (i / 5), (fill (S ++ [j, k]) q - x.getD q 0) ^ 2 = (fill S q - x.getD q 0) ^ 2)]
  ring

/-- The cost after the last edge. -/
theorem cost_tail (x : List K) {d : Nat} (hd : 5 ≤ d) {S : List Nat} {k : Nat} (h : Reach d S k) (hk : k < 5 * x.length) :
    cost x S (5 * x.length) = cost x S k + (flat x 1 x.length - flat x 1 (k / 5 + 1) +
      (1 - frac k) * (1 - frac k - x.getD (k / 5) 0) ^ 2) := by
  have f2 : ∀ q, q ∈ Finset.Ico (k / 5 + 1) x.length → (fill S q - x.getD q 0) ^ 2 = (1 - x.getD q 0) ^ 2 := by
    intro q hq
    have hq := Finset.mem_Ico.1 hq
    rw [fill_one _ _ fun r hr => solid_after h _ (by omega)]
  rw [cost_full, fitError, sum_split _ (k / 5) x.length (by omega), Finset.sum_congr rfl f2, flat_diff _ _ _ _ (by omega),
    cost, fill_last hd h]
  ring

/-! ### Bounds -/

theorem frac_nonneg (k : Nat) : (0 : K) ≤ frac k := by
  unfold frac
  positivity

theorem frac_lt_one (k : Nat) : (frac k : K) < 1 := by
  unfold frac
  rw [div_lt_one (by norm_num)]
  have : k % 5 < 5 := Nat.mod_lt _ (by norm_num)
  exact_mod_cast this

theorem trans_nonneg (x : List K) {d : Nat} (hd : 5 ≤ d) (i j k : Nat) (h1 : i + d ≤ j) (h2 : j + d ≤ k) :
    0 ≤ trans x i j k := by
  unfold trans
  have a1 := flat_mono x 1 (i / 5 + 1) (j / 5) (by omega)
  have a2 := flat_mono x 0 (j / 5 + 1) (k / 5) (by omega)
  have a3 := mul_nonneg (sub_nonneg.2 (frac_lt_one (K := K) i).le) (sq_nonneg (1 - frac i - x.getD (i / 5) 0))
  have a4 := mul_nonneg (frac_nonneg (K := K) k) (sq_nonneg (1 - frac k - x.getD (k / 5) 0))
  have a5 := sq_nonneg (frac j - x.getD (j / 5) 0)
  linarith

theorem sq_le_one' (a : K) (h1 : -1 ≤ a) (h2 : a ≤ 1) : a ^ 2 ≤ 1 := by nlinarith

theorem flat_le (x : List K) (b : K) (hb : 0 ≤ b ∧ b ≤ 1) (hx : ∀ a ∈ x, 0 ≤ a ∧ a ≤ 1) (m : Nat) : flat x b m ≤ m := by
  unfold flat
  have : ∀ q ∈ Finset.range m, (b - x.getD q 0) ^ 2 ≤ 1 := by
    intro q _
    have hq : 0 ≤ x.getD q 0 ∧ x.getD q 0 ≤ 1 := by
      rw [List.getD_eq_getElem?_getD]
      cases h : x[q]? with
      | none => simp
      | some a => exact hx a (List.mem_of_getElem? h)
    exact sq_le_one' _ (by linarith [hb.1, hq.2]) (by linarith [hb.2, hq.1])
  calc _ ≤ ∑ q ∈ Finset.range m, (1 : K) := Finset.sum_le_sum this
    _ = m := by simp

theorem getD_unit (x : List K) (hx : ∀ a ∈ x, 0 ≤ a ∧ a ≤ 1) (q : Nat) : 0 ≤ x.getD q 0 ∧ x.getD q 0 ≤ 1 := by
  rw [List.getD_eq_getElem?_getD]
  cases h : x[q]? with
  | none => simp
  | some a => exact hx a (List.mem_of_getElem? h)

end Verif.Grating
