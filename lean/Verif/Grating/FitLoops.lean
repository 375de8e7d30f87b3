import Verif.Grating.FitLemmas
/- The loops of `_get_edge_loc_dp`: invariants. -/
set_option linter.unusedSectionVars false
set_option linter.unusedVariables false
namespace Verif.Grating
variable {K : Type} [Field K] [LinearOrder K] [IsStrictOrderedRing K]

/-- `base_value` -/
def baseC (x : List K) (i k : Nat) : K :=
  let base := sqd (x.getD (i / 5) 0) (1 - frac i) * (1 - frac i) - (flatValue x 1).getD (i / 5 + 1) 0 +
    (flatValue x 0).getD (k / 5) 0
  if k / 5 < x.length then base + sqd (x.getD (k / 5) 0) (1 - frac k) * frac k else base

/-- `new_j_value` -/
def jc (x : List K) (j : Nat) : K :=
  (flatValue x 1).getD (j / 5) 0 + sqd (x.getD (j / 5) 0) (frac j) - (flatValue x 0).getD (j / 5 + 1) 0

theorem jc_eq (x : List K) (j : Nat) (hj : j < 5 * x.length) :
    jc x j = flat x 1 (j / 5) + (frac j - x.getD (j / 5) 0) ^ 2 - flat x 0 (j / 5 + 1) := by
  unfold jc
  rw [flatValue_getD _ _ _ (by omega), flatValue_getD _ _ _ (by omega)]
  simp only [flat, sqd]
  ring

theorem base_jc (x : List K) (i j k d : Nat) (hd : 1 ≤ d) (h1 : i + d ≤ j) (h2 : j + d ≤ k) (hk : k ≤ 5 * x.length) :
    baseC x i k + jc x j = trans x i j k := by
  rw [jc_eq x j (by omega)]
  unfold baseC trans
  simp only
  rw [flatValue_getD _ _ _ (by omega), flatValue_getD _ _ _ (by omega)]
  split
  · simp only [flat, sqd]
    ring
  · have : (frac k : K) = 0 := by
      unfold frac
      rw [show k % 5 = 0 by omega]
      simp
    rw [this]
    simp only [flat, sqd]
    ring

theorem jc_lt (x : List K) (hx : ∀ a ∈ x, 0 ≤ a ∧ a ≤ 1) (j : Nat) (hj : j < 5 * x.length) : jc x j < x.length := by
  rw [jc_eq x j hj]
  have h1 := flat_le x 1 ⟨zero_le_one, le_rfl⟩ hx (j / 5)
  have h2 : flat x 0 (j / 5 + 1) = flat x 0 (j / 5) + (0 - x.getD (j / 5) 0) ^ 2 := by
    unfold flat
    rw [Finset.sum_range_succ]
  have h3 : 0 ≤ flat x 0 (j / 5) := by
    unfold flat
    exact Finset.sum_nonneg fun _ _ => sq_nonneg _
  have h4 := getD_unit x hx (j / 5)
  have h5 := frac_nonneg (K := K) j
  have h6 := frac_lt_one (K := K) j
  have h7 : ((j / 5 : Nat) : K) + 1 ≤ x.length := by
    have : j / 5 + 1 ≤ x.length := by omega
    exact_mod_cast this
  rw [h2]
  nlinarith [mul_nonneg h5 h4.1]

/-! ### The inner loop -/

/-- The invariant of the inner loop when the previous right edges `≥ i` have been tried. -/
structure InnerInv (x dp : List K) (d k i : Nat) (s : Inner K) : Prop where
  jle : ∀ j, i + d ≤ j → j + d ≤ k → s.jValue ≤ jc x j
  jeq : (s.jValue = x.length ∧ k < i + 2 * d) ∨ ∃ j, i + d ≤ j ∧ j + d ≤ k ∧ s.jValue = jc x j ∧ s.bestJ = (j : Int)
  le : s.val ≤ (innerInit x k).val
  vle : ∀ i' j, i ≤ i' → i' + d ≤ j → j + d ≤ k → s.val ≤ dp.getD i' 0 + (baseC x i' k + jc x j)
  veq : (s.val = (innerInit x k).val ∧ s.newEdges = [0, (k : K) / 5] ∧ s.bestI = 0) ∨
    ∃ i' j, i' + d ≤ j ∧ j + d ≤ k ∧ s.val = dp.getD i' 0 + (baseC x i' k + jc x j) ∧ s.val < (innerInit x k).val ∧
      s.newEdges = [(j : K) / 5, (k : K) / 5] ∧ s.bestI = i'

theorem innerStep_inv (x dp : List K) (hx : ∀ a ∈ x, 0 ≤ a ∧ a ≤ 1) (d k i : Nat) (hd : 1 ≤ d) (hk : k ≤ 5 * x.length)
    (hi : i + 2 * d ≤ k) (s : Inner K) (h : InnerInv x dp d k (i + 1) s) : InnerInv x dp d k i (innerStep x dp d k s i) := by
  -- the choice of `j`
  let s1 : Inner K := if jc x (i + d) < s.jValue then { s with jValue := jc x (i + d), bestJ := ((i + d : Nat) : Int) } else s
  have e1 : s1.val = s.val ∧ s1.newEdges = s.newEdges ∧ s1.bestI = s.bestI := by
    simp only [s1]
    split <;> exact ⟨rfl, rfl, rfl⟩
  have j1 : ∀ j, i + d ≤ j → j + d ≤ k → s1.jValue ≤ jc x j := by
    intro j h1 h2
    simp only [s1]
    split
    · rename_i hlt
      rcases Nat.eq_or_lt_of_le h1 with rfl | h1
      · exact le_rfl
      · exact hlt.le.trans (h.jle j (by omega) h2)
    · rename_i hlt
      rcases Nat.eq_or_lt_of_le h1 with rfl | h1
      · exact not_lt.1 hlt
      · exact h.jle j (by omega) h2
  have j2 : ∃ j, i + d ≤ j ∧ j + d ≤ k ∧ s1.jValue = jc x j ∧ s1.bestJ = (j : Int) := by
    simp only [s1]
    split
    · exact ⟨i + d, le_rfl, by omega, rfl, rfl⟩
    · rename_i hlt
      rcases h.jeq with ⟨h1, _⟩ | ⟨j, h1, h2, h3, h4⟩
      · rw [h1] at hlt
        exact absurd (jc_lt x hx (i + d) (by omega)) hlt
      · exact ⟨j, by omega, h2, h3, h4⟩
  have hstep : innerStep x dp d k s i = if dp.getD i 0 + (s1.jValue + baseC x i k) < s1.val then
      { s1 with val := dp.getD i 0 + (s1.jValue + baseC x i k), newEdges := [(s1.bestJ : K) / 5, (k : K) / 5], bestI := i }
      else s1 := rfl
  rw [hstep]
  obtain ⟨j0, a1, a2, a3, a4⟩ := j2
  split
  · rename_i hlt
    rw [e1.1] at hlt
    refine ⟨j1, Or.inr ⟨j0, a1, a2, a3, a4⟩, hlt.le.trans h.le, ?_, Or.inr ⟨i, j0, a1, a2, ?_, lt_of_lt_of_le hlt h.le, ?_, rfl⟩⟩
    · intro i' j h1 h2 h3
      rcases Nat.eq_or_lt_of_le h1 with rfl | h1
      · have := j1 j h2 h3
        show dp.getD i 0 + (s1.jValue + baseC x i k) ≤ _
        linarith
      · exact hlt.le.trans (h.vle i' j (by omega) h2 h3)
    · show dp.getD i 0 + (s1.jValue + baseC x i k) = _
      rw [a3]
      ring
    · show [(s1.bestJ : K) / 5, (k : K) / 5] = _
      rw [a4]
      simp
  · rename_i hlt
    rw [e1.1] at hlt
    refine ⟨j1, Or.inr ⟨j0, a1, a2, a3, a4⟩, by rw [e1.1]; exact h.le, ?_, ?_⟩
    · intro i' j h1 h2 h3
      rw [e1.1]
      rcases Nat.eq_or_lt_of_le h1 with rfl | h1
      · have := j1 j h2 h3
        have := not_lt.1 hlt
        linarith
      · exact h.vle i' j (by omega) h2 h3
    · rw [e1.1, e1.2.1, e1.2.2]
      exact h.veq

theorem innerLoop_inv (x dp : List K) (hx : ∀ a ∈ x, 0 ≤ a ∧ a ≤ 1) (d k : Nat) (hd : 1 ≤ d) (hk : k ≤ 5 * x.length) :
    ∀ (m : Nat) (s : Inner K), m + 2 * d ≤ k + 1 → InnerInv x dp d k m s →
      InnerInv x dp d k 0 ((List.range m).reverse.foldl (innerStep x dp d k) s) := by
  intro m
  induction m with
  | zero => intro s _ h; exact h
  | succ m ih =>
    intro s hm h
    rw [List.range_succ, List.reverse_append]
    simp only [List.reverse_cons, List.reverse_nil, List.nil_append, List.cons_append, List.foldl_cons]
    exact ih _ (by omega) (innerStep_inv x dp hx d k m hd hk (by omega) s h)

theorem inner_result (x dp : List K) (hx : ∀ a ∈ x, 0 ≤ a ∧ a ≤ 1) (d k : Nat) (hd : 1 ≤ d) (hk : k ≤ 5 * x.length) :
    InnerInv x dp d k 0 ((List.range (k + 1 - 2 * d)).reverse.foldl (innerStep x dp d k) (innerInit x k)) := by
  by_cases h : 2 * d ≤ k + 1
  · apply innerLoop_inv x dp hx d k hd hk _ _ (by omega)
    exact ⟨fun j h1 h2 => by omega, Or.inl ⟨rfl, by omega⟩, le_rfl, fun i' j h1 h2 h3 => by omega, Or.inl ⟨rfl, rfl, rfl⟩⟩
  · rw [show k + 1 - 2 * d = 0 by omega]
    exact ⟨fun j h1 h2 => by omega, Or.inl ⟨rfl, by omega⟩, le_rfl, fun i' j h1 h2 h3 => by omega, Or.inl ⟨rfl, rfl, rfl⟩⟩

/-! ### The outer loop -/

theorem init_val (x : List K) (hx : ∀ a ∈ x, 0 ≤ a ∧ a ≤ 1) (k : Nat) (hk : k ≤ 5 * x.length) :
    (innerInit x k).val ≤ x.length ∧ cost x [0, k] k ≤ (innerInit x k).val ∧
    (k < 5 * x.length → (innerInit x k).val = cost x [0, k] k) := by
  have h1 := flat_le x 0 ⟨le_rfl, zero_le_one⟩ hx (k / 5)
  rw [cost_first]
  have f0 := frac_nonneg (K := K) k
  have f1 := frac_lt_one (K := K) k
  have xu := getD_unit x hx (k / 5)
  unfold innerInit
  simp only
  rw [flatValue_getD _ _ _ (by omega)]
  split
  · rename_i hlt
    have e : ∑ q ∈ Finset.range (k / 5), (0 - x.getD q 0) ^ 2 + sqd (x.getD (k / 5) 0) (1 - frac k) * frac k =
        flat x 0 (k / 5) + frac k * (1 - frac k - x.getD (k / 5) 0) ^ 2 := by
      simp only [flat, sqd]
      ring
    rw [e]
    refine ⟨?_, le_rfl, fun _ => rfl⟩
    have h7 : ((k / 5 : Nat) : K) + 1 ≤ x.length := by exact_mod_cast hlt
    have h8 : (1 - frac k - x.getD (k / 5) 0) ^ 2 ≤ 1 := sq_le_one' _ (by linarith [xu.2]) (by linarith [xu.1])
    have h9 : frac k * (1 - frac k - x.getD (k / 5) 0) ^ 2 ≤ 1 := mul_le_one₀ f1.le (sq_nonneg _) h8
    linarith
  · rename_i hlt
    have hk' : k = 5 * x.length := by omega
    refine ⟨le_rfl, ?_, fun h => by omega⟩
    have : (frac k : K) = 0 := by
      unfold frac
      rw [show k % 5 = 0 by omega]
      simp
    rw [this]
    have h7 : ((k / 5 : Nat) : K) = x.length := by
      rw [show k / 5 = x.length by omega]
    linarith

/-- What is known of the entry of `dp` and `struct_dp` for the last edge `p`. -/
def Entry (x : List K) (d p : Nat) (v : K) (E : List K) : Prop :=
  ∃ S, Reach d S p ∧ E = S.map (fun e : Nat => (e : K) / 5) ∧ cost x S p ≤ v ∧ (p < 5 * x.length → v = cost x S p) ∧
    ∀ S', Reach d S' p → S' ≠ [0, 5 * x.length] → v ≤ cost x S' p

structure OuterInv (x : List K) (d m : Nat) (st : List K × List (List K)) : Prop where
  len : st.1.length = 5 * x.length + 1
  slen : st.2.length = m
  zero : st.1.getD 0 0 = 0
  low : ∀ p, 0 < p → p < d → p ≤ 5 * x.length → st.1.getD p 0 = x.length
  slow : ∀ p, p < d → st.2.getD p [] = []
  entry : ∀ p, d ≤ p → p < m → Entry x d p (st.1.getD p 0) (st.2.getD p [])

theorem Reach.last {d : Nat} {S : List Nat} {i : Nat} (h : Reach d S i) : (S = [] ∧ i = 0) ∨ (S.getLast? = some i ∧ d ≤ i) := by
  cases h with
  | nil => exact Or.inl ⟨rfl, rfl⟩
  | first k hk => exact Or.inr ⟨rfl, hk⟩
  | next S i' j k h1 h2 h3 => exact Or.inr ⟨by simp, by omega⟩

theorem getD_set (l : List K) (k p : Nat) (v : K) (hk : k < l.length) : (l.set k v).getD p 0 = if p = k then v else l.getD p 0 := by
  simp only [List.getD_eq_getElem?_getD, List.getElem?_set, hk, if_true]
  split
  · rename_i h
    rw [if_pos h.symm]
    rfl
  · rename_i h
    rw [if_neg (fun h' => h h'.symm)]

theorem outerStep_inv (x : List K) (hx : ∀ a ∈ x, 0 ≤ a ∧ a ≤ 1) (d k : Nat) (hd : 5 ≤ d) (hdk : d ≤ k)
    (hk : k ≤ 5 * x.length) (st : List K × List (List K)) (h : OuterInv x d k st) :
    OuterInv x d (k + 1) (outerStep x d st k) := by
  have hin := inner_result x st.1 hx d k (by omega) hk
  obtain ⟨b1, b2, b3⟩ := init_val x hx k hk
  unfold outerStep
  simp only
  generalize (List.range (k + 1 - 2 * d)).reverse.foldl (innerStep x st.1 d k) (innerInit x k) = s at hin
  have hkl : k < st.1.length := by rw [h.len]; omega
  refine ⟨by simp [h.len], by simp [h.slen], ?_, ?_, ?_, ?_⟩
  · rw [getD_set _ _ _ _ hkl, if_neg (by omega)]
    exact h.zero
  · intro p h1 h2 h3
    rw [getD_set _ _ _ _ hkl, if_neg (by omega)]
    exact h.low p h1 h2 h3
  · intro p hp
    rw [List.getD_eq_getElem?_getD, List.getElem?_append_left (by rw [h.slen]; omega), ← List.getD_eq_getElem?_getD]
    exact h.slow p hp
  · intro p h1 h2
    rcases Nat.lt_or_ge p k with hp | hp
    · rw [getD_set _ _ _ _ hkl, if_neg (by omega), List.getD_eq_getElem?_getD (l := _ ++ _),
        List.getElem?_append_left (by rw [h.slen]; omega), ← List.getD_eq_getElem?_getD]
      exact h.entry p h1 hp
    · obtain rfl : p = k := by omega
      rw [getD_set _ _ _ _ hkl, if_pos rfl, List.getD_eq_getElem?_getD (l := _ ++ _),
        List.getElem?_append_right (by rw [h.slen]), h.slen]
      simp only [Nat.sub_self, List.getElem?_cons_zero, Option.getD_some]
      have hlow : ∀ S', Reach d S' p → S' ≠ [0, 5 * x.length] → s.val ≤ cost x S' p := by
        intro S' hS' hne
        cases hS' with
        | nil => omega
        | first _ hk' =>
          have : p < 5 * x.length := by
            rcases Nat.lt_or_ge p (5 * x.length) with h | h
            · exact h
            · exfalso
              apply hne
              rw [show p = 5 * x.length by omega]
          rw [← b3 this]
          exact hin.le
        | next S i j _ hS hij hjk =>
          rw [cost_next x hd hS j p hij hjk]
          have h5 := hin.vle i j (Nat.zero_le _) hij hjk
          rw [base_jc x i j p d (by omega) hij hjk hk] at h5
          rcases hS.last with ⟨rfl, rfl⟩ | ⟨hl, hdi⟩
          · rw [h.zero] at h5
            rw [cost_nil]
            exact h5
          · obtain ⟨T, t1, t2, t3, t4, t5⟩ := h.entry i hdi (by omega)
            have := t5 S hS (by
              intro he
              rw [he] at hl
              simp at hl
              omega)
            linarith
      rcases hin.veq with ⟨v1, v2, v3⟩ | ⟨i, j, hij, hjk, v1, v2, v3, v4⟩
      · refine ⟨[0, p], Reach.first p hdk, ?_, by rw [v1]; exact b2, fun hp5 => by rw [v1]; exact b3 hp5, hlow⟩
        rw [v2, v3, h.slow 0 (by omega)]
        simp
      · rw [base_jc x i j p d (by omega) hij hjk hk] at v1
        have hi0 : i = 0 ∨ d ≤ i := by
          rcases Nat.eq_zero_or_pos i with h0 | h0
          · exact Or.inl h0
          · right
            by_contra hlt
            have := h.low i h0 (by omega) (by omega)
            rw [this] at v1
            have := trans_nonneg x hd i j p hij hjk
            linarith
        rcases hi0 with rfl | hdi
        · rw [h.zero, zero_add] at v1
          have hc : cost x ([] ++ [j, p]) p = trans x 0 j p := by
            rw [cost_next x hd Reach.nil j p hij hjk, cost_nil, zero_add]
          refine ⟨[] ++ [j, p], Reach.next [] 0 j p Reach.nil hij hjk, ?_, by rw [hc, v1], fun _ => by rw [hc, v1], hlow⟩
          rw [v3, v4, h.slow 0 (by omega)]
          simp
        · obtain ⟨T, t1, t2, t3, t4, t5⟩ := h.entry i hdi (by omega)
          rw [t4 (by omega), ← cost_next x hd t1 j p hij hjk] at v1
          refine ⟨T ++ [j, p], Reach.next T i j p t1 hij hjk, ?_, v1.ge, fun _ => v1, hlow⟩
          rw [v3, v4, t2]
          simp

theorem fillDp_inv (x : List K) (hx : ∀ a ∈ x, 0 ≤ a ∧ a ≤ 1) (d : Nat) (hd : 5 ≤ d) (hdn : d ≤ 5 * x.length) :
    OuterInv x d (5 * x.length + 1) (fillDp x d) := by
  have hgen : ∀ (m a : Nat) (st : List K × List (List K)), d ≤ a → a + m = 5 * x.length + 1 → OuterInv x d a st →
      OuterInv x d (5 * x.length + 1) ((List.range' a m).foldl (outerStep x d) st) := by
    intro m
    induction m with
    | zero =>
      intro a st _ h1 h2
      rw [← h1]
      exact h2
    | succ m ih =>
      intro a st h0 h1 h2
      rw [List.range'_succ, List.foldl_cons]
      exact ih (a + 1) _ (by omega) (by omega) (outerStep_inv x hx d a hd h0 (by omega) st h2)
  unfold fillDp
  apply hgen _ _ _ le_rfl (by omega)
  refine ⟨by simp, by simp, ?_, ?_, ?_, fun p h1 h2 => by omega⟩
  · rw [getD_set _ _ _ _ (by simp), if_pos rfl]
  · intro p h1 h2 h3
    rw [getD_set _ _ _ _ (by simp), if_neg (by omega), List.getD_eq_getElem?_getD, List.getElem?_replicate,
      if_pos (by omega)]
    rfl
  · intro p hp
    rw [List.getD_eq_getElem?_getD, List.getElem?_replicate, if_pos hp]
    rfl

/-! ### Backfill and the best structure -/

theorem backfill_getD (x : List K) : ∀ (m a : Nat) (dp : List K), a + m ≤ dp.length →
    ((List.range' a m).foldl (backfillStep x) dp).length = dp.length ∧
    ∀ p, ((List.range' a m).foldl (backfillStep x) dp).getD p 0 = dp.getD p 0 +
      (if a ≤ p ∧ p < a + m then (flatValue x 1).getD x.length 0 - (flatValue x 1).getD (p / 5 + 1) 0 +
        sqd (x.getD (p / 5) 0) (1 - frac p) * (1 - frac p) else 0) := by
  intro m
  induction m with
  | zero =>
    intro a dp _
    refine ⟨rfl, fun p => ?_⟩
    rw [if_neg (by omega)]
    simp
  | succ m ih =>
    intro a dp hl
    rw [List.range'_succ, List.foldl_cons]
    have hl' : (backfillStep x dp a).length = dp.length := by simp [backfillStep]
    obtain ⟨h1, h2⟩ := ih (a + 1) (backfillStep x dp a) (by rw [hl']; omega)
    refine ⟨h1.trans hl', fun p => ?_⟩
    rw [h2 p]
    unfold backfillStep
    rw [getD_set _ _ _ _ (by omega)]
    by_cases hp : p = a
    · subst hp
      rw [if_pos rfl, if_neg (by omega : ¬ (p + 1 ≤ p ∧ p < p + 1 + m)), if_pos (by omega : p ≤ p ∧ p < p + (m + 1))]
      ring
    · rw [if_neg hp]
      by_cases hq : a + 1 ≤ p ∧ p < a + 1 + m
      · rw [if_pos hq, if_pos (by omega : a ≤ p ∧ p < a + (m + 1))]
      · rw [if_neg hq, if_neg (by omega : ¬ (a ≤ p ∧ p < a + (m + 1)))]

theorem argminGo_spec : ∀ (l : List K) (best : K) (bi i : Nat) (all : List K), bi < i → i + l.length = all.length →
    all.drop i = l → all.getD bi 0 = best → (∀ j, j < i → best ≤ all.getD j 0) →
    argminGo best bi i l < all.length ∧ ∀ j, j < all.length → all.getD (argminGo best bi i l) 0 ≤ all.getD j 0 := by
  intro l
  induction l with
  | nil =>
    intro best bi i all h1 h2 h3 h4 h5
    simp only [argminGo]
    simp only [List.length_nil, Nat.add_zero] at h2
    exact ⟨by omega, fun j hj => by rw [h4]; exact h5 j (by omega)⟩
  | cons a l ih =>
    intro best bi i all h1 h2 h3 h4 h5
    simp only [List.length_cons] at h2
    have ha : all.getD i 0 = a := by
      have : all[i]? = some a := by
        have := congrArg List.head? h3
        rwa [List.head?_drop] at this
      rw [List.getD_eq_getElem?_getD, this]
      rfl
    have hd : all.drop (i + 1) = l := by
      have := congrArg List.tail h3
      rwa [List.tail_drop] at this
    simp only [argminGo]
    split
    · rename_i hlt
      refine ih a i (i + 1) all (by omega) (by omega) hd ha fun j hj => ?_
      rcases Nat.eq_or_lt_of_le (Nat.lt_succ_iff.1 hj) with rfl | hj
      · exact ha.ge
      · exact hlt.le.trans (h5 j hj)
    · rename_i hlt
      refine ih best bi (i + 1) all (by omega) (by omega) hd h4 fun j hj => ?_
      rcases Nat.eq_or_lt_of_le (Nat.lt_succ_iff.1 hj) with rfl | hj
      · rw [ha]
        exact not_lt.1 hlt
      · exact h5 j hj

theorem argmin_spec (l : List K) (hl : l ≠ []) : ∃ i, argmin l = some i ∧ i < l.length ∧ ∀ j, j < l.length → l.getD i 0 ≤ l.getD j 0 := by
  cases l with
  | nil => exact absurd rfl hl
  | cons a l =>
    obtain ⟨h1, h2⟩ := argminGo_spec l a 0 1 (a :: l) (by omega) (by simp; omega) rfl rfl (fun j hj => by
      obtain rfl : j = 0 := by omega
      exact le_rfl)
    exact ⟨_, rfl, h1, h2⟩

/-- The result of the dynamic program. -/
theorem edgeLocDp_spec (x : List K) (hx : ∀ a ∈ x, 0 ≤ a ∧ a ≤ 1) (d : Nat) (hd : 5 ≤ d) (hdn : d ≤ 5 * x.length) :
    ∃ S k, edgeLocDp x d = some (S.map fun e : Nat => (e : K) / 5) ∧ Reach d S k ∧ d ≤ k ∧ k ≤ 5 * x.length ∧
      ∀ S' k', Reach d S' k' → d ≤ k' → k' ≤ 5 * x.length → S' ≠ [0, 5 * x.length] → fitError x S ≤ fitError x S' := by
  have hinv := fillDp_inv x hx d hd hdn
  unfold edgeLocDp
  simp only
  generalize fillDp x d = st at hinv
  obtain ⟨hl, hb⟩ := backfill_getD x (5 * x.length - d) d st.1 (by rw [hinv.len]; omega)
  generalize (List.range' d (5 * x.length - d)).foldl (backfillStep x) st.1 = dp at hl hb
  rw [hinv.len] at hl
  obtain ⟨i, h1, h2, h3⟩ := argmin_spec (dp.drop d) (by
    intro he
    have := congrArg List.length he
    simp [hl] at this
    omega)
  rw [h1]
  rw [List.length_drop, hl] at h2 h3
  have hdrop : ∀ j, (dp.drop d).getD j 0 = dp.getD (d + j) 0 := by
    intro j
    simp [List.getD_eq_getElem?_getD, List.getElem?_drop]
  -- the value of an entry is at least the error, and at most the error of the others
  have hval : ∀ p S, d ≤ p → p ≤ 5 * x.length → Reach d S p → ∀ c : K,
      (c + (if d ≤ p ∧ p < d + (5 * x.length - d) then (flatValue x 1).getD x.length 0 - (flatValue x 1).getD (p / 5 + 1) 0 +
        sqd (x.getD (p / 5) 0) (1 - frac p) * (1 - frac p) else 0)) - c = fitError x S - cost x S p := by
    intro p S hp1 hp2 hS c
    rw [← cost_full]
    by_cases hp : p < 5 * x.length
    · rw [if_pos (by omega), cost_tail x hd hS hp, flatValue_getD _ _ _ le_rfl, flatValue_getD _ _ _ (by omega)]
      simp only [flat, sqd]
      ring
    · rw [if_neg (by omega), show p = 5 * x.length by omega]
      ring
  obtain ⟨S, s1, s2, s3, s4, s5⟩ := hinv.entry (i + d) (by omega) (by omega)
  refine ⟨S, i + d, ?_, s1, by omega, by omega, ?_⟩
  · simp only [Option.map_some, Option.some.injEq]
    exact s2
  · intro S' k' r1 r2 r3 r4
    obtain ⟨T, t1, t2, t3, t4, t5⟩ := hinv.entry k' r2 (by omega)
    have g1 := h3 (k' - d) (by omega)
    rw [hdrop, hdrop, show d + i = i + d by omega, show d + (k' - d) = k' by omega, hb, hb] at g1
    have g2 := hval (i + d) S (by omega) (by omega) s1 (st.1.getD (i + d) 0)
    have g3 := hval k' S' r2 r3 r1 (st.1.getD k' 0)
    have g4 := t5 S' r1 r4
    linarith

end Verif.Grating
