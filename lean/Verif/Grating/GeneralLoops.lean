import Verif.Grating.GeneralLemmas
import Mathlib.Data.List.GetD
/- The loops of the discretisation to a multi-level grating. -/
set_option linter.unusedSectionVars false
set_option linter.unusedVariables false
namespace Verif.Grating.General
variable {K : Type} [Field K] [LinearOrder K] [IsStrictOrderedRing K]

theorem foldl_mem_congr {α β : Type} (f g : β → α → β) : ∀ (l : List α) (b : β), (∀ a ∈ l, ∀ b, f b a = g b a) →
    l.foldl f b = l.foldl g b := by
  intro l
  induction l with
  | nil => intro b _; rfl
  | cons a l ih =>
    intro b h
    rw [List.foldl_cons, List.foldl_cons, h a (by simp), ih _ (fun a' h' => h a' (by simp [h']))]

theorem rows_length (p : Dp K) : ∀ m, (p.rows m).length = m := by
  intro m
  induction m with
  | zero => rfl
  | succ m ih => simp [Dp.rows, ih]

theorem read_rows_succ (p : Dp K) (m k a b : Nat) (hk : k < m) : read (p.rows (m + 1)) k a b = read (p.rows m) k a b := by
  unfold read
  rw [Dp.rows, List.getD_append _ _ _ _ (by rw [rows_length]; exact hk)]

theorem read_rows (p : Dp K) (m k a b : Nat) (hk : k < m) : read (p.rows m) k a b = read (p.rows (k + 1)) k a b := by
  induction m with
  | zero => omega
  | succ m ih =>
    by_cases h : k = m
    · rw [h]
    · rw [read_rows_succ p m k a b (by omega), ih (by omega)]

theorem read_last (p : Dp K) (k a b : Nat) (ha : a < p.num) (hb : b < p.num) :
    read (p.rows (k + 1)) k a b = p.entry (p.rows k) k a b := by
  unfold read
  rw [Dp.rows, List.getD_append_right _ _ _ _ (by rw [rows_length]), rows_length]
  simp [Dp.row, ha, hb]

theorem mem_lasts (p : Dp K) (k a i c : Nat) : (i, c) ∈ p.lasts k a ↔
    i + p.dMin.getD a 0 < k + 1 ∧ k ≤ i + p.dMax.getD a 0 ∧ c < p.num ∧ c ≠ a := by
  unfold Dp.lasts
  simp only [List.mem_flatMap, List.mem_range'_1, List.mem_map, List.mem_filter, List.mem_range, Prod.mk.injEq]
  constructor
  · rintro ⟨i', h1, c', h2, rfl, rfl⟩
    have h3 : c' ≠ a := by simpa using h2.2
    exact ⟨by omega, by omega, h2.1, h3⟩
  · rintro ⟨h1, h2, h3, h4⟩
    exact ⟨i, by omega, c, ⟨h3, by simpa using h4⟩, rfl, rfl⟩

/-- The table satisfies the recursion. -/
theorem read_table (p : Dp K) (hp : Valid p) (k a b : Nat) (hk : k ≤ p.maxK) (ha : a < p.num) (hb : b < p.num) :
    read p.table k a b = p.entry p.table k a b := by
  unfold Dp.table
  rw [read_rows p _ k a b (by omega), read_last p k a b ha hb]
  unfold Dp.entry
  by_cases hab : a = b
  · rw [if_pos hab, if_pos hab]
  · rw [if_neg hab, if_neg hab]
    apply foldl_mem_congr
    rintro ⟨i, c⟩ hic cur
    rw [mem_lasts] at hic
    have hm := hp.min a ha
    have hq := hp.q
    have : p.nextVal (p.rows k) k a b i c = p.nextVal (p.rows (p.maxK + 1)) k a b i c := by
      rw [nextVal_eq, nextVal_eq, read_rows p k i c a (by omega), read_rows p (p.maxK + 1) i c a (by omega)]
    simp only [Dp.improve, this]

theorem improve_fold (p : Dp K) (tab : List (List (List (Entry K)))) (k a b : Nat) : ∀ (l : List (Nat × Nat)) (cur : Entry K),
    (l.foldl (p.improve tab k a b) cur).1 ≤ cur.1 ∧
    (∀ ic ∈ l, (l.foldl (p.improve tab k a b) cur).1 ≤ p.nextVal tab k a b ic.1 ic.2) ∧
    (l.foldl (p.improve tab k a b) cur = cur ∨
      ∃ ic ∈ l, l.foldl (p.improve tab k a b) cur = (p.nextVal tab k a b ic.1 ic.2, some ic)) := by
  intro l
  induction l with
  | nil => intro cur; simp
  | cons ic l ih =>
    intro cur
    rw [List.foldl_cons]
    obtain ⟨h1, h2, h3⟩ := ih (p.improve tab k a b cur ic)
    have hle : (p.improve tab k a b cur ic).1 ≤ cur.1 ∧
        (p.improve tab k a b cur ic).1 ≤ p.nextVal tab k a b ic.1 ic.2 ∧
        (p.improve tab k a b cur ic = cur ∨ p.improve tab k a b cur ic = (p.nextVal tab k a b ic.1 ic.2, some ic)) := by
      unfold Dp.improve
      split
      · rename_i h
        exact ⟨h.le, le_rfl, Or.inr rfl⟩
      · rename_i h
        exact ⟨le_rfl, not_lt.1 h, Or.inl rfl⟩
    refine ⟨h1.trans hle.1, ?_, ?_⟩
    · intro ic' hic'
      rcases List.mem_cons.1 hic' with rfl | h
      · exact h1.trans hle.2.1
      · exact h2 ic' h
    · rcases h3 with h3 | ⟨ic', h, h3⟩
      · rw [h3]
        rcases hle.2.2 with h | h
        · exact Or.inl h
        · exact Or.inr ⟨ic, by simp, h⟩
      · exact Or.inr ⟨ic', by simp [h], h3⟩

/-- The lists of edges and of the levels before them, as the backtracking collects them, describe the grating `S`. -/
def Traces (p : Dp K) (t S : List (Nat × Nat)) : Prop :=
  (t.map Prod.fst).reverse = S.map Prod.fst ∧ (t.map Prod.snd).reverse = p.start :: (S.map Prod.snd).dropLast

theorem backtrack_succ (tab : List (List (List (Entry K)))) (fuel k a b : Nat) : backtrack tab (fuel + 1) k a b =
    (k, a) :: match (read tab k a b).2 with
    | none => []
    | some (i, c) => backtrack tab fuel i c a := rfl

theorem Reach.snd_last {p : Dp K} {S : List (Nat × Nat)} {k a b : Nat} (h : Reach p S k a b) :
    ∃ T, S = T ++ [(k, b)] := by
  cases h with
  | first k b h1 h2 h3 => exact ⟨[], rfl⟩
  | next S i c a k b h h1 h2 h3 h4 => exact ⟨S, rfl⟩

/-- The entries are the smallest errors of beginnings, as long as they are smaller than `2**30`. -/
theorem table_spec (p : Dp K) (hp : Valid p) : ∀ (k a b : Nat), k ≤ p.maxK → a < p.num → b < p.num → a ≠ b →
    (∀ S, Reach p S k a b → cost p S k < big → (read p.table k a b).1 ≤ cost p S k) ∧
    ((read p.table k a b).1 < big → ∃ S, Reach p S k a b ∧ cost p S k = (read p.table k a b).1 ∧
      ∀ fuel, k < fuel → Traces p (backtrack p.table fuel k a b) S) := by
  intro k
  induction k using Nat.strong_induction_on with
  | _ k ih =>
  intro a b hk ha hb hab
  have hm := hp.min a ha
  have hq := hp.q
  have hread := read_table p hp k a b hk ha hb
  unfold Dp.entry at hread
  rw [if_neg hab] at hread
  obtain ⟨f1, f2, f3⟩ := improve_fold p p.table k a b (p.lasts k a) (p.firstVal k a b, none)
  rw [← hread] at f1 f2 f3
  constructor
  · intro S hS hlt
    cases hS with
    | first k b h1 h2 h3 =>
      rw [cost_first p hp k b h1 h2 h3 hk]
      exact f1
    | next S i c a k b h h1 h2 h3 h4 =>
      have hc := cost_next p hp S i c a k b h h1 h2 h3 h4 hk
      rw [h.err_last hp] at hc
      have hadd := added_nonneg p hq i c a k b (by omega) hk
      have hc' : cost p (S ++ [(k, b)]) k = cost p S i + added p i c a k b := hc
      obtain ⟨l1, l2, l3⟩ := h.lt hp
      have hmem : (i, c) ∈ p.lasts k a := by
        rw [mem_lasts]
        exact ⟨by omega, h2, l1, l3⟩
      have := f2 (i, c) hmem
      rw [nextVal_eq] at this
      have hi := (ih i (by omega) c a (by omega) l1 l2 l3).1 S h (by linarith)
      rw [hc']
      simp only at this
      linarith
  · intro hlt
    rcases f3 with f3 | ⟨⟨i, c⟩, hic, f3⟩
    · have hv : p.firstVal k a b < big := by
        rw [f3] at hlt
        exact hlt
      have hcond : a = p.start ∧ k ≤ p.dMax.getD p.start 0 := by
        by_contra hc
        unfold Dp.firstVal at hv
        rw [if_neg hc] at hv
        exact lt_irrefl _ hv
      obtain ⟨rfl, h1⟩ := hcond
      refine ⟨[(k, b)], Reach.first k b h1 (fun e => hab e.symm) hb, ?_, ?_⟩
      · rw [cost_first p hp k b h1 (fun e => hab e.symm) hb hk, f3]
      · intro fuel hf
        obtain ⟨f', rfl⟩ : ∃ f', fuel = f' + 1 := ⟨fuel - 1, by omega⟩
        rw [backtrack_succ, f3]
        simp [Traces]
    · rw [mem_lasts] at hic
      obtain ⟨i1, i2, i3, i4⟩ := hic
      have hadd := added_nonneg p hq i c a k b (by omega) hk
      have hval : (read p.table k a b).1 = (read p.table i c a).1 + added p i c a k b := by
        rw [f3, nextVal_eq]
      obtain ⟨S, s1, s2, s3⟩ := (ih i (by omega) c a (by omega) i3 ha i4).2 (by linarith)
      refine ⟨S ++ [(k, b)], Reach.next S i c a k b s1 (by omega) i2 (fun e => hab e.symm) hb, ?_, ?_⟩
      · rw [cost_next p hp S i c a k b s1 (by omega) i2 (fun e => hab e.symm) hb hk, s1.err_last hp, s2, hval]
        rfl
      · intro fuel hf
        obtain ⟨f', rfl⟩ : ∃ f', fuel = f' + 1 := ⟨fuel - 1, by omega⟩
        rw [backtrack_succ, f3]
        simp only []
        obtain ⟨t1, t2⟩ := s3 f' (by omega)
        obtain ⟨T, rfl⟩ := s1.snd_last
        constructor
        · simp [t1]
        · simp only [List.map_cons, List.reverse_cons, t2]
          simp

theorem better_fold (p : Dp K) : ∀ (l : List (Nat × Nat)) (cur : K × Nat × Nat),
    (l.foldl p.better cur).1 ≤ cur.1 ∧ (∀ ka ∈ l, (l.foldl p.better cur).1 ≤ p.backfilled ka.1 ka.2) ∧
    (l.foldl p.better cur = cur ∨ ∃ ka ∈ l, l.foldl p.better cur = (p.backfilled ka.1 ka.2, ka)) := by
  intro l
  induction l with
  | nil => intro cur; simp
  | cons ic l ih =>
    intro cur
    rw [List.foldl_cons]
    obtain ⟨h1, h2, h3⟩ := ih (p.better cur ic)
    have hle : (p.better cur ic).1 ≤ cur.1 ∧ (p.better cur ic).1 ≤ p.backfilled ic.1 ic.2 ∧
        (p.better cur ic = cur ∨ p.better cur ic = (p.backfilled ic.1 ic.2, ic)) := by
      unfold Dp.better
      split
      · rename_i h
        exact ⟨h.le, le_rfl, Or.inr rfl⟩
      · rename_i h
        exact ⟨le_rfl, not_lt.1 h, Or.inl rfl⟩
    refine ⟨h1.trans hle.1, ?_, ?_⟩
    · intro ic' hic'
      rcases List.mem_cons.1 hic' with rfl | h
      · exact h1.trans hle.2.1
      · exact h2 ic' h
    · rcases h3 with h3 | ⟨ic', h, h3⟩
      · rw [h3]
        rcases hle.2.2 with h | h
        · exact Or.inl h
        · exact Or.inr ⟨ic, by simp, h⟩
      · exact Or.inr ⟨ic', by simp [h], h3⟩

theorem mem_ends (p : Dp K) (k a : Nat) : (k, a) ∈ p.ends ↔ k ≤ p.maxK ∧ p.maxK ≤ k + p.dMax.getD p.stop 0 ∧ a < p.num := by
  unfold Dp.ends
  simp only [List.mem_flatMap, List.mem_range'_1, List.mem_map, List.mem_range, Prod.mk.injEq]
  constructor
  · rintro ⟨k', h1, c', h2, rfl, rfl⟩
    exact ⟨by omega, by omega, h2⟩
  · rintro ⟨h1, h2, h3⟩
    exact ⟨k, by omega, a, h3, rfl, rfl⟩

/-- What the backfilling adds. -/
theorem backfilled_eq (p : Dp K) (hp : Valid p) (S : List (Nat × Nat)) (k a : Nat) (h : Reach p S k a p.stop) (hk : k ≤ p.maxK) :
    ∃ r : K, 0 ≤ r ∧ p.backfilled k a = (read p.table k a p.stop).1 + r ∧
      levelError p.x p.depths p.start p.divisions S = cost p S k + r := by
  obtain ⟨l1, l2, l3⟩ := h.lt hp
  unfold Dp.backfilled
  by_cases hlt : k < p.maxK
  · rw [if_pos hlt, if_neg l3, cost_total p hp S k a h hlt]
    refine ⟨_, ?_, rfl, rfl⟩
    have hl : k / p.divisions < p.x.length := by
      unfold Dp.maxK at hlt
      exact Nat.div_lt_of_lt_mul hlt
    have h1 := levelValue_mono p p.stop _ _ hl le_rfl
    have h2 := (frac_bounds p hp.q k).2
    have h3 : 0 ≤ sqd (p.px (k / p.divisions)) (p.lastPixel k a p.stop) * (1 - p.frac k) :=
      mul_nonneg (sq_nonneg _) (by linarith)
    simp only [Nat.succ_eq_add_one] at h1
    linarith
  · rw [if_neg hlt]
    have hkm : k = p.maxK := by omega
    subst hkm
    exact ⟨0, le_rfl, by simp, by rw [cost_end p hp S]; simp⟩

theorem backfilled_ge (p : Dp K) (hp : Valid p) (k a : Nat) (hk : k ≤ p.maxK) (ha : a < p.num) :
    a = p.stop → 0 < p.maxK → ¬ p.backfilled k a < big := by
  rintro rfl hpos h
  unfold Dp.backfilled at h
  by_cases hlt : k < p.maxK
  · rw [if_pos hlt, if_pos rfl] at h
    exact lt_irrefl _ h
  · rw [if_neg hlt, read_table p hp k _ _ hk ha ha] at h
    unfold Dp.entry at h
    rw [if_pos rfl, if_neg (by omega)] at h
    exact lt_irrefl _ h

/-- A backfilled value grows from a table entry. -/
theorem backfilled_read (p : Dp K) (hp : Valid p) (k a : Nat) (hk : k ≤ p.maxK) (hne : a ≠ p.stop) :
    (read p.table k a p.stop).1 ≤ p.backfilled k a := by
  unfold Dp.backfilled
  by_cases hlt : k < p.maxK
  · rw [if_pos hlt, if_neg hne]
    have hl : k / p.divisions < p.x.length := by
      unfold Dp.maxK at hlt
      exact Nat.div_lt_of_lt_mul hlt
    have h1 := levelValue_mono p p.stop _ _ hl le_rfl
    have h2 := (frac_bounds p hp.q k).2
    have h3 : 0 ≤ sqd (p.px (k / p.divisions)) (p.lastPixel k a p.stop) * (1 - p.frac k) :=
      mul_nonneg (sq_nonneg _) (by linarith)
    simp only [Nat.succ_eq_add_one] at h1
    linarith
  · rw [if_neg hlt]

/-- The best structure. -/
theorem best_spec (p : Dp K) (hp : Valid p) (hpos : 0 < p.maxK) :
    (∀ S k a, Reach p S k a p.stop → k ≤ p.maxK → p.maxK ≤ k + p.dMax.getD p.stop 0 →
      levelError p.x p.depths p.start p.divisions S < big → p.best.1 ≤ levelError p.x p.depths p.start p.divisions S) ∧
    ((p.best = (big, 0, 0)) ∨ (p.best.1 < big ∧ ∃ S, Reach p S p.best.2.1 p.best.2.2 p.stop ∧ p.best.2.1 ≤ p.maxK ∧
      p.maxK ≤ p.best.2.1 + p.dMax.getD p.stop 0 ∧ levelError p.x p.depths p.start p.divisions S = p.best.1 ∧
      ∀ fuel, p.best.2.1 < fuel → Traces p (backtrack p.table fuel p.best.2.1 p.best.2.2 p.stop) S)) := by
  obtain ⟨b1, b2, b3⟩ := better_fold p p.ends (big, 0, 0)
  change p.best.1 ≤ _ at b1
  change ∀ ka ∈ p.ends, p.best.1 ≤ _ at b2
  change p.best = _ ∨ ∃ ka ∈ p.ends, p.best = _ at b3
  constructor
  · intro S k a h hk hd hlt
    obtain ⟨l1, l2, l3⟩ := h.lt hp
    obtain ⟨r, r1, r2, r3⟩ := backfilled_eq p hp S k a h hk
    have h1 := b2 (k, a) ((mem_ends p k a).2 ⟨hk, hd, l1⟩)
    simp only at h1
    have h2 := (table_spec p hp k a p.stop hk l1 l2 l3).1 S h (by linarith)
    linarith
  · rcases b3 with b3 | ⟨⟨k, a⟩, hka, b3⟩
    · exact Or.inl b3
    · by_cases hlt : p.best.1 < big
      · right
        refine ⟨hlt, ?_⟩
        rw [mem_ends] at hka
        obtain ⟨k1, k2, k3⟩ := hka
        rw [b3] at hlt ⊢
        simp only at hlt ⊢
        have hne : a ≠ p.stop := fun e => backfilled_ge p hp k a k1 k3 e hpos hlt
        have hrd : (read p.table k a p.stop).1 < big := lt_of_le_of_lt (backfilled_read p hp k a k1 hne) hlt
        obtain ⟨S, s1, s2, s3⟩ := (table_spec p hp k a p.stop k1 k3 hp.stop hne).2 hrd
        obtain ⟨r, r1, r2, r3⟩ := backfilled_eq p hp S k a s1 k1
        exact ⟨S, s1, k1, k2, by rw [r3, r2, s2], s3⟩
      · left
        have hmem := b3
        -- the fold only moves to values smaller than the initial one
        have key : ∀ (l : List (Nat × Nat)) (cur : K × Nat × Nat), (cur = (big, 0, 0) ∨ cur.1 < big) →
            (l.foldl p.better cur = (big, 0, 0) ∨ (l.foldl p.better cur).1 < big) := by
          intro l
          induction l with
          | nil => intro cur h; exact h
          | cons ka l ih =>
            intro cur h
            rw [List.foldl_cons]
            apply ih
            unfold Dp.better
            split
            · rename_i h'
              right
              rcases h with rfl | h
              · exact h'
              · exact h'.trans h
            · exact h
        rcases key p.ends (big, 0, 0) (Or.inl rfl) with h | h
        · exact h
        · exact absurd h hlt

end Verif.Grating.General
