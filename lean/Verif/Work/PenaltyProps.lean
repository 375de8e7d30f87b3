import Verif.Work.Penalty
import Mathlib.Tactic.Linarith
/-
Property C107: the transformation with penalties, and resuming it.
-/
namespace Verif.Work.Penalty

variable {Val Mem : Type}

/-! ### Specification -/

/-- Entries of the log that were written while optimizing: their iterations count on from `i`, and each names its cycle, from cycle
`k` on and never going back, and the penalty factor `mu0 ** (tau ** cycle)` of that cycle. -/
def Schedule (c : Cfg) (i k : Nat) (es : List (Event × Val)) : Prop :=
  ∃ cs : List Nat, cs.length = es.length ∧ cs.Pairwise (· ≤ ·) ∧ (∀ a ∈ cs, k ≤ a ∧ a < c.numCycles) ∧
    ∀ j (h : j < es.length), ∃ w a, cs[j]? = some a ∧ es[j] = (Event.optimizing (i + j + 1) a (c.mu0 ^ c.tau ^ a), w)

/-- The minimiser of a cycle keeps nothing from one step to the next. -/
def Memoryless (inner : Inner Val Mem) : Prop :=
  ∀ mu ftol m x, inner.step mu ftol m x = inner.step mu ftol (inner.setup mu ftol x) x

/-- It does not change the number of slack variables. -/
def KeepsSlack (inner : Inner Val Mem) : Prop :=
  ∀ mu ftol m x m' x', inner.step mu ftol m x = some (m', x') → x'.slack.length = x.slack.length

/-- Every cycle converges before it reaches the limit of iterations. -/
def Converges (inner : Inner Val Mem) (c : Cfg) : Prop := ∀ k mu x, (cycle inner c k mu x).length < c.maxiter

/-! ### Lemmas -/

theorem points_length_le (inner : Inner Val Mem) (mu ftol : ℝ) (n : Nat) (m : Mem) (x : Point Val) :
    (points inner mu ftol n m x).length ≤ n := by
  induction n generalizing m x with
  | zero => simp [points]
  | succ n ih =>
    rw [points]
    split
    · simp
    · simpa using ih _ _

theorem points_fuel (inner : Inner Val Mem) (mu ftol : ℝ) (n : Nat) (m : Mem) (x : Point Val)
    (h : (points inner mu ftol n m x).length < n) (d : Nat) : points inner mu ftol (n + d) m x = points inner mu ftol n m x := by
  induction n generalizing m x with
  | zero => simp at h
  | succ n ih =>
    rw [Nat.succ_add, points, points]
    rw [points] at h
    split
    · rfl
    · next m' x' hs =>
      rw [hs] at h
      rw [ih m' x' (by simpa using h)]

theorem points_memoryless {inner : Inner Val Mem} (hm : Memoryless inner) (mu ftol : ℝ) (n : Nat) (m : Mem) (x : Point Val) :
    points inner mu ftol n m x = points inner mu ftol n (inner.setup mu ftol x) x := by
  cases n with
  | zero => rfl
  | succ n => rw [points, points, hm]

theorem points_split (inner : Inner Val Mem) (mu ftol : ℝ) (n : Nat) (m : Mem) (x : Point Val) (A B : List (Point Val))
    (y : Point Val) (h : points inner mu ftol n m x = A ++ y :: B) :
    ∃ m', A.length + 1 ≤ n ∧ points inner mu ftol (n - (A.length + 1)) m' y = B := by
  induction n generalizing m x A with
  | zero => simp [points] at h
  | succ n ih =>
    rw [points] at h
    split at h
    · simp at h
    · next m' x' hs =>
      cases A with
      | nil =>
        simp only [List.nil_append, List.cons.injEq] at h
        obtain ⟨rfl, h⟩ := h
        exact ⟨m', by simp, by simpa using h⟩
      | cons a A =>
        simp only [List.cons_append, List.cons.injEq] at h
        obtain ⟨m'', h1, h2⟩ := ih m' x' A h.2
        refine ⟨m'', by simpa using h1, ?_⟩
        rw [← h2]; congr 1; simp

theorem points_slack {inner : Inner Val Mem} (hk : KeepsSlack inner) (mu ftol : ℝ) (n : Nat) (m : Mem) (x : Point Val) :
    ∀ y ∈ points inner mu ftol n m x, y.slack.length = x.slack.length := by
  induction n generalizing m x with
  | zero => simp [points]
  | succ n ih =>
    intro y hy
    rw [points] at hy
    split at hy
    · simp at hy
    · next m' x' hs =>
      have h1 := hk _ _ _ _ _ _ hs
      rcases List.mem_cons.1 hy with rfl | hy
      · exact h1
      · rw [ih m' x' y hy, h1]

theorem cycle_rest {inner : Inner Val Mem} {c : Cfg} (hm : Memoryless inner) (hc : Converges inner c) (k : Nat) (mu : ℝ)
    (x y : Point Val) (A B : List (Point Val)) (h : cycle inner c k mu x = A ++ y :: B) : cycle inner c k mu y = B := by
  have hl := hc k mu x
  rw [h] at hl
  rw [cycle] at h
  obtain ⟨m', h1, h2⟩ := points_split _ _ _ _ _ _ _ _ _ h
  rw [points_memoryless hm] at h2
  rw [cycle]
  have hlen : (points inner mu (tol c k) (c.maxiter - (A.length + 1)) (inner.setup mu (tol c k) y) y).length <
      c.maxiter - (A.length + 1) := by
    rw [h2]; simp at hl; omega
  have := points_fuel _ _ _ _ _ _ hlen (A.length + 1)
  rw [Nat.sub_add_cancel h1] at this
  rw [this, h2]

theorem cycles_rest {inner : Inner Val Mem} {c : Cfg} (hm : Memoryless inner) (hc : Converges inner c) (n a : Nat) (mu0 : ℝ)
    (x0 : Point Val) (l1 l2 : List (Nat × ℝ × Point Val)) (k : Nat) (mu : ℝ) (x : Point Val)
    (h : (cycles inner c (List.range' a n) mu0 x0).1 = l1 ++ (k, mu, x) :: l2) :
    cycles inner c (List.range' k (a + n - k)) mu x = (l2, (cycles inner c (List.range' a n) mu0 x0).2) := by
  induction n generalizing a mu0 x0 l1 with
  | zero => simp [cycles] at h
  | succ n ih =>
    rw [List.range'_succ] at h ⊢
    simp only [cycles] at h ⊢
    have step : ∀ l1', (cycles inner c (List.range' (a + 1) n) (mu0 ^ c.tau) ((cycle inner c a mu0 x0).getLastD x0)).1 =
        l1' ++ (k, mu, x) :: l2 → cycles inner c (List.range' k (a + (n + 1) - k)) mu x =
        (l2, (cycles inner c (List.range' (a + 1) n) (mu0 ^ c.tau) ((cycle inner c a mu0 x0).getLastD x0)).2) := by
      intro l1' h'
      rw [show a + (n + 1) - k = a + 1 + n - k by omega]
      exact ih _ _ _ _ h'
    rcases List.append_eq_append_iff.1 h with ⟨as, h1, h2⟩ | ⟨as, h1, h2⟩
    · exact step as h2
    · cases as with
      | nil => exact step [] (by simpa using h2.symm)
      | cons b as =>
        simp only [List.cons_append, List.cons.injEq] at h2
        obtain ⟨rfl, h2⟩ := h2
        obtain ⟨A, B', hcy, hA, hB⟩ := List.map_eq_append_iff.1 h1
        obtain ⟨y, B, rfl, hy, hB2⟩ := List.map_eq_cons_iff.1 hB
        simp only [Prod.mk.injEq] at hy
        obtain ⟨rfl, rfl, rfl⟩ := hy
        have hrest := cycle_rest hm hc _ _ _ _ _ _ hcy
        rw [show a + (n + 1) - a = n + 1 by omega, List.range'_succ]
        simp only [cycles]
        rw [hrest, hcy]
        have hlast : (A ++ y :: B).getLastD x0 = B.getLastD y := by
          rw [List.getLastD_eq_getLast?, List.getLastD_eq_getLast?, List.getLast?_append]
          cases B with
          | nil => simp
          | cons b B => simp [List.getLast?_cons]
        rw [hlast, hB2, h2, hcy, hlast]

theorem cycles_slack {inner : Inner Val Mem} {c : Cfg} (hk : KeepsSlack inner) (ks : List Nat) (mu : ℝ) (x : Point Val) :
    ∀ e ∈ (cycles inner c ks mu x).1, e.2.2.slack.length = x.slack.length := by
  induction ks generalizing mu x with
  | nil => simp [cycles]
  | cons k ks ih =>
    intro e he
    simp only [cycles] at he
    rcases List.mem_append.1 he with he | he
    · obtain ⟨y, hy, rfl⟩ := List.mem_map.1 he
      exact points_slack hk _ _ _ _ _ y hy
    · rw [ih _ _ e he]
      have : ∀ l : List (Point Val), (∀ y ∈ l, y.slack.length = x.slack.length) →
          (l.getLastD x).slack.length = x.slack.length := by
        intro l hl
        cases h : l.getLast? with
        | none => rw [List.getLastD_eq_getLast?, h]; rfl
        | some z => rw [List.getLastD_eq_getLast?, h]; exact hl z (List.mem_of_getLast? h)
      exact this _ (points_slack hk _ _ _ _ _)

theorem count_split (i : Nat) (l : List (Nat × ℝ × Point Val)) (B A : List (Event × Val)) (e : Event) (w : Val)
    (h : count i l = B ++ (e, w) :: A) :
    ∃ l1 k mu x l2, l = l1 ++ (k, mu, x) :: l2 ∧ x.val = w ∧ e = .optimizing (i + l1.length + 1) k mu ∧
      A = count (i + l1.length + 1) l2 := by
  induction l generalizing i B with
  | nil => simp [count] at h
  | cons a l ih =>
    obtain ⟨k, mu, x⟩ := a
    rw [count] at h
    cases B with
    | nil =>
      simp only [List.nil_append, List.cons.injEq, Prod.mk.injEq] at h
      exact ⟨[], k, mu, x, l, rfl, h.1.2, h.1.1.symm, h.2.symm⟩
    | cons b B =>
      simp only [List.cons_append, List.cons.injEq] at h
      obtain ⟨l1, k', mu', x', l2, h1, h2, h3, h4⟩ := ih (i + 1) B h.2
      refine ⟨(k, mu, x) :: l1, k', mu', x', l2, by rw [h1]; rfl, h2, ?_, ?_⟩
      · rw [h3]; congr 1; simp; omega
      · rw [h4]; congr 1; simp; omega

theorem cycles_weights {inner : Inner Val Mem} {c : Cfg} (hmu : 0 ≤ c.mu0) (n a : Nat) (x : Point Val) :
    ((cycles inner c (List.range' a n) (c.mu0 ^ c.tau ^ a) x).1.map (·.1)).Pairwise (· ≤ ·) ∧
    ∀ e ∈ (cycles inner c (List.range' a n) (c.mu0 ^ c.tau ^ a) x).1, a ≤ e.1 ∧ e.1 < a + n ∧ e.2.1 = c.mu0 ^ c.tau ^ e.1 := by
  induction n generalizing a x with
  | zero => simp [cycles]
  | succ n ih =>
    rw [List.range'_succ]
    simp only [cycles]
    have hpow : (c.mu0 ^ c.tau ^ a) ^ c.tau = c.mu0 ^ c.tau ^ (a + 1) := by
      rw [← Real.rpow_mul hmu, pow_succ]
    rw [hpow]
    obtain ⟨h1, h2⟩ := ih (a + 1) ((cycle inner c a (c.mu0 ^ c.tau ^ a) x).getLastD x)
    constructor
    · rw [List.map_append, List.pairwise_append, List.map_map]
      refine ⟨?_, h1, ?_⟩
      · exact List.pairwise_of_forall_mem_list fun p hp q hq => by
          obtain ⟨y, _, rfl⟩ := List.mem_map.1 hp
          obtain ⟨z, _, rfl⟩ := List.mem_map.1 hq
          exact le_refl a
      · intro p hp q hq
        obtain ⟨y, _, rfl⟩ := List.mem_map.1 hp
        obtain ⟨z, hz, rfl⟩ := List.mem_map.1 hq
        have := (h2 z hz).1
        show a ≤ z.1
        omega
    · intro e he
      rcases List.mem_append.1 he with he | he
      · obtain ⟨y, _, rfl⟩ := List.mem_map.1 he
        exact ⟨le_refl _, by show a < _; omega, rfl⟩
      · obtain ⟨g1, g2, g3⟩ := h2 e he
        exact ⟨by omega, by omega, g3⟩

theorem count_get (i : Nat) (l : List (Nat × ℝ × Point Val)) :
    (count i l).length = l.length ∧ ∀ j (h : j < (count i l).length) (h' : j < l.length),
      (count i l)[j] = (Event.optimizing (i + j + 1) l[j].1 l[j].2.1, l[j].2.2.val) := by
  induction l generalizing i with
  | nil => simp [count]
  | cons a l ih =>
    obtain ⟨k, mu, x⟩ := a
    refine ⟨by simp [count, (ih (i + 1)).1], ?_⟩
    intro j h h'
    cases j with
    | zero => simp [count]
    | succ j =>
      simp only [count, List.getElem_cons_succ]
      rw [(ih (i + 1)).2 j (by simpa [count] using h) (by simpa using h')]
      congr 2; omega

theorem schedule_of_cycles {inner : Inner Val Mem} {c : Cfg} (hmu : 0 ≤ c.mu0) (i a : Nat) (x : Point Val) :
    Schedule c i a (count i (cycles inner c (List.range' a (c.numCycles - a)) (c.mu0 ^ c.tau ^ a) x).1) := by
  obtain ⟨h1, h2⟩ := cycles_weights (inner := inner) hmu (c.numCycles - a) a x
  set l := (cycles inner c (List.range' a (c.numCycles - a)) (c.mu0 ^ c.tau ^ a) x).1 with hl
  obtain ⟨g1, g2⟩ := count_get i l
  refine ⟨l.map (·.1), by rw [g1, List.length_map], h1, ?_, ?_⟩
  · intro b hb
    obtain ⟨e, he, rfl⟩ := List.mem_map.1 hb
    obtain ⟨q1, q2, _⟩ := h2 e he
    exact ⟨q1, by omega⟩
  · intro j hj
    have hj' : j < l.length := by rw [← g1]; exact hj
    refine ⟨l[j].2.2.val, l[j].1, by simp [hj'], ?_⟩
    rw [g2 j hj hj', (h2 _ (List.getElem_mem hj')).2.2]

/-! ### C107 -/

/-- C107: a run writes its starting value, the iterations with their cycles and penalty factors, and its final value, which the
parametrization has afterwards. -/
theorem penalty_run_log (inner : Inner Val Mem) (c : Cfg) (hmu : 0 ≤ c.mu0) (ns : Nat) (v : Val) :
    ∃ es, (run inner c ns true v none).1 = (.start, v) :: es ++ [(.finish, (run inner c ns true v none).2)] ∧ Schedule c 0 0 es := by
  refine ⟨_, rfl, ?_⟩
  have := schedule_of_cycles (inner := inner) hmu 0 0 ⟨v, List.replicate ns 0⟩
  rw [pow_zero, Real.rpow_one] at this
  exact this

/-- C107: a run that is resumed after any iteration goes on with the cycle and the penalty factor of that iteration, and with the
factors of the original run for the cycles that follow; it counts its iterations on. -/
theorem penalty_resume_schedule (inner : Inner Val Mem) (c : Cfg) (hmu : 0 ≤ c.mu0) (ns : Nat) (v : Val) (i k : Nat) (mu : ℝ) (w : Val)
    (he : (Event.optimizing i k mu, w) ∈ (run inner c ns true v none).1) :
    ∃ es, (run inner c ns true w (some (.optimizing i k mu))).1 =
        es ++ [(.finish, (run inner c ns true w (some (.optimizing i k mu))).2)] ∧ Schedule c i k es := by
  have hmuk : mu = c.mu0 ^ c.tau ^ k := by
    obtain ⟨es, h1, cs, _, _, _, h5⟩ := penalty_run_log inner c hmu ns v
    rw [h1] at he
    simp only [List.cons_append, List.mem_cons, List.mem_append, List.not_mem_nil, or_false, Prod.mk.injEq, reduceCtorEq,
      false_and, false_or] at he
    obtain ⟨j, hj, hje⟩ := List.getElem_of_mem he
    obtain ⟨w', a, _, h6⟩ := h5 j hj
    rw [h6] at hje
    simp only [Prod.mk.injEq, Event.optimizing.injEq] at hje
    obtain ⟨⟨_, rfl, h⟩, _⟩ := hje
    exact h.symm
  refine ⟨_, rfl, ?_⟩
  subst hmuk
  exact schedule_of_cycles (inner := inner) hmu i k ⟨w, List.replicate ns 0⟩

/-- C107 (partial): without inequality constraints, with a minimiser that keeps nothing between steps and converges in each cycle,
stopping a run after any entry of its log and resuming it writes the remaining entries and ends with the same value. Missing: slack
variables (`penalty_resume_slack_false`) and cycles that end at the limit of iterations (`penalty_resume_limit_false`). -/
theorem penalty_resume_exact_partial (inner : Inner Val Mem) (c : Cfg) (hm : Memoryless inner) (hk : KeepsSlack inner)
    (hc : Converges inner c) (v : Val) (before after : List (Event × Val)) (e : Event) (w : Val)
    (h : (run inner c 0 true v none).1 = before ++ (e, w) :: after) :
    run inner c 0 true w (some e) = (after, (run inner c 0 true v none).2) := by
  have hit : (iterate inner c 0 true v none) = (count 0 (cycles inner c (List.range' 0 (c.numCycles - 0)) c.mu0 ⟨v, []⟩).1,
    (cycles inner c (List.range' 0 (c.numCycles - 0)) c.mu0 ⟨v, []⟩).2.val) := rfl
  simp only [run] at h
  have hfin : (run inner c 0 true v none).2 = (iterate inner c 0 true v none).2 := rfl
  rw [hfin]
  cases before with
  | nil =>
    simp only [List.cons_append, List.nil_append, List.cons.injEq, Prod.mk.injEq] at h
    obtain ⟨⟨rfl, rfl⟩, rfl⟩ := h
    rfl
  | cons b before =>
    simp only [List.cons_append, List.cons.injEq] at h
    obtain ⟨_, h⟩ := h
    rcases List.append_eq_append_iff.1 h with ⟨as, h1, h2⟩ | ⟨as, h1, h2⟩
    · cases as with
      | nil =>
        simp only [List.nil_append, List.cons.injEq, Prod.mk.injEq] at h2
        obtain ⟨⟨rfl, rfl⟩, rfl⟩ := h2
        rfl
      | cons a as => simp at h2
    · cases as with
      | nil =>
        simp only [List.nil_append, List.cons.injEq, Prod.mk.injEq] at h2
        obtain ⟨⟨rfl, rfl⟩, rfl⟩ := h2
        rfl
      | cons a as =>
        simp only [List.cons_append, List.cons.injEq] at h2
        obtain ⟨rfl, rfl⟩ := h2
        rw [hit] at h1
        obtain ⟨l1, k, mu, x, l2, g1, g2, g3, g4⟩ := count_split _ _ _ _ _ _ h1
        have hsl : x.slack.length = 0 := by
          have := cycles_slack hk (List.range' 0 (c.numCycles - 0)) c.mu0 (⟨v, []⟩ : Point Val) (k, mu, x) (by rw [g1]; simp)
          simpa using this
        have hx : x = ⟨w, []⟩ := by
          cases x with
          | mk xv xs => simp only at g2 hsl; rw [List.length_eq_zero_iff.1 hsl, g2]
        have hrest := cycles_rest hm hc _ _ _ _ _ _ _ _ _ g1
        rw [hx, show 0 + (c.numCycles - 0) - k = c.numCycles - k by omega] at hrest
        rw [g3, g4, hit]
        simp only [run, iterate, if_true, List.replicate_zero]
        rw [hrest]

/-- C107 (partial): the same after any number of interruptions: a resumed run can be stopped and resumed again. -/
theorem penalty_resume_again_partial (inner : Inner Val Mem) (c : Cfg) (hm : Memoryless inner) (hk : KeepsSlack inner)
    (hc : Converges inner c) (v : Val) (stops : List (Event × Val)) (before after : List (Event × Val)) (s : Event × Val)
    (hs : ∀ pre a b post, stops ++ [s] = pre ++ a :: b :: post →
      ∃ p q, (run inner c 0 true a.2 (some a.1)).1 = p ++ b :: q)
    (h0 : ∃ p q, (run inner c 0 true v none).1 = p ++ (stops ++ [s]).head (by simp) :: q)
    (h : (run inner c 0 true s.2 (some s.1)).1 = before ++ after) :
    (run inner c 0 true s.2 (some s.1)).2 = (run inner c 0 true v none).2 ∧
      ∃ p, (run inner c 0 true v none).1 = p ++ after := by
  have key : ∀ (stops : List (Event × Val)) (s : Event × Val),
      (∀ pre a b post, stops ++ [s] = pre ++ a :: b :: post → ∃ p q, (run inner c 0 true a.2 (some a.1)).1 = p ++ b :: q) →
      (∃ p q, (run inner c 0 true v none).1 = p ++ (stops ++ [s]).head (by simp) :: q) →
      ∃ p q, (run inner c 0 true v none).1 = p ++ s :: q := by
    intro stops
    induction stops with
    | nil => intro s _ h0; simpa using h0
    | cons a l ih =>
      intro s hs h0
      obtain ⟨p, q, h0⟩ := h0
      simp only [List.cons_append, List.head_cons] at h0
      refine ih s (fun pre b d post hp => hs (a :: pre) b d post (by rw [List.cons_append, hp]; rfl)) ?_
      obtain ⟨b, post, hb⟩ : ∃ b post, l ++ [s] = b :: post := by
        cases l with
        | nil => exact ⟨s, [], rfl⟩
        | cons d l => exact ⟨d, l ++ [s], rfl⟩
      obtain ⟨p', q', h'⟩ := hs [] a b post (by rw [List.cons_append, hb]; rfl)
      have := penalty_resume_exact_partial inner c hm hk hc v p q a.1 a.2 h0
      rw [this] at h'
      simp only at h'
      refine ⟨p ++ a :: p', q', ?_⟩
      rw [h0, h']
      simp [hb]
  obtain ⟨p, q, hpq⟩ := key stops s hs h0
  have := penalty_resume_exact_partial inner c hm hk hc v p q s.1 s.2 hpq
  rw [this] at h ⊢
  refine ⟨rfl, p ++ s :: before, ?_⟩
  simp only at h
  rw [hpq, h]; simp

/-! ### Defects -/

/-- A minimiser that adds one unless the slack variable has been set, and sets it. -/
noncomputable def slackInner : Inner Nat Unit where
  setup := fun _ _ _ => ()
  step := fun _ _ _ x => open Classical in if x.slack = [1] then none else some ((), ⟨x.val + 1, [1]⟩)

/-- C107 (refuted): the slack variables are not saved. A run with one inequality constraint that converges after one iteration is
resumed after it: the slack variable is zero again, another iteration is made, and the value at the end differs. -/
theorem penalty_resume_slack_false :
    ∃ (c : Cfg) (before after : List (Event × Nat)) (e : Event) (w : Nat), Memoryless slackInner ∧
      (∀ mu x, (cycle slackInner c 0 mu x).length < c.maxiter) ∧ c.numCycles = 1 ∧
      (run slackInner c 1 true 0 none).1 = before ++ (e, w) :: after ∧
      (run slackInner c 1 true 0 none).2 = 1 ∧ (run slackInner c 1 true w (some e)).2 = 2 := by
  have hp : ∀ mu ftol m (x : Point Nat), points slackInner mu ftol 5 m x = if x.slack = [1] then [] else [⟨x.val + 1, [1]⟩] := by
    intro mu ftol m x
    by_cases h : x.slack = [1] <;> simp [points, slackInner, h]
  refine ⟨⟨2, 3 / 2, 0, 1, 5⟩, [(.start, 0)], [(.finish, 1)], .optimizing 1 0 2, 1, fun _ _ _ _ => rfl, ?_, rfl, ?_, ?_, ?_⟩
  · intro mu x
    show (points slackInner mu _ 5 _ x).length < 5
    rw [hp]; split <;> simp
  all_goals simp [run, iterate, cycles, cycle, hp, count]

/-- A minimiser that never converges. -/
def endless : Inner Nat Unit where
  setup := fun _ _ _ => ()
  step := fun _ _ _ x => some ((), ⟨x.val + 1, x.slack⟩)

/-- C107 (refuted): the iterations of the interrupted cycle are not counted: a cycle of at most two iterations that is resumed after
its first makes three. -/
theorem penalty_resume_limit_false :
    ∃ (c : Cfg) (before after : List (Event × Nat)) (e : Event) (w : Nat), Memoryless endless ∧ KeepsSlack endless ∧
      c.numCycles = 1 ∧ c.maxiter = 2 ∧ (run endless c 0 true 0 none).1 = before ++ (e, w) :: after ∧
      (run endless c 0 true 0 none).2 = 2 ∧ (run endless c 0 true w (some e)).2 = 3 := by
  refine ⟨⟨2, 3 / 2, 0, 1, 2⟩, [(.start, 0)], [(.optimizing 2 0 2, 2), (.finish, 2)], .optimizing 1 0 2, 1, fun _ _ _ _ => rfl, ?_,
    rfl, rfl, ?_, ?_, ?_⟩
  · intro mu ftol m x m' x' h
    simp only [endless, Option.some.injEq, Prod.mk.injEq] at h
    rw [← h.2]
  all_goals simp [run, iterate, cycles, cycle, points, endless, count]

/-- C107: options that are not zero are used as given. -/
theorem penalty_options (mu0 tau ftol : ℝ) (n m : Nat) (h1 : mu0 ≠ 0) (h2 : tau ≠ 0) (h3 : ftol ≠ 0) (h4 : n ≠ 0) (h5 : m ≠ 0) :
    mkCfg ⟨some mu0, some tau, some ftol, some n, some m⟩ = ⟨mu0, tau, ftol, n, m⟩ := by
  simp [mkCfg, getR, getN, h1, h2, h3, h4, h5]

/-- C107 (refuted): an option that is zero is dropped: asking for no cycles runs ten of them, and a tolerance of zero is `1e-9`. -/
theorem penalty_zero_option_false (o : Options) (h1 : o.numCycles = some 0) (h2 : o.ftol = some 0) :
    (mkCfg o).numCycles = 10 ∧ (mkCfg o).ftol = 1 / 10 ^ 9 := by
  simp [mkCfg, getR, getN, h1, h2]

/-- Two minimisers do the same in every cycle if they do the same for the penalty factors `mu0 ** (tau ** k)` with tolerances that
shrink by a factor of 100, from 1/100 in the first cycle down to the tolerance that was asked for. -/
def SameSchedule (c : Cfg) (inner inner' : Inner Val Mem) : Prop :=
  ∀ k, k < c.numCycles → inner.setup (c.mu0 ^ c.tau ^ k) (max ((1 / 100) * (1 / 100) ^ k) c.ftol) = inner'.setup (c.mu0 ^ c.tau ^ k)
      (max ((1 / 100) * (1 / 100) ^ k) c.ftol) ∧
    inner.step (c.mu0 ^ c.tau ^ k) (max ((1 / 100) * (1 / 100) ^ k) c.ftol) = inner'.step (c.mu0 ^ c.tau ^ k)
      (max ((1 / 100) * (1 / 100) ^ k) c.ftol)

theorem points_congr {inner inner' : Inner Val Mem} {mu ftol : ℝ} (h : inner.step mu ftol = inner'.step mu ftol) (n : Nat) (m : Mem)
    (x : Point Val) : points inner mu ftol n m x = points inner' mu ftol n m x := by
  induction n generalizing m x with
  | zero => rfl
  | succ n ih =>
    rw [points, points, h]
    cases inner'.step mu ftol m x with
    | none => rfl
    | some r => simp [ih]

theorem cycles_congr {inner inner' : Inner Val Mem} {c : Cfg} (hmu : 0 ≤ c.mu0) (h : SameSchedule c inner inner') (n k : Nat)
    (hn : k + n ≤ c.numCycles) (x : Point Val) :
    cycles inner c (List.range' k n) (c.mu0 ^ c.tau ^ k) x = cycles inner' c (List.range' k n) (c.mu0 ^ c.tau ^ k) x := by
  induction n generalizing k x with
  | zero => rfl
  | succ n ih =>
    have ht : tol c k = max ((1 / 100) * (1 / 100) ^ k) c.ftol := by
      rw [tol, pow_succ, one_div_pow, one_div_mul_one_div, mul_comm]
    have hc : cycle inner c k (c.mu0 ^ c.tau ^ k) x = cycle inner' c k (c.mu0 ^ c.tau ^ k) x := by
      obtain ⟨h1, h2⟩ := h k (by omega)
      rw [cycle, cycle, ht, h1, points_congr h2]
    have hp : (c.mu0 ^ c.tau ^ k) ^ c.tau = c.mu0 ^ c.tau ^ (k + 1) := by
      rw [← Real.rpow_mul hmu, pow_succ]
    rw [List.range'_succ, cycles, cycles, hc]
    simp only [hp, ih (k + 1) (by omega)]

/-- C107: a fresh run uses, in its cycles, only the penalty factors `mu0 ** (tau ** k)` and tolerances that shrink by a factor of 100 from
1/100 on, down to the one asked for: what the minimiser does for others has no effect. -/
theorem penalty_cycle_settings {inner inner' : Inner Val Mem} {c : Cfg} (hmu : 0 ≤ c.mu0) (h : SameSchedule c inner inner')
    (numSlack : Nat) (callback : Bool) (v : Val) :
    run inner c numSlack callback v none = run inner' c numSlack callback v none := by
  have := cycles_congr hmu h c.numCycles 0 (by omega) ⟨v, List.replicate numSlack 0⟩
  rw [pow_zero, Real.rpow_one] at this
  simp only [run, iterate, Nat.sub_zero, this]

/-- Minimisers that differ for a tolerance of 1, which no cycle uses. -/
example : SameSchedule ⟨2, 3 / 2, 0, 3, 30⟩ (Mem := Unit) (Val := Nat) ⟨fun _ _ _ => (), fun _ t _ x => if t = 1 then none else some ((), x)⟩
    ⟨fun _ _ _ => (), fun _ _ _ x => some ((), x)⟩ := by
  intro k _
  refine ⟨rfl, ?_⟩
  funext m x
  have h1 : (1 / 100 : ℝ) ^ k ≤ 1 := pow_le_one₀ (by norm_num) (by norm_num)
  have h0 : (0 : ℝ) ≤ (1 / 100 : ℝ) ^ k := by positivity
  have : max ((1 / 100 : ℝ) * (1 / 100) ^ k) 0 ≠ 1 := by
    rw [max_eq_left (by positivity)]
    intro hc
    linarith
  simp only [if_neg this]

/-! ### The hypotheses are met -/

/-- A minimiser that adds one until ten is reached. -/
def toTen : Inner Nat Unit where
  setup := fun _ _ _ => ()
  step := fun _ _ _ x => if x.val < 10 then some ((), ⟨x.val + 1, x.slack⟩) else none

theorem toTen_length (mu ftol : ℝ) (n : Nat) (x : Point Nat) : (points toTen mu ftol n () x).length ≤ 10 - x.val := by
  induction n generalizing x with
  | zero => simp [points]
  | succ n ih =>
    rw [points]
    by_cases h : x.val < 10
    · simp only [toTen, h, if_true, List.length_cons]
      have := ih ⟨x.val + 1, x.slack⟩
      simp only [toTen] at this
      omega
    · simp [toTen, h]

example : Memoryless toTen ∧ KeepsSlack toTen ∧ Converges toTen ⟨2, 3 / 2, 0, 3, 30⟩ ∧
    (run toTen ⟨2, 3 / 2, 0, 3, 30⟩ 0 true 8 none).1 =
      [(.start, 8), (.optimizing 1 0 2, 9)] ++ (.optimizing 2 0 2, 10) :: [(.finish, 10)] := by
  refine ⟨fun _ _ _ _ => rfl, ?_, ?_, ?_⟩
  · intro mu ftol m x m' x' h
    simp only [toTen] at h
    split at h
    · simp only [Option.some.injEq, Prod.mk.injEq] at h
      rw [← h.2]
    · cases h
  · intro k mu x
    have := toTen_length mu (tol ⟨2, 3 / 2, 0, 3, 30⟩ k) 30 x
    show (points toTen mu _ 30 () x).length < 30
    omega
  · simp [run, iterate, cycles, cycle, points, toTen, count, List.range'_succ]

end Verif.Work.Penalty
