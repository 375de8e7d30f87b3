import Verif.Opt.Descent
import Verif.Opt.ParamProps
import Mathlib.Tactic.Linarith
import Mathlib.Tactic.FieldSimp
import Mathlib.Tactic.Ring
import Mathlib.Algebra.Order.Archimedean.Basic
/-
Properties C32 (adaptive gradient descent), C33 (number of iterations) and C58 (gradient-based optimizers keep
parametrizations feasible).
-/
namespace Verif.Opt
variable {P S : Type}

/-! ### C33: number of iterations -/

/-- `t 0, t 1, ..., t k` are the states during `k` iterations from iteration `n` on; `b i` is what the `i`th returned. -/
def Steps (iterate : Nat → S → Out S) (n : Nat) (t : Nat → S) (b : Nat → Bool) (k : Nat) : Prop :=
  ∀ i < k, iterate (n + i) (t i) = .done (t (i + 1)) (b i)

/-- The states `t 1, ..., t k`. -/
def statesUpTo (t : Nat → S) (k : Nat) : List S := (List.range k).map fun i => t (i + 1)

theorem truthy_pos {t : Int} (h : t ≠ 0) : truthy (some t) = some t := by simp [truthy, h]

theorem optLoop_steps (iterate : Nat → S → Out S) (st : Option Int) :
    ∀ (k fuel n : Nat) (t : Nat → S) (b : Nat → Bool) (tr : List S), Steps iterate n t b (k + 1) →
    (∀ i < k, b i = false ∧ reached st (n + i + 1) = false) →
    (b k = true ∨ reached st (n + k + 1) = true) → k + 1 ≤ fuel →
    optLoop iterate st fuel n (t 0) tr = .done (t (k + 1), n + k + 1, tr ++ statesUpTo t (k + 1)) (b k) := by
  intro k
  induction k with
  | zero =>
    intro fuel n t b tr hs _ hend hf
    obtain ⟨f, rfl⟩ : ∃ f, fuel = f + 1 := ⟨fuel - 1, by omega⟩
    have h0 := hs 0 (by omega)
    rw [Nat.add_zero] at h0
    unfold optLoop
    rw [h0]
    show (if reached st (n + 1) then _ else _) = _
    by_cases hr : reached st (n + 1) = true
    · rw [if_pos hr]; rfl
    · rw [if_neg hr]
      have hb : b 0 = true := by
        rcases hend with h | h
        · exact h
        · exact absurd h hr
      rw [if_pos hb]; rfl
  | succ k ih =>
    intro fuel n t b tr hs hc hend hf
    obtain ⟨f, rfl⟩ : ∃ f, fuel = f + 1 := ⟨fuel - 1, by omega⟩
    have h0 := hs 0 (by omega)
    rw [Nat.add_zero] at h0
    unfold optLoop
    rw [h0]
    show (if reached st (n + 1) then _ else _) = _
    obtain ⟨hb, hr⟩ := hc 0 (by omega)
    rw [Nat.add_zero] at hr
    rw [if_neg (by rw [hr]; simp), if_neg (by rw [hb]; simp)]
    have := ih f (n + 1) (fun i => t (i + 1)) (fun i => b (i + 1)) (tr ++ [t 1])
      (fun i hi => by
        have := hs (i + 1) (by omega)
        rw [show n + 1 + i = n + (i + 1) by omega]; exact this)
      (fun i hi => by
        have := hc (i + 1) (by omega)
        rw [show n + 1 + i + 1 = n + (i + 1) + 1 by omega]; exact this)
      (by rw [show n + 1 + k + 1 = n + (k + 1) + 1 by omega]; exact hend) (by omega)
    rw [this, show n + 1 + k + 1 = n + (k + 1) + 1 by omega]
    have hst : tr ++ [t 1] ++ statesUpTo (fun i => t (i + 1)) (k + 1) = tr ++ statesUpTo t (k + 1 + 1) := by
      unfold statesUpTo
      rw [List.range_succ_eq_map (n := k + 1)]
      simp [List.map_map, Function.comp]
    rw [hst]

/-- C33: `optimize(iters=m)` performs exactly `m` iterations, if none of them (but possibly the last) reports
convergence and the global maximum leaves room for them. The callback sees the state after each of them. Missing
(see below): a request of zero, and a global maximum that is already reached. -/
theorem optimize_exact_partial (iterate : Nat → S → Out S) (n m fuel : Nat) (maxIters : Option Int) (t : Nat → S)
    (b : Nat → Bool) (hm : 0 < m) (hs : Steps iterate n t b m) (hb : ∀ i, i + 1 < m → b i = false)
    (hmax : ∀ M, maxIters = some M → M = 0 ∨ (n + m : Int) ≤ M) (hf : m ≤ fuel) :
    optimize iterate fuel (some m) maxIters n (t 0) = .done (t m, n + m, statesUpTo t m) (b (m - 1)) := by
  obtain ⟨k, rfl⟩ : ∃ k, m = k + 1 := ⟨m - 1, by omega⟩
  have hst : stopIterOf n (some ((k + 1 : Nat) : Int)) maxIters = some ((n : Int) + (k + 1 : Nat)) := by
    unfold stopIterOf
    rw [truthy_pos (by omega)]
    cases maxIters with
    | none => rfl
    | some M =>
      by_cases h0 : M = 0
      · rw [h0]; rfl
      · rw [truthy_pos h0]
        have := hmax M rfl
        show some (min _ _) = _
        rw [min_eq_left (by omega)]
  unfold optimize
  rw [hst]
  have := optLoop_steps iterate (some ((n : Int) + (k + 1 : Nat))) k fuel n t b [] hs
    (fun i hi => ⟨hb i (by omega), by simp [reached]; omega⟩)
    (.inr (by simp [reached]; omega)) hf
  rw [this]
  rfl

/-- C33: with a global maximum `M` that is not yet reached, `optimize` stops there. -/
theorem optimize_max (iterate : Nat → S → Out S) (n M m fuel : Nat) (iters : Option Int) (t : Nat → S)
    (b : Nat → Bool) (hM : n < M) (hm : m = M - n) (hs : Steps iterate n t b m) (hb : ∀ i, i + 1 < m → b i = false)
    (hit : ∀ a, iters = some a → a = 0 ∨ (M : Int) ≤ n + a) (hf : m ≤ fuel) :
    optimize iterate fuel iters (some M) n (t 0) = .done (t m, M, statesUpTo t m) (b (m - 1)) := by
  obtain ⟨k, rfl⟩ : ∃ k, m = k + 1 := ⟨m - 1, by omega⟩
  have hst : stopIterOf n iters (some (M : Int)) = some (M : Int) := by
    unfold stopIterOf
    rw [truthy_pos (by omega)]
    cases iters with
    | none => rfl
    | some a =>
      by_cases h0 : a = 0
      · rw [h0]; rfl
      · rw [truthy_pos h0]
        have := hit a rfl
        show some (min _ _) = _
        rw [min_eq_right (by omega)]
  unfold optimize
  rw [hst]
  have := optLoop_steps iterate (some (M : Int)) k fuel n t b [] hs
    (fun i hi => ⟨hb i (by omega), by simp [reached]; omega⟩)
    (.inr (by simp [reached]; omega)) hf
  rw [this, show n + k + 1 = M by omega]
  rfl

/-- C33: `optimize` stops at the first iteration that reports convergence. -/
theorem optimize_converged (iterate : Nat → S → Out S) (n k fuel : Nat) (iters maxIters : Option Int) (t : Nat → S)
    (b : Nat → Bool) (hs : Steps iterate n t b (k + 1)) (hb : ∀ i < k, b i = false) (hk : b k = true)
    (hit : ∀ a, iters = some a → a = 0 ∨ (k : Int) < a) (hmax : ∀ M, maxIters = some M → M = 0 ∨ (n + k : Int) < M)
    (hf : k + 1 ≤ fuel) :
    optimize iterate fuel iters maxIters n (t 0) = .done (t (k + 1), n + k + 1, statesUpTo t (k + 1)) true := by
  have hr : ∀ i < k, reached (stopIterOf n iters maxIters) (n + i + 1) = false := by
    intro i hi
    unfold stopIterOf truthy
    cases iters with
    | none =>
      cases maxIters with
      | none => rfl
      | some M =>
        by_cases h0 : M = 0
        · simp [h0, reached]
        · have := hmax M rfl
          simp [h0, reached]; omega
    | some a =>
      have ha := hit a rfl
      by_cases h0 : a = 0
      · cases maxIters with
        | none => simp [h0, reached]
        | some M =>
          by_cases h1 : M = 0
          · simp [h0, h1, reached]
          · have := hmax M rfl
            simp [h0, h1, reached]; omega
      · cases maxIters with
        | none => simp [h0, reached]; omega
        | some M =>
          by_cases h1 : M = 0
          · simp [h0, h1, reached]; omega
          · have := hmax M rfl
            simp [h0, h1, reached]; omega
  unfold optimize
  rw [optLoop_steps iterate _ k fuel n t b [] hs (fun i hi => ⟨hb i hi, hr i hi⟩) (.inl hk) hf, hk]
  rfl

/-- C33: two requests in a row are one request for the sum. -/
theorem optimize_split (iterate : Nat → S → Out S) (n a c fuel : Nat) (t : Nat → S) (b : Nat → Bool)
    (ha : 0 < a) (hc : 0 < c) (hs : Steps iterate n t b (a + c)) (hb : ∀ i < a + c, b i = false) (hf : a + c ≤ fuel) :
    ∃ s1 n1 tr1, optimize iterate fuel (some a) none n (t 0) = .done (s1, n1, tr1) false ∧
      ∃ s2 n2 tr2, optimize iterate fuel (some c) none n1 s1 = .done (s2, n2, tr2) false ∧
        optimize iterate fuel (some (a + c : Nat)) none n (t 0) = .done (s2, n2, tr1 ++ tr2) false := by
  have h1 := optimize_exact_partial iterate n a fuel none t b ha (fun i hi => hs i (by omega))
    (fun i hi => hb i (by omega)) (by simp) (by omega)
  have h2 := optimize_exact_partial iterate (n + a) c fuel none (fun i => t (a + i)) (fun i => b (a + i)) hc
    (fun i hi => by
      have := hs (a + i) (by omega)
      rw [Nat.add_assoc]; exact this)
    (fun i hi => hb (a + i) (by omega)) (by simp) (by omega)
  have h3 := optimize_exact_partial iterate n (a + c) fuel none t b (by omega) hs
    (fun i hi => hb i (by omega)) (by simp) (by omega)
  rw [hb (a - 1) (by omega)] at h1
  have hb2 : b (a + (c - 1)) = false := hb _ (by omega)
  simp only [hb2] at h2
  rw [hb (a + c - 1) (by omega)] at h3
  refine ⟨_, _, _, h1, _, _, _, h2, ?_⟩
  rw [h3, Nat.add_assoc]
  have : statesUpTo t (a + c) = statesUpTo t a ++ statesUpTo (fun i => t (a + i)) c := by
    unfold statesUpTo
    rw [List.range_add, List.map_append, List.map_map]
    rfl
  rw [this]

/-- A counter. -/
def counter : Nat → Nat → Out Nat := fun _ s => .done (s + 1) false

example : optimize counter 10 (some 3) none 5 0 = .done (3, 8, [1, 2, 3]) false := by rfl
example : Steps counter 5 (fun i => i) (fun _ => false) 3 := fun _ _ => rfl

/-- Violation: a request for zero iterations performs at least one. -/
theorem optimize_zero_false (iterate : Nat → S → Out S) (fuel n : Nat) (maxIters : Option Int) (s s' : S) (n' : Nat)
    (tr : List S) (stop : Bool) (h : optimize iterate fuel (some 0) maxIters n s = .done (s', n', tr) stop) :
    n + 1 ≤ n' := by
  have key : ∀ (fuel n : Nat) (s : S) (tr0 : List S) (st : Option Int),
      optLoop iterate st fuel n s tr0 = .done (s', n', tr) stop → n + 1 ≤ n' := by
    intro fuel
    induction fuel with
    | zero => intro n s tr0 st h; cases h
    | succ f ih =>
      intro n s tr0 st h
      unfold optLoop at h
      split at h
      · cases h
      · cases h
      · simp only at h
        split at h
        · cases h; omega
        · split at h
          · cases h; omega
          · have := ih _ _ _ _ h; omega
  exact key fuel n s [] _ h

/-- Violation: without a global maximum and convergence it never ends. -/
theorem optimize_zero_forever_false (fuel n : Nat) (s : Nat) :
    ∃ r, optimize counter fuel (some 0) none n s = .more r := by
  have key : ∀ (fuel n s : Nat) (tr : List Nat), ∃ r, optLoop counter none fuel n s tr = .more r := by
    intro fuel
    induction fuel with
    | zero => intro n s tr; exact ⟨_, rfl⟩
    | succ f ih => intro n s tr; exact ih (n + 1) (s + 1) (tr ++ [s + 1])
  exact key fuel n s []

/-- Violation: when the global maximum is already reached, one more iteration is performed. -/
theorem optimize_beyond_max_false (fuel n s : Nat) (M : Nat) (hM : 0 < M) (hn : M ≤ n) :
    optimize counter (fuel + 1) none (some M) n s = .done (s + 1, n + 1, [s + 1]) false := by
  unfold optimize optLoop
  have : stopIterOf n none (some (M : Int)) = some (M : Int) := by
    simp only [stopIterOf]
    rw [truthy_pos (by omega)]
    rfl
  rw [this]
  show (if reached (some (M : Int)) (n + 1) = true then _ else _) = _
  rw [if_pos (by simp [reached]; omega)]
  rfl

/-! ### C32: adaptive gradient descent -/

/-- `decode` of the vector read before a trial step restores the object. -/
def Restores (m : Methods P) : Prop := ∀ p old v p1 p2, m.encode p = some old → m.decode p v = some p1 →
  m.project p1 = some p2 → m.decode p2 old = some p

theorem direct_restores : Restores directMethods := by
  intro p old v p1 p2 h1 h2 h3
  cases h1
  cases h2
  obtain ⟨_, _, h4, h5, _⟩ := direct_project_some h3
  show some (⟨p.vector, p2.lower, p2.upper⟩ : Direct) = some p
  rw [h4, h5]

theorem agdLoop_inv (c : Prob P) (k : AgdCfg) (hr : Restores c.m) (g : List ℝ) : ∀ (fuel : Nat) (s : Agd P),
    c.obj s.param = some s.objVal →
    (∀ s' b, agdLoop c k g fuel s = .done s' b → c.obj s'.param = some s'.objVal ∧ s'.objVal ≤ s.objVal) ∧
    (∀ s', agdLoop c k g fuel s = .more s' → s'.param = s.param ∧ s'.objVal = s.objVal) := by
  intro fuel
  induction fuel with
  | zero =>
    intro s _
    exact ⟨fun s' b h => (by cases h), fun s' h => (by cases h; exact ⟨rfl, rfl⟩)⟩
  | succ f ih =>
    intro s hs
    unfold agdLoop
    split
    · exact ⟨fun s' b h => (by cases h), fun s' h => (by cases h)⟩
    rename_i old ho
    split
    · exact ⟨fun s' b h => (by cases h), fun s' h => (by cases h)⟩
    rename_i new hn
    split
    · exact ⟨fun s' b h => (by cases h), fun s' h => (by cases h)⟩
    rename_i p1 h1
    split
    · exact ⟨fun s' b h => (by cases h), fun s' h => (by cases h)⟩
    rename_i p2 h2
    split
    · exact ⟨fun s' b h => (by cases h), fun s' h => (by cases h)⟩
    rename_i v hv
    split
    · rename_i hle
      refine ⟨fun s' b h => (by cases h; exact ⟨hv, hle⟩), fun s' h => (by cases h)⟩
    · rw [hr _ _ _ _ _ ho h1 h2]
      simp only
      exact ih ⟨s.param, s.alpha * k.failure, s.objVal⟩ hs

/-- C32: an iteration that ends never increases the objective, and the recorded value is the objective at the current
parametrization. If it ends because the gradient is small, nothing has changed. -/
theorem agd_iteration (c : Prob P) (k : AgdCfg) (hr : Restores c.m) (fuel n : Nat) (s s' : Agd P) (stop : Bool)
    (hs : c.obj s.param = some s.objVal) (h : agdIterate c k fuel n s = .done s' stop) :
    c.obj s'.param = some s'.objVal ∧ s'.objVal ≤ s.objVal ∧ (stop = true → s' = s) := by
  unfold agdIterate at h
  split at h
  · cases h
  · rename_i g hg
    split at h
    · cases h; exact ⟨hs, le_refl _, fun _ => rfl⟩
    · obtain ⟨h1, h2⟩ := (agdLoop_inv c k hr g fuel s hs).1 s' stop h
      refine ⟨h1, h2, fun hst => ?_⟩
      subst hst
      exfalso
      have key : ∀ (fuel : Nat) (s : Agd P), agdLoop c k g fuel s ≠ .done s' true := by
        intro fuel
        induction fuel with
        | zero => intro s h; cases h
        | succ f ih =>
          intro s h
          unfold agdLoop at h
          repeat' split at h
          all_goals first | (cases h) | exact ih _ h
      exact key fuel s h

/-- C32: as long as no trial step was successful, the parametrization and the recorded value are as before. -/
theorem agd_failed_steps (c : Prob P) (k : AgdCfg) (hr : Restores c.m) (fuel n : Nat) (s s' : Agd P)
    (hs : c.obj s.param = some s.objVal) (h : agdIterate c k fuel n s = .more s') :
    s'.param = s.param ∧ s'.objVal = s.objVal := by
  unfold agdIterate at h
  split at h
  · cases h
  · split at h
    · cases h
    · exact (agdLoop_inv c k hr _ fuel s hs).2 s' h

/-- C32: over a whole run the recorded values after the iterations never increase, and each is the objective at the
parametrization the callback sees. -/
theorem agd_run (c : Prob P) (k : AgdCfg) (hr : Restores c.m) (f fuel n : Nat) (iters maxIters : Option Int)
    (p : P) (alpha : ℝ) (s s' : Agd P) (n' : Nat) (tr : List (Agd P)) (stop : Bool)
    (h0 : mkAgd c p alpha = some s)
    (h : optimize (agdIterate c k f) fuel iters maxIters n s = .done (s', n', tr) stop) :
    c.obj p = some s.objVal ∧ tr.length = n' - n ∧ tr.getLast? = some s' ∧
    (∀ x ∈ tr, c.obj x.param = some x.objVal) ∧ List.Pairwise (fun x y => y.objVal ≤ x.objVal) (s :: tr) := by
  have hs : c.obj s.param = some s.objVal ∧ s.param = p := by
    unfold mkAgd at h0
    cases hv : c.obj p with
    | none => rw [hv] at h0; cases h0
    | some v => rw [hv] at h0; cases h0; exact ⟨hv, rfl⟩
  have key : ∀ (fuel n : Nat) (s : Agd P) (tr0 : List (Agd P)) (st : Option Int), c.obj s.param = some s.objVal →
      optLoop (agdIterate c k f) st fuel n s tr0 = .done (s', n', tr) stop →
      ∃ tr1, tr = tr0 ++ tr1 ∧ n' = n + tr1.length ∧ tr1.getLast? = some s' ∧
        (∀ x ∈ tr1, c.obj x.param = some x.objVal) ∧ List.Pairwise (fun x y => y.objVal ≤ x.objVal) (s :: tr1) := by
    intro fuel
    induction fuel with
    | zero => intro n s tr0 st _ h; cases h
    | succ g ih =>
      intro n s tr0 st hs h
      unfold optLoop at h
      split at h
      · cases h
      · cases h
      · rename_i s1 b hit
        obtain ⟨h1, h2, _⟩ := agd_iteration c k hr f n s s1 b hs hit
        simp only at h
        split at h
        · cases h
          exact ⟨[s'], rfl, rfl, rfl, by simpa using h1, by simpa using h2⟩
        · split at h
          · cases h
            exact ⟨[s'], rfl, rfl, rfl, by simpa using h1, by simpa using h2⟩
          · obtain ⟨tr1, ht, hn, hl, ho, hp⟩ := ih _ _ _ _ h1 h
            refine ⟨s1 :: tr1, by rw [ht]; simp, by rw [hn]; simp; omega, ?_, ?_, ?_⟩
            · rw [List.getLast?_cons, hl]; rfl
            · intro x hx
              rcases List.mem_cons.1 hx with rfl | hx
              · exact h1
              · exact ho x hx
            · rw [List.pairwise_cons]
              refine ⟨fun x hx => ?_, hp⟩
              rw [List.pairwise_cons] at hp
              rcases List.mem_cons.1 hx with rfl | hx
              · exact h2
              · exact (hp.1 x hx).trans h2
  obtain ⟨tr1, ht, hn, hl, ho, hp⟩ := key fuel n s [] _ hs.1 h
  rw [List.nil_append] at ht
  subst ht
  exact ⟨by rw [← hs.2]; exact hs.1, by omega, hl, ho, hp⟩

/-- The value after a trial step of size `a` from `p`. -/
def trial (c : Prob P) (p : P) (g : List ℝ) (a : ℝ) : Option ℝ :=
  ((c.m.encode p).bind fun v => vzip (fun x y => x - a * y) v g).bind fun v =>
    (c.m.decode p v).bind fun p1 => (c.m.project p1).bind c.obj

/-- C32: an iteration ends, if sufficiently small steps do not increase the objective. -/
theorem agd_ends (c : Prob P) (k : AgdCfg) (hr : Restores c.m) (n : Nat) (s : Agd P) (g : List ℝ)
    (hg : c.grad s.param = some g) (ha : 0 < s.alpha) (h0 : 0 < k.failure) (h1 : k.failure < 1)
    (hdef : ∀ a, 0 < a → (trial c s.param g a).isSome) (d : ℝ) (hd : 0 < d)
    (hdesc : ∀ a v, 0 < a → a < d → trial c s.param g a = some v → v ≤ s.objVal) :
    ∃ fuel s' stop, agdIterate c k fuel n s = .done s' stop := by
  by_cases hb : normBelow g k.tol
  · exact ⟨0, s, true, by unfold agdIterate; rw [hg]; simp [hb]⟩
  obtain ⟨N, hN⟩ := exists_pow_lt_of_lt_one (y := k.failure) (x := d / s.alpha) (by positivity) h1
  suffices h : ∀ (N : Nat) (a : ℝ), 0 < a → a * k.failure ^ N < d →
      ∃ fuel s' stop, agdLoop c k g fuel ⟨s.param, a, s.objVal⟩ = .done s' stop by
    obtain ⟨fuel, s', stop, h⟩ := h N s.alpha ha (by rw [lt_div_iff₀ ha] at hN; linarith)
    exact ⟨fuel, s', stop, by unfold agdIterate; rw [hg]; simp only [hb]; exact h⟩
  have step : ∀ a, 0 < a → ∃ old new p1 p2 v, c.m.encode s.param = some old ∧
      vzip (fun x y => x - a * y) old g = some new ∧ c.m.decode s.param new = some p1 ∧
      c.m.project p1 = some p2 ∧ c.obj p2 = some v ∧ trial c s.param g a = some v := by
    intro a ha
    obtain ⟨v, hv⟩ := Option.isSome_iff_exists.1 (hdef a ha)
    have hv' := hv
    unfold trial at hv
    cases h1 : c.m.encode s.param with
    | none => rw [h1] at hv; cases hv
    | some old =>
      rw [h1] at hv
      simp only [Option.bind_some] at hv
      cases h2 : vzip (fun x y => x - a * y) old g with
      | none => rw [h2] at hv; cases hv
      | some new =>
        rw [h2] at hv
        simp only [Option.bind_some] at hv
        cases h3 : c.m.decode s.param new with
        | none => rw [h3] at hv; cases hv
        | some p1 =>
          rw [h3] at hv
          simp only [Option.bind_some] at hv
          cases h4 : c.m.project p1 with
          | none => rw [h4] at hv; cases hv
          | some p2 =>
            rw [h4] at hv
            exact ⟨old, new, p1, p2, v, rfl, h2, h3, h4, hv, hv'⟩
  intro N
  induction N with
  | zero =>
    intro a ha had
    obtain ⟨old, new, p1, p2, v, h1, h2, h3, h4, h5, h6⟩ := step a ha
    refine ⟨1, ⟨p2, a * k.success, v⟩, false, ?_⟩
    unfold agdLoop
    simp only [h1, h2, h3, h4, h5]
    rw [if_pos (hdesc a v ha (by simpa using had) h6)]
  | succ N ih =>
    intro a ha had
    obtain ⟨old, new, p1, p2, v, h1, h2, h3, h4, h5, h6⟩ := step a ha
    by_cases hle : v ≤ s.objVal
    · refine ⟨1, ⟨p2, a * k.success, v⟩, false, ?_⟩
      unfold agdLoop
      simp only [h1, h2, h3, h4, h5]
      rw [if_pos hle]
    · obtain ⟨fuel, s', stop, h⟩ := ih (a * k.failure) (by positivity) (by rw [pow_succ] at had; linarith)
      refine ⟨fuel + 1, s', stop, ?_⟩
      unfold agdLoop
      simp only [h1, h2, h3, h4, h5]
      rw [if_neg hle, hr _ _ _ _ _ h1 h3 h4]
      exact h

/-- Minimise `(x - 3)²` over `[0, 1]`. -/
noncomputable def squareProb : Prob Direct where
  m := directMethods
  obj p := some ((p.vector.headD 0 - 3) ^ 2)
  grad p := some (p.vector.map fun x => 2 * (x - 3))

example : Restores squareProb.m ∧ mkAgd squareProb (mkDirect [0] (some (.number 0, .number 1))) 1 =
    some ⟨mkDirect [0] (some (.number 0, .number 1)), 1, 9⟩ :=
  ⟨direct_restores, by simp only [mkAgd, squareProb, mkDirect, Option.map]; norm_num⟩

theorem clip_le_one (x : ℝ) : clip1 x (some 0) (some 1) ≤ 1 := clip1_hi _ _ _

/-- Violation: an iteration need not end. Started outside the bounds, every trial step is projected and increases the
objective, and shrinking the step does not help. -/
theorem agd_ends_false (k : AgdCfg) (ht : k.tol ≤ 1) (n fuel : Nat) (alpha : ℝ) :
    ∃ s s', mkAgd squareProb (mkDirect [2] (some (.number 0, .number 1))) alpha = some s ∧
      agdIterate squareProb k fuel n s = .more s' := by
  refine ⟨⟨mkDirect [2] (some (.number 0, .number 1)), alpha, 1⟩, ?_⟩
  have h0 : mkAgd squareProb (mkDirect [2] (some (.number 0, .number 1))) alpha =
      some ⟨mkDirect [2] (some (.number 0, .number 1)), alpha, 1⟩ := by
    simp only [mkAgd, squareProb, mkDirect, Option.map]; norm_num
  have key : ∀ (fuel : Nat) (a : ℝ), ∃ s', agdLoop squareProb k [-2] fuel
      ⟨mkDirect [2] (some (.number 0, .number 1)), a, 1⟩ = .more s' := by
    intro fuel
    induction fuel with
    | zero => intro a; exact ⟨_, rfl⟩
    | succ f ih =>
      intro a
      obtain ⟨s', h⟩ := ih (a * k.failure)
      refine ⟨s', ?_⟩
      unfold agdLoop
      have he : squareProb.m.encode (mkDirect [2] (some (.number 0, .number 1))) = some [2] := rfl
      have hz : vzip (fun x y => x - a * y) [2] [-2] = some [2 - a * -2] := rfl
      have hd : squareProb.m.decode (mkDirect [2] (some (.number 0, .number 1))) [2 - a * -2] =
        some ⟨[2 - a * -2], .tuple [some 0], .tuple [some 1]⟩ := rfl
      have hp : squareProb.m.project ⟨[2 - a * -2], .tuple [some 0], .tuple [some 1]⟩ =
          some ⟨[clip1 (2 - a * -2) (some 0) (some 1)], .tuple [some 0], .tuple [some 1]⟩ :=
        direct_project_eq ⟨[2 - a * -2], .tuple [some 0], .tuple [some 1]⟩ ⟨rfl, rfl⟩
      have ho : squareProb.obj ⟨[clip1 (2 - a * -2) (some 0) (some 1)], .tuple [some 0], .tuple [some 1]⟩ =
        some ((clip1 (2 - a * -2) (some 0) (some 1) - 3) ^ 2) := rfl
      simp only [he, hz, hd, hp, ho]
      have := clip_le_one (2 - a * -2)
      rw [if_neg (by nlinarith)]
      exact h
  obtain ⟨s', h⟩ := key fuel alpha
  refine ⟨s', h0, ?_⟩
  unfold agdIterate
  have hg : squareProb.grad (mkDirect [2] (some (.number 0, .number 1))) = some [-2] := by
    simp only [squareProb, mkDirect, List.map]; norm_num
  have hnb : normBelow [-2] k.tol = false := by
    unfold normBelow
    simp only [List.map_cons, List.map_nil, List.sum_cons, List.sum_nil, decide_eq_false_iff_not]
    rintro ⟨h1, h2⟩
    nlinarith
  simp only [hg, hnb]
  exact h

/-- Violation: when the objective raises at a trial step, the parametrization stays at the trial step. -/
theorem agd_raise_false : ∃ (c : Prob Direct) (s s' : Agd Direct) (k : AgdCfg),
    Restores c.m ∧ c.obj s.param = some s.objVal ∧ agdIterate c k 1 0 s = .raised s' ∧ s'.param.vector ≠ s.param.vector := by
  classical
  refine ⟨⟨directMethods, fun p => if p.vector = [1] then some 0 else none, fun _ => some [1]⟩,
    ⟨mkDirect [1] none, 1, 0⟩, ⟨⟨[0], .tuple [none], .tuple [none]⟩, 1, 0⟩, ⟨1, 1, 0⟩, direct_restores, ?_, ?_, ?_⟩
  · simp [mkDirect]
  · unfold agdIterate
    have hnb : normBelow [1] 0 = false := by simp [normBelow]
    simp only [hnb, agdLoop]
    have hz : vzip (fun x y => x - (1 : ℝ) * y) [1] [1] = some [0] := by simp [vzip]
    have he : directMethods.encode (mkDirect [1] none) = some [1] := rfl
    have hd : directMethods.decode (mkDirect [1] none) [0] = some ⟨[0], .tuple [none], .tuple [none]⟩ := rfl
    have hp : directMethods.project ⟨[0], .tuple [none], .tuple [none]⟩ = some ⟨[0], .tuple [none], .tuple [none]⟩ :=
      direct_project_eq ⟨[0], .tuple [none], .tuple [none]⟩ ⟨rfl, rfl⟩
    simp only [he, hz, hd, hp]
    simp
  · simp [mkDirect]

/-! ### C58: all optimizers keep parametrizations feasible -/

theorem takeStep_project {c : Prob P} {p p' : P} {st : List ℝ} (h : takeStep c p st = some p') :
    ∃ q, c.m.project q = some p' := by
  unfold takeStep at h
  cases h1 : (c.m.toVector p).bind fun v => vzip (fun x y => x - y) v st with
  | none => rw [h1] at h; cases h
  | some v =>
    rw [h1] at h
    replace h : (c.m.decode p v).bind c.m.project = some p' := h
    cases h2 : c.m.decode p v with
    | none => rw [h2] at h; cases h
    | some q => rw [h2] at h; exact ⟨q, h⟩

/-- What an iteration leaves is either what `project` returned or (adaptive descent at convergence) what was there. -/
def Projects (m : Methods P) (param : S → P) (iterate : Nat → S → Out S) : Prop :=
  ∀ n s s' stop, iterate n s = .done s' stop → s' = s ∨ ∃ q, m.project q = some (param s')

theorem gd_projects (c : Prob P) (alpha : ℝ) : Projects c.m id (gdIterate c alpha) := by
  intro n s s' stop h
  unfold gdIterate at h
  repeat' split at h
  all_goals first
    | (cases h; done)
    | (cases h; exact .inr ⟨_, by assumption⟩)

theorem agd_projects (c : Prob P) (k : AgdCfg) (f : Nat) : Projects c.m Agd.param (agdIterate c k f) := by
  intro n s s' stop h
  unfold agdIterate at h
  split at h
  · cases h
  · split at h
    · cases h; exact .inl rfl
    · right
      rename_i g _ _
      have key : ∀ (fuel : Nat) (s : Agd P), agdLoop c k g fuel s = .done s' stop → ∃ q, c.m.project q = some s'.param := by
        intro fuel
        induction fuel with
        | zero => intro s h; cases h
        | succ f ih =>
          intro s h
          unfold agdLoop at h
          repeat' split at h
          all_goals first
            | (cases h; done)
            | exact ih _ h
            | (cases h; exact ⟨_, by assumption⟩)
      exact key f s h

theorem adagrad_projects (c : Prob P) (alpha : ℝ) : Projects c.m Acc1.param (adagradIterate c alpha) := by
  intro n s s' stop h
  unfold adagradIterate at h
  split at h
  · cases h
  split at h
  · cases h
  split at h
  · cases h
  rename_i g _ _ a _ _ p hp
  cases h
  cases hz : vzip (fun x y => alpha * x / Real.sqrt (y + 1e-6)) g a with
  | none => rw [hz] at hp; cases hp
  | some st => rw [hz] at hp; exact .inr (takeStep_project hp)

theorem rms_projects (c : Prob P) (alpha gamma : ℝ) : Projects c.m Acc1.param (rmsIterate c alpha gamma) := by
  intro n s s' stop h
  unfold rmsIterate at h
  split at h
  · cases h
  split at h
  · cases h
  split at h
  · cases h
  rename_i g _ _ a _ _ p hp
  cases h
  cases hz : vzip (fun x y => alpha * x / Real.sqrt (y + 1e-6)) g a with
  | none => rw [hz] at hp; cases hp
  | some st => rw [hz] at hp; exact .inr (takeStep_project hp)

theorem adam_projects (c : Prob P) (alpha b1 b2 : ℝ) : Projects c.m AdamS.param (adamIterate c alpha b1 b2) := by
  intro n s s' stop h
  unfold adamIterate at h
  split at h
  · cases h
  split at h
  · simp only at h
    split at h
    · cases h
    rename_i m v _ _ _ p hp
    cases h
    cases hz : vzip (fun x y => alpha * x / (Real.sqrt y + 1e-8)) (m.map (· / (1 - b1 ^ (n + 1))))
        (v.map (· / (1 - b2 ^ (n + 1)))) with
    | none => rw [hz] at hp; cases hp
    | some st => rw [hz] at hp; exact .inr (takeStep_project hp)
  · cases h

theorem nag_projects (c : Prob P) (alpha gamma : ℝ) : Projects c.m Acc1.param (nagIterate c alpha gamma) := by
  intro n s s' stop h
  unfold nagIterate at h
  split at h
  · cases h
  split at h
  · cases h
  split at h
  · cases h
  split at h
  · cases h
  rename_i p hp
  cases h
  exact .inr (takeStep_project hp)

/-- C58: if `project` leaves only feasible parametrizations and an optimizer starts at a feasible one, then the
parametrization is feasible after every iteration. -/
theorem run_feasible (m : Methods P) (param : S → P) (iterate : Nat → S → Out S) (Feasible : P → Prop)
    (hp : Projects m param iterate) (hm : ∀ p q, m.project p = some q → Feasible q)
    (fuel n : Nat) (iters maxIters : Option Int) (s s' : S) (n' : Nat) (tr : List S) (stop : Bool)
    (hs : Feasible (param s)) (h : optimize iterate fuel iters maxIters n s = .done (s', n', tr) stop) :
    Feasible (param s') ∧ ∀ x ∈ tr, Feasible (param x) := by
  have step : ∀ n s s' b, Feasible (param s) → iterate n s = .done s' b → Feasible (param s') := by
    intro n s s' b hs h
    rcases hp n s s' b h with rfl | ⟨q, hq⟩
    · exact hs
    · exact hm _ _ hq
  have key : ∀ (fuel n : Nat) (s : S) (tr0 : List S) (st : Option Int), Feasible (param s) →
      (∀ x ∈ tr0, Feasible (param x)) → optLoop iterate st fuel n s tr0 = .done (s', n', tr) stop →
      Feasible (param s') ∧ ∀ x ∈ tr, Feasible (param x) := by
    intro fuel
    induction fuel with
    | zero => intro n s tr0 st _ _ h; cases h
    | succ f ih =>
      intro n s tr0 st hs ht h
      unfold optLoop at h
      split at h
      · cases h
      · cases h
      · rename_i s1 b hit
        have h1 := step _ _ _ _ hs hit
        have h2 : ∀ x ∈ tr0 ++ [s1], Feasible (param x) := by
          intro x hx
          rcases List.mem_append.1 hx with hx | hx
          · exact ht x hx
          · rw [List.mem_singleton] at hx; rw [hx]; exact h1
        simp only at h
        split at h
        · cases h; exact ⟨h1, h2⟩
        · split at h
          · cases h; exact ⟨h1, h2⟩
          · exact ih _ _ _ _ h1 h2 h
  exact key fuel n s [] _ hs (by simp) h

/-- C58 for `DirectParam` and gradient descent: every iterate lies within the bounds. -/
theorem direct_run_within (obj : Direct → Option ℝ) (grad : Direct → Option (List ℝ)) (alpha : ℝ) (fuel n : Nat)
    (iters maxIters : Option Int) (s s' : Direct) (n' : Nat) (tr : List Direct) (stop : Bool)
    (hc : Consistent s.lower s.upper) (hs : Within s.vector s.lower s.upper)
    (h : optimize (gdIterate ⟨directMethods, obj, grad⟩ alpha) fuel iters maxIters n s = .done (s', n', tr) stop) :
    ∀ x ∈ s' :: tr, Within x.vector s.lower s.upper := by
  have key : ∀ (fuel n : Nat) (x : Direct) (tr0 : List Direct) (st : Option Int),
      (∀ y ∈ x :: tr0, Within y.vector s.lower s.upper ∧ y.lower = s.lower ∧ y.upper = s.upper) →
      optLoop (gdIterate ⟨directMethods, obj, grad⟩ alpha) st fuel n x tr0 = .done (s', n', tr) stop →
      ∀ y ∈ s' :: tr, Within y.vector s.lower s.upper ∧ y.lower = s.lower ∧ y.upper = s.upper := by
    intro fuel
    induction fuel with
    | zero => intro n x tr0 st _ h; cases h
    | succ f ih =>
      intro n x tr0 st hx h
      unfold optLoop at h
      split at h
      · cases h
      · cases h
      · rename_i s1 b hit
        have h1 : Within s1.vector s.lower s.upper ∧ s1.lower = s.lower ∧ s1.upper = s.upper := by
          unfold gdIterate at hit
          split at hit
          · cases hit
          split at hit
          · cases hit
          split at hit
          · cases hit
          rename_i v _ p1 hd
          cases hd
          split at hit
          · cases hit
          rename_i p2 hp
          cases hit
          obtain ⟨_, hl, hu⟩ := hx x (by simp)
          obtain ⟨_, _, h3, h4, _⟩ := direct_project_some hp
          have h5 := direct_project_within _ _ hp (by
            show Consistent x.lower x.upper
            rw [hl, hu]; exact hc)
          refine ⟨?_, h3.trans hl, h4.trans hu⟩
          have h6 : Within s1.vector x.lower x.upper := h5
          rwa [hl, hu] at h6
        have h2 : ∀ y ∈ s1 :: (tr0 ++ [s1]), Within y.vector s.lower s.upper ∧ y.lower = s.lower ∧ y.upper = s.upper := by
          intro y hy
          rcases List.mem_cons.1 hy with rfl | hy
          · exact h1
          rcases List.mem_append.1 hy with hy | hy
          · exact hx y (List.mem_cons_of_mem _ hy)
          · rw [List.mem_singleton] at hy; rw [hy]; exact h1
        simp only at h
        split at h
        · cases h; exact h2
        · split at h
          · cases h; exact h2
          · exact ih _ _ _ _ h2 h
  intro x hx
  exact (key fuel n s [] _ (by
    intro y hy
    rw [List.mem_singleton] at hy
    rw [hy]; exact ⟨hs, rfl, rfl⟩) h x hx).1

end Verif.Opt
