import Verif.Exec.Forward
/-
Property theorems about forward evaluation (C01, C02, C03, C06, C07).
-/
namespace Verif.Exec
variable {V : Type} [DecidableEq V] {α : Type}

/-! ### A small concrete graph used to show that hypotheses are satisfiable

`4 = out` uses node 3 twice and node 2; node 3 is heavy and uses 1; node 2 is light and
uses the variable 0 and 1; node 1 is heavy-free. -/

def exNet : Net Nat where
  inputs := fun v => if v = 4 then [3, 2, 3] else if v = 3 then [1] else if v = 2 then [0, 1]
    else if v = 1 then [0] else []
  heavy := fun v => v == 3

theorem exNet_acyclic : Acyclic exNet :=
  ⟨fun v => v, by
    intro v u hu
    show u < v
    unfold exNet at hu
    simp only at hu
    split at hu
    · simp at hu; omega
    · split at hu
      · simp at hu; omega
      · split at hu
        · simp at hu; omega
        · split at hu
          · simp at hu; omega
          · simp at hu⟩

theorem exNet_no_heavy_heavy : ∀ v, exNet.heavy v = true → ∀ u ∈ exNet.inputs v, exNet.heavy u = false := by
  intro v hv u hu
  simp only [exNet, beq_iff_eq] at hv
  subst hv
  simp [exNet] at hu
  subst hu
  rfl

def exOv : Nat → Option Int := fun v => if v = 0 then some 5 else none

/-! ### C02 -/

/-- **C02.** For every acyclic object graph, every heavy labelling and every set iteration
order, graph construction and sorting finish and give a list that contains every node
reachable from the outputs exactly once, nothing else, and in which every node comes after
all the nodes that use it. -/
theorem top_sort_is_topological {N : Net V} (hN : Acyclic N) (ord : List V → List V)
    (hord : ∀ l, (ord l).Perm l) (outs : List V) :
    ∃ n₀, ∀ n, n₀ ≤ n → ∃ g ts, createGraph N n outs = some g ∧
      topSort g N.heavy ord = some ts ∧
      ts.Nodup ∧ (∀ v, v ∈ ts ↔ Reach N outs v) ∧
      (∀ l₁ u l₂, ts = l₁ ++ u :: l₂ → ∀ v, Reach N outs v → u ∈ N.inputs v → v ∈ l₁) := by
  obtain ⟨n₀, h₀⟩ := createGraph_terminates hN outs
  refine ⟨n₀, fun n hn => ?_⟩
  obtain ⟨g, hg⟩ := h₀ n hn
  have hok := createGraph_ok hg
  obtain ⟨ts, h1, h2, h3, h4⟩ := topSort_spec hN hok N.heavy ord hord
  refine ⟨g, ts, hg, h1, h2, h3, ?_⟩
  intro l₁ u l₂ heq v hv hu
  have hvk := (hok.keys v).2 hv
  rw [List.mem_map] at hvk
  obtain ⟨e, he, rfl⟩ := hvk
  exact h4 l₁ u l₂ heq e he (by rw [hok.entries e he]; exact hu)

/-- The adjacency dictionary contains exactly the reachable nodes with their inputs
(with multiplicity and in order). -/
theorem create_graph_correct {N : Net V} (hN : Acyclic N) (outs : List V) :
    ∃ n₀, ∀ n, n₀ ≤ n → ∃ g, createGraph N n outs = some g ∧ (g.map Prod.fst).Nodup ∧
      (∀ v us, (v, us) ∈ g ↔ Reach N outs v ∧ us = N.inputs v) := by
  obtain ⟨n₀, h₀⟩ := createGraph_terminates hN outs
  refine ⟨n₀, fun n hn => ?_⟩
  obtain ⟨g, hg⟩ := h₀ n hn
  have hok := createGraph_ok hg
  refine ⟨g, hg, hok.nodup, fun v us => ⟨fun h => ?_, fun ⟨h1, h2⟩ => ?_⟩⟩
  · exact ⟨(hok.keys v).1 (List.mem_map_of_mem h), hok.entries _ h⟩
  · have := (hok.keys v).2 h1
    rw [List.mem_map] at this
    obtain ⟨⟨w, ws⟩, he, rfl⟩ := this
    have := hok.entries _ he
    simp only at this
    rw [h2, ← this]; exact he

example : Acyclic exNet ∧ ∀ l : List Nat, (List.reverse l).Perm l :=
  ⟨exNet_acyclic, List.reverse_perm⟩

/-! ### C01 -/

/-- Full statement of **C01** for the goos executor: evaluation succeeds and returns the
recursive values for every acyclic graph and heavy labelling. -/
def C01_full : Prop :=
  ∀ (N : Net Nat) (f : Nat → List Int → Int) (ov : Nat → Option Int) (ord : List Nat → List Nat)
    (outs : List Nat), Acyclic N → (∀ l, (ord l).Perm l) →
    ∃ n₀, ∀ n, n₀ ≤ n → ∃ vals trace, evalFun N f ord n ov outs = .ok (vals, trace) ∧
      vals.length = outs.length ∧ ∀ p ∈ outs.zip vals, Evals N f ov p.1 p.2

/-- **C01 (partial).** Missing w.r.t. the full statement: heavy nodes that directly use heavy
nodes, and overridden heavy nodes; both are really handled wrongly, see
`heavy_feeds_heavy_fails` and `override_of_heavy_node_ignored`. -/
theorem eval_fun_correct_partial {N : Net V} (hN : Acyclic N) (f : V → List α → α)
    (ov : V → Option α) (ord : List V → List V) (hord : ∀ l, (ord l).Perm l) (outs : List V)
    (hov : ∀ v, Reach N outs v → N.heavy v = true → ov v = none)
    (hhh : ∀ v, Reach N outs v → N.heavy v = true → ∀ u ∈ N.inputs v, N.heavy u = false) :
    ∃ n₀, ∀ n, n₀ ≤ n → ∃ vals trace, evalFun N f ord n ov outs = .ok (vals, trace) ∧
      vals.length = outs.length ∧ ∀ p ∈ outs.zip vals, Evals N f ov p.1 p.2 := by
  obtain ⟨n₀, h⟩ := evalFun_spec hN f ov ord hord outs hov hhh
  refine ⟨n₀, fun n hn => ?_⟩
  obtain ⟨vals, tr, h1, h2, h3, _⟩ := h n hn
  exact ⟨vals, tr, h1, h2, h3⟩

omit [DecidableEq V] in
/-- The specification determines the value: so the result above is independent of the order
oracle, of the heavy labelling and of the fuel. -/
theorem evals_deterministic {N : Net V} {f : V → List α → α} {ov : V → Option α} {v : V} {a b : α}
    (h1 : Evals N f ov v a) (h2 : Evals N f ov v b) : a = b := h1.unique h2

/-- Two runs with different heavy labellings and set orders agree. -/
theorem eval_fun_schedule_independent {N N' : Net V} (hN : Acyclic N) (hin : N'.inputs = N.inputs)
    (f : V → List α → α) (ov : V → Option α) (ord ord' : List V → List V)
    (hord : ∀ l, (ord l).Perm l) (hord' : ∀ l, (ord' l).Perm l) (outs : List V)
    (hov : ∀ v, N.heavy v = true ∨ N'.heavy v = true → ov v = none)
    (hhh : ∀ v, N.heavy v = true → ∀ u ∈ N.inputs v, N.heavy u = false)
    (hhh' : ∀ v, N'.heavy v = true → ∀ u ∈ N'.inputs v, N'.heavy u = false) :
    ∃ n₀, ∀ n m, n₀ ≤ n → n₀ ≤ m → ∃ vals tr tr', evalFun N f ord n ov outs = .ok (vals, tr) ∧
      evalFun N' f ord' m ov outs = .ok (vals, tr') := by
  have hN' : Acyclic N' := by
    obtain ⟨r, hr⟩ := hN; exact ⟨r, by rw [hin]; exact hr⟩
  obtain ⟨n₁, h₁⟩ := evalFun_spec hN f ov ord hord outs (fun v _ h => hov v (Or.inl h))
    (fun v _ => hhh v)
  obtain ⟨n₂, h₂⟩ := evalFun_spec hN' f ov ord' hord' outs (fun v _ h => hov v (Or.inr h))
    (fun v _ => hhh' v)
  refine ⟨max n₁ n₂, fun n m hn hm => ?_⟩
  obtain ⟨vals, tr, a1, a2, a3, _⟩ := h₁ n (by omega)
  obtain ⟨vals', tr', b1, b2, b3, _⟩ := h₂ m (by omega)
  have hE : ∀ v a, Evals N' f ov v a → Evals N f ov v a := by
    intro v a h
    induction h with
    | override h => exact Evals.override h
    | node h1 h2 _ ih => exact Evals.node h1 (by rw [h2, hin]) (by rw [← hin]; exact ih)
  have key : ∀ (o : List V) (vals vals' : List α), vals.length = o.length →
      vals'.length = o.length → (∀ p ∈ o.zip vals, Evals N f ov p.1 p.2) →
      (∀ p ∈ o.zip vals', Evals N' f ov p.1 p.2) → vals = vals' := by
    intro o
    induction o with
    | nil => intro x y h1 h2 _ _; simp at h1 h2; rw [h1, h2]
    | cons w ws ihw =>
      intro x y h1 h2 h3 h4
      cases x with
      | nil => simp at h1
      | cons c x =>
        cases y with
        | nil => simp at h2
        | cons d y =>
          have e3 : c = d := (h3 (w, c) (by simp)).unique (hE _ _ (h4 (w, d) (by simp)))
          rw [e3, ihw x y (by simpa using h1) (by simpa using h2)
            (fun p hp => h3 p (by simp [hp])) (fun p hp => h4 p (by simp [hp]))]
  have := key outs vals vals' a2 b2 a3 b3
  subst this
  exact ⟨vals, tr, tr', a1, b1⟩

/-- The hypotheses of `eval_fun_correct_partial` hold for the example graph (with sharing,
repeated inputs, a heavy node and an overridden variable). -/
example : Acyclic exNet ∧ (∀ v, Reach exNet [4] v → exNet.heavy v = true → exOv v = none) ∧
    (∀ v, Reach exNet [4] v → exNet.heavy v = true → ∀ u ∈ exNet.inputs v, exNet.heavy u = false) :=
  ⟨exNet_acyclic, fun v _ hv => by simp [exNet] at hv; subst hv; rfl,
    fun v _ => exNet_no_heavy_heavy v⟩

/-- Test (not a proof): the example evaluates as expected. -/
example : evalFun exNet (fun v as => as.sum + (v : Int)) id 10 exOv [4, 2] =
    .ok ([35, 13], [1, 3, 2, 4]) := by rfl

/-- A chain of two heavy nodes `0 -> 1`, output `1`. -/
def heavyChain : Net Nat where
  inputs := fun v => if v = 1 then [0] else []
  heavy := fun _ => true

/-- **Violation of C01**: when a heavy node directly uses another heavy node the two end up in
one block, all inputs of the block are read before any of its results is stored, and the
evaluation raises `KeyError` whatever the set order. -/
theorem heavy_feeds_heavy_fails (ord : List Nat → List Nat) (hord : ∀ l, (ord l).Perm l)
    (f : Nat → List Int → Int) (n : Nat) :
    evalFun heavyChain f ord (n + 2) (fun _ => none) [1] = .error (.keyError 0) := by
  have h0 : ord [0] = [0] := List.perm_singleton.1 (hord [0])
  have h1 : ord [1] = [1] := List.perm_singleton.1 (hord [1])
  have hg : createGraph heavyChain (n + 2) [1] = some [(1, [0]), (0, [])] := by
    cases n <;> rfl
  have ht : topSort [(1, [0]), (0, [])] heavyChain.heavy ord = some [1, 0] := by
    simp [topSort, outer, inner, countParents, upd, heavyChain, h1, h0, releaseAll, release, adj]
  simp only [evalFun, hg, ht]
  rfl

theorem C01_full_false : ¬ C01_full := by
  intro h
  obtain ⟨n₀, hn⟩ := h heavyChain (fun _ _ => 0) (fun _ => none) id [1]
    ⟨fun v => v, by
      intro v u hu
      show u < v
      unfold heavyChain at hu
      simp only at hu
      split at hu
      · simp at hu; omega
      · simp at hu⟩ (fun l => List.Perm.refl l)
  obtain ⟨vals, tr, h1, _⟩ := hn (n₀ + 2) (by omega)
  rw [heavy_feeds_heavy_fails id (fun l => List.Perm.refl l)] at h1
  cases h1

/-- **C01** for the invdes `eval_fun`: with at most one `Variable` reachable, the requested
values are those of the recursive semantics with the variable replaced by the structure;
with several it raises. (Same restriction on heavy nodes as above; in invdes a `Variable`
is never heavy.) -/
theorem invdes_eval_fun_correct_partial {N : Net V} (hN : Acyclic N) (isVar : V → Bool)
    (f : V → List α → α) (ord : List V → List V) (hord : ∀ l, (ord l).Perm l) (struct : α)
    (outs : List V) (hvar : ∀ v, isVar v = true → N.heavy v = false)
    (hhh : ∀ v, Reach N outs v → N.heavy v = true → ∀ u ∈ N.inputs v, N.heavy u = false) :
    ∃ n₀, ∀ n, n₀ ≤ n →
      ((∃ x y, x ≠ y ∧ Reach N outs x ∧ Reach N outs y ∧ isVar x = true ∧ isVar y = true) ∧
        evalFunInv N isVar f ord n struct outs = .error .multipleVariables) ∨
      ((∀ x y, Reach N outs x → Reach N outs y → isVar x = true → isVar y = true → x = y) ∧
        ∃ vals tr, evalFunInv N isVar f ord n struct outs = .ok (vals, tr) ∧
          vals.length = outs.length ∧
          ∀ p ∈ outs.zip vals, ∃ ov : V → Option α,
            (∀ v, Reach N outs v → ov v = if isVar v = true then some struct else none) ∧
            Evals N f ov p.1 p.2) := by
  obtain ⟨n₁, h₁⟩ := createGraph_terminates hN outs
  obtain ⟨n₂, h₂⟩ := evalFun_spec hN f (fun _ => none) ord hord outs (fun _ _ _ => rfl) hhh
  -- fuel for the variable case: the graph does not depend on the fuel once it suffices
  have key : ∀ x, isVar x = true →
      ∃ m, ∀ n, m ≤ n → ∃ vals tr,
        evalFun N f ord n (fun v => if v = x then some struct else none) outs = .ok (vals, tr) ∧
        vals.length = outs.length ∧
        ∀ p ∈ outs.zip vals, Evals N f (fun v => if v = x then some struct else none) p.1 p.2 := by
    intro x hx
    obtain ⟨m, h⟩ := evalFun_spec hN f (fun v => if v = x then some struct else none) ord hord outs
      (fun v _ hv => by
        by_cases h : v = x
        · subst h; rw [hvar v hx] at hv; cases hv
        · simp [h]) hhh
    refine ⟨m, fun n hn => ?_⟩
    obtain ⟨vals, tr, a, b, c, _⟩ := h n hn
    exact ⟨vals, tr, a, b, c⟩
  obtain ⟨g₁, hg₁⟩ := h₁ n₁ (Nat.le_refl _)
  have hok₁ := createGraph_ok hg₁
  -- a uniform bound over the (at most one) variable
  obtain ⟨n₃, h₃⟩ : ∃ n₃, ∀ x, Reach N outs x → isVar x = true → ∀ n, n₃ ≤ n → ∃ vals tr,
        evalFun N f ord n (fun v => if v = x then some struct else none) outs = .ok (vals, tr) ∧
        vals.length = outs.length ∧
        ∀ p ∈ outs.zip vals, Evals N f (fun v => if v = x then some struct else none) p.1 p.2 := by
    have : ∀ l : List V, ∃ n₃, ∀ x ∈ l, isVar x = true → ∀ n, n₃ ≤ n → ∃ vals tr,
        evalFun N f ord n (fun v => if v = x then some struct else none) outs = .ok (vals, tr) ∧
        vals.length = outs.length ∧
        ∀ p ∈ outs.zip vals, Evals N f (fun v => if v = x then some struct else none) p.1 p.2 := by
      intro l
      induction l with
      | nil => exact ⟨0, by simp⟩
      | cons y l ih =>
        obtain ⟨a, ha⟩ := ih
        by_cases hy : isVar y = true
        · obtain ⟨b, hb⟩ := key y hy
          refine ⟨max a b, fun x hx hv n hn => ?_⟩
          rcases List.mem_cons.1 hx with rfl | hx
          · exact hb n (by omega)
          · exact ha x hx hv n (by omega)
        · refine ⟨a, fun x hx hv n hn => ?_⟩
          rcases List.mem_cons.1 hx with rfl | hx
          · exact absurd hv hy
          · exact ha x hx hv n hn
    obtain ⟨n₃, h₃⟩ := this (g₁.map Prod.fst)
    exact ⟨n₃, fun x hx => h₃ x ((hok₁.keys x).2 hx)⟩
  refine ⟨max n₁ (max n₂ n₃), fun n hn => ?_⟩
  obtain ⟨g, hg⟩ := h₁ n (by omega)
  have hok := createGraph_ok hg
  have hfm : ∀ x, x ∈ (g.map Prod.fst).filter isVar ↔ Reach N outs x ∧ isVar x = true := by
    intro x; rw [List.mem_filter, hok.keys]
  have hfn : ((g.map Prod.fst).filter isVar).Nodup := List.Pairwise.filter _ hok.nodup
  match hl : (g.map Prod.fst).filter isVar with
  | [] =>
    right
    rw [hl] at hfm
    have hno : ∀ x, Reach N outs x → isVar x = true → False := by
      intro x h1 h2; simpa using (hfm x).2 ⟨h1, h2⟩
    refine ⟨fun x y hx _ hvx _ => (hno x hx hvx).elim, ?_⟩
    obtain ⟨vals, tr, a, b, c, _⟩ := h₂ n (by omega)
    refine ⟨vals, tr, by simp only [evalFunInv, hg, hl, a], b, fun p hp => ⟨fun _ => none, ?_, c p hp⟩⟩
    intro v hv
    by_cases h : isVar v = true
    · exact (hno v hv h).elim
    · simp [h]
  | [x] =>
    right
    rw [hl] at hfm
    have hx := (hfm x).1 (by simp)
    have huniq : ∀ y, Reach N outs y → isVar y = true → y = x := by
      intro y h1 h2; simpa using (hfm y).2 ⟨h1, h2⟩
    refine ⟨fun y z hy hz hvy hvz => by rw [huniq y hy hvy, huniq z hz hvz], ?_⟩
    obtain ⟨vals, tr, a, b, c⟩ := h₃ x hx.1 hx.2 n (by omega)
    refine ⟨vals, tr, by simp only [evalFunInv, hg, hl, a], b,
      fun p hp => ⟨fun v => if v = x then some struct else none, ?_, c p hp⟩⟩
    intro v hv
    by_cases h : v = x
    · subst h; simp [hx.2]
    · have : ¬ isVar v = true := fun h' => h (huniq v hv h')
      simp [h, this]
  | x :: y :: l =>
    left
    rw [hl] at hfm hfn
    have hx := (hfm x).1 (by simp)
    have hy := (hfm y).1 (by simp)
    refine ⟨⟨x, y, ?_, hx.1, hy.1, hx.2, hy.2⟩, by simp only [evalFunInv, hg, hl]⟩
    rintro rfl
    simp at hfn

example : (∀ v, (fun v : Nat => v == 0) v = true → exNet.heavy v = false) := by
  intro v hv
  simp at hv; subst hv; rfl

/-- Test: two variables raise. -/
example : evalFunInv exNet (fun v => v == 0 || v == 1) (fun _ as => as.sum) id 10 (5 : Int) [4] =
    .error .multipleVariables := by rfl

/-! ### C03 -/

/-- **C03.** During one forward evaluation `eval` is called exactly once on every node that is
reachable and not overridden, and on no other node. (Same restrictions on heavy nodes.) -/
theorem each_node_evaluated_once_partial {N : Net V} (hN : Acyclic N) (f : V → List α → α)
    (ov : V → Option α) (ord : List V → List V) (hord : ∀ l, (ord l).Perm l) (outs : List V)
    (hov : ∀ v, Reach N outs v → N.heavy v = true → ov v = none)
    (hhh : ∀ v, Reach N outs v → N.heavy v = true → ∀ u ∈ N.inputs v, N.heavy u = false) :
    ∃ n₀, ∀ n, n₀ ≤ n → ∃ vals trace, evalFun N f ord n ov outs = .ok (vals, trace) ∧
      trace.Nodup ∧ ∀ v, v ∈ trace ↔ Reach N outs v ∧ ov v = none := by
  obtain ⟨n₀, h⟩ := evalFun_spec hN f ov ord hord outs hov hhh
  refine ⟨n₀, fun n hn => ?_⟩
  obtain ⟨vals, tr, h1, _, _, h4, h5⟩ := h n hn
  exact ⟨vals, tr, h1, h4, h5⟩

/-! ### C06 -/

/-- **C06 (partial).** If only light nodes are overridden then an overridden output is returned
as supplied and its `eval` is not called. (That consumers see it is part of `Evals`, used in
`eval_fun_correct_partial`.) Missing: overridden heavy nodes. -/
theorem override_respected_partial {N : Net V} (hN : Acyclic N) (f : V → List α → α)
    (ov : V → Option α) (ord : List V → List V) (hord : ∀ l, (ord l).Perm l) (outs : List V)
    (hov : ∀ v, Reach N outs v → N.heavy v = true → ov v = none)
    (hhh : ∀ v, Reach N outs v → N.heavy v = true → ∀ u ∈ N.inputs v, N.heavy u = false) :
    ∃ n₀, ∀ n, n₀ ≤ n → ∃ vals trace, evalFun N f ord n ov outs = .ok (vals, trace) ∧
      (∀ p ∈ outs.zip vals, ∀ a, ov p.1 = some a → p.2 = a) ∧
      (∀ v, (ov v).isSome → v ∉ trace) := by
  obtain ⟨n₀, h⟩ := evalFun_spec hN f ov ord hord outs hov hhh
  refine ⟨n₀, fun n hn => ?_⟩
  obtain ⟨vals, tr, h1, _, h3, _, h5⟩ := h n hn
  refine ⟨vals, tr, h1, fun p hp a ha => (h3 p hp).unique (Evals.override ha), fun v hv ht => ?_⟩
  rw [((h5 v).1 ht).2] at hv
  cases hv

/-- Two heavy leaves `0`, `1` used by a light output `2`. -/
def twoHeavy : Net Nat where
  inputs := fun v => if v = 2 then [0, 1] else []
  heavy := fun v => v == 0 || v == 1

/-- **Violation of C06**: node 0 is overridden with 100, but it sits behind the heavy node 1 in
the same block, so it is evaluated again and the caller's value is thrown away
(the result is 0 + 0, not 100 + 0, and both heavy nodes are evaluated). -/
theorem override_of_heavy_node_ignored :
    evalFun twoHeavy (fun _ as => as.sum) id 10 (fun v => if v = 0 then some (100 : Int) else none) [2]
      = .ok ([0], [1, 0, 2]) ∧
    Evals twoHeavy (fun _ as => as.sum) (fun v => if v = 0 then some (100 : Int) else none) 2 100 := by
  refine ⟨by rfl, ?_⟩
  have h0 : Evals twoHeavy (fun _ as => as.sum)
      (fun v => if v = 0 then some (100 : Int) else none) 0 100 := Evals.override rfl
  have h1 : Evals twoHeavy (fun _ as => as.sum)
      (fun v => if v = 0 then some (100 : Int) else none) 1 0 :=
    Evals.node (v := 1) (as := []) rfl rfl (by intro p hp; simp [twoHeavy] at hp)
  exact Evals.node (v := 2) (as := [(100 : Int), 0]) rfl rfl (by
    intro p hp
    have hp' : p ∈ [((0 : Nat), (100 : Int)), (1, 0)] := hp
    simp only [List.mem_cons, List.not_mem_nil, or_false] at hp'
    rcases hp' with rfl | rfl
    · exact h0
    · exact h1)

/-! ### C07 -/

/-- `w` is something whose flag `v` depends on: reached through inputs without looking
behind a node whose flag was supplied. -/
inductive Dep (N : Net V) (ov : V → Option Bool) : V → V → Prop
  | refl (v) : Dep N ov v v
  | step {v u w} : ov v = none → u ∈ N.inputs v → Dep N ov u w → Dep N ov v w

omit [DecidableEq V] in
theorem evals_flag {N : Net V} {ov : V → Option Bool} {v : V} {b : Bool}
    (hE : Evals N defaultFlag ov v b) : b = true ↔ ∀ w, Dep N ov v w → ov w ≠ some false := by
  induction hE with
  | @override v a ha =>
    constructor
    · rintro rfl w hw
      cases hw with
      | refl => rw [ha]; simp
      | step h' => rw [ha] at h'; cases h'
    · intro hw
      have := hw v (Dep.refl v)
      rw [ha] at this
      cases a
      · exact absurd rfl this
      · rfl
  | @node v as hv hl hz ih =>
    have key : defaultFlag v as = true ↔ ∀ p ∈ (N.inputs v).zip as, p.2 = true := by
      clear hz ih
      simp only [defaultFlag]
      generalize N.inputs v = us at hl
      induction us generalizing as with
      | nil => simp at hl; simp [hl]
      | cons u us ih2 =>
        cases as with
        | nil => simp at hl
        | cons a as =>
          have := ih2 (by simpa using hl)
          simp only [List.all_cons, Bool.and_eq_true, List.zip_cons_cons, List.mem_cons,
            forall_eq_or_imp, this, id]
    rw [key]
    constructor
    · intro h w hw
      cases hw with
      | refl => rw [hv]; simp
      | @step _ u _ _ hu hw =>
        obtain ⟨a, ha⟩ : ∃ a, (u, a) ∈ (N.inputs v).zip as := by
          clear h hw ih hz key
          generalize N.inputs v = us at hl hu
          induction us generalizing as with
          | nil => simp at hu
          | cons x us ih2 =>
            cases as with
            | nil => simp at hl
            | cons a as =>
              rcases List.mem_cons.1 hu with rfl | hu
              · exact ⟨a, by simp⟩
              · obtain ⟨a', h'⟩ := ih2 (by simpa using hl) hu
                exact ⟨a', by simp [h']⟩
        exact (ih (u, a) ha).1 (h _ ha) w hw
    · intro h p hp
      exact (ih p hp).2 (fun w hw => h w (Dep.step hv (List.of_mem_zip hp).1 hw))

/-- **C07 (partial: heavy nodes as in C01).** With the default rule a node is flagged exactly when no supplied leaf flag it
depends on is `false`. `ov` gives the flags of the variables (goos always supplies them). -/
theorem flags_propagate_partial {N : Net V} (hN : Acyclic N) (ov : V → Option Bool)
    (ord : List V → List V) (hord : ∀ l, (ord l).Perm l) (v : V)
    (hov : ∀ w, Reach N [v] w → N.heavy w = true → ov w = none)
    (hhh : ∀ w, Reach N [v] w → N.heavy w = true → ∀ u ∈ N.inputs w, N.heavy u = false) :
    ∃ n₀, ∀ n, n₀ ≤ n → ∃ b trace, evalFun N defaultFlag ord n ov [v] = .ok ([b], trace) ∧
      (b = true ↔ ∀ w, Dep N ov v w → ov w ≠ some false) := by
  obtain ⟨n₀, h⟩ := evalFun_spec hN defaultFlag ov ord hord [v] hov hhh
  refine ⟨n₀, fun n hn => ?_⟩
  obtain ⟨vals, tr, h1, h2, h3, _⟩ := h n hn
  match vals, h2 with
  | [b], _ =>
    exact ⟨b, tr, h1, evals_flag (h3 (v, b) (by simp))⟩

/-- Test: freezing the variable 0 of the example freezes the output, thawing it does not. -/
example : evalFun exNet defaultFlag id 10 (fun v => if v = 0 then some true else none) [4]
      = .ok ([true], [1, 3, 2, 4]) ∧
    evalFun exNet defaultFlag id 10 (fun v => if v = 0 then some false else none) [4]
      = .ok ([false], [1, 3, 2, 4]) := ⟨rfl, rfl⟩

end Verif.Exec
