import Verif.Plan.Assign
import Verif.Exec.Props
import Mathlib.Logic.ExistsUnique
import Mathlib.Tactic.Choose
import Mathlib.Tactic.ByContra
/-
Property C128: a goos plan is a program: its actions run in order, once each, and reading a node gives its value at that point.
-/
namespace Verif.Plan.Assign
open Verif.Exec (Net evalFun Acyclic Reach Evals createGraph)

variable {V α : Type} [DecidableEq V]

/-! ### Specification -/

/-- The memory of a program: the value of each variable, and whether it is frozen. -/
structure Mem (V α : Type) where
  value : V → α
  frozen : V → Bool

/-- `den σ e` is the value of the expression `e` when the variables have the values `σ`. -/
def Meaning (W : World V α) (den : (V → α) → V → α) : Prop := ∀ σ v,
  den σ v = if (W.var v).isSome then σ v else W.f v ((W.net.inputs v).map (den σ))

/-- A parameter of the plan. -/
def World.param (W : World V α) (x : V) : Bool := (W.var x).any Prod.snd

/-- Executing one action; `none` if it raises: a frozen variable can be set only if it is a parameter. -/
def Act.exec (W : World V α) (den : (V → α) → V → α) : Act V α → Mem V α → Option (Mem V α)
  | .set x e, m => if m.frozen x && !W.param x then none
    else some ⟨fun y => if y = x then den m.value e else m.value y, m.frozen⟩
  | .setTo x a, m => if m.frozen x && !W.param x then none
    else some ⟨fun y => if y = x then a else m.value y, m.frozen⟩
  | .freeze x, m => some ⟨m.value, fun y => if y = x then true else m.frozen y⟩
  | .thaw x, m => some ⟨m.value, fun y => if y = x then false else m.frozen y⟩

/-- Executing a program up to the first action that raises: the memory, and the actions left. -/
def perform (W : World V α) (den : (V → α) → V → α) : List (Act V α) → Mem V α → Mem V α × List (Act V α)
  | [], m => (m, [])
  | a :: as, m => match a.exec W den m with
    | none => (m, a :: as)
    | some m => perform W den as m

/-- What `run` is to do: execute the actions not yet executed. -/
def specRun (W : World V α) (den : (V → α) → V → α) (q : Mem V α × List (Act V α)) : (Mem V α × List (Act V α)) × Out α :=
  (perform W den q.2 q.1, if (perform W den q.2 q.1).2.isEmpty then .ok else .raised)

/-- Asking to thaw a parameter, which is an error. -/
def Act.thawsParam (W : World V α) : Act V α → Bool
  | .thaw x => W.param x
  | _ => false

/-- What each call is to do. -/
def specStep (W : World V α) (den : (V → α) → V → α) (autorun : Bool) (q : Mem V α × List (Act V α)) :
    Op V α → (Mem V α × List (Act V α)) × Out α
  | .act a =>
    if a.thawsParam W then (q, .raised)
    else if autorun then specRun W den (q.1, q.2 ++ [a])
    else ((q.1, q.2 ++ [a]), .ok)
  | .node _ => (q, .ok)
  | .run => specRun W den q
  | .read nodes => (q, .values (nodes.map (den q.1.value)))

/-- What a session is to give. -/
def specSession (W : World V α) (den : (V → α) → V → α) (autorun : Bool) : List (Op V α) → Mem V α × List (Act V α) → List (Out α)
  | [], _ => []
  | o :: os, q => (specStep W den autorun q o).2 :: specSession W den autorun os (specStep W den autorun q o).1

/-- The memory before the first action. -/
def Initial (W : World V α) (m : Mem V α) : Prop := ∀ x i, W.var x = some i → m.value x = i.1 ∧ m.frozen x = i.2

/-! ### Dictionaries -/

theorem lookup_store (x y : V) (t : α × Bool) (l : List (V × (α × Bool))) :
    lookup y (store x t l) = if y = x then some t else lookup y l := by
  induction l with
  | nil =>
    simp only [store, lookup]
    by_cases h : y = x
    · subst h; simp
    · rw [if_neg (Ne.symm h), if_neg h]
  | cons e r ih =>
    obtain ⟨z, u⟩ := e
    rw [store]
    by_cases hz : z = x
    · rw [if_pos hz, lookup, lookup]
      by_cases h : y = x
      · subst h; simp
      · rw [if_neg (Ne.symm h), if_neg h, if_neg (by rw [hz]; exact Ne.symm h)]
    · rw [if_neg hz, lookup, lookup, ih]
      by_cases hy : z = y
      · rw [if_pos hy, if_pos hy, if_neg (by rw [← hy]; exact hz)]
      · rw [if_neg hy, if_neg hy]

/-! ### The plan holds the memory -/

/-- The variables known to the plan have the values of the memory and the others their initial ones; the inputs of known nodes are known,
except for the nodes `P` being added. -/
structure Good (W : World V α) (s : State V α) (m : Mem V α) (P : V → Prop) : Prop where
  vals : ∀ x, (W.var x).isSome → x ∈ s.known → lookup x s.vars = some (m.value x, m.frozen x)
  fresh : ∀ x i, W.var x = some i → x ∉ s.known → m.value x = i.1 ∧ m.frozen x = i.2
  only : ∀ x, (W.var x = none ∨ x ∉ s.known) → lookup x s.vars = none
  closed : ∀ v ∈ s.known, ¬ P v → ∀ u ∈ W.net.inputs v, u ∈ s.known

/-- Nothing but the nodes and variables changes. -/
structure Frame (s s' : State V α) : Prop where
  known : ∀ v ∈ s.known, v ∈ s'.known
  actions : s'.actions = s.actions
  ptr : s'.ptr = s.ptr
  modifiable : s'.modifiable = s.modifiable

omit [DecidableEq V] in
theorem Frame.refl (s : State V α) : Frame s s := ⟨fun _ h => h, rfl, rfl, rfl⟩

omit [DecidableEq V] in
theorem Frame.trans {s s' s'' : State V α} (h : Frame s s') (h' : Frame s' s'') : Frame s s'' :=
  ⟨fun v hv => h'.known v (h.known v hv), h'.actions.trans h.actions, h'.ptr.trans h.ptr, h'.modifiable.trans h.modifiable⟩

variable {W : World V α}

theorem good_push {s : State V α} {m : Mem V α} {P : V → Prop} (h : Good W s m P) (v : V) (hv : v ∉ s.known) :
    Good W { s with known := s.known ++ [v], vars := match W.var v with | some i => store v i s.vars | none => s.vars } m
      (fun w => P w ∨ w = v) := by
  refine ⟨fun x hx hk => ?_, fun x i hi hk => ?_, fun x hx => ?_, fun w hw hP u hu => ?_⟩
  · obtain ⟨i, hi⟩ := Option.isSome_iff_exists.1 hx
    rcases List.mem_append.1 hk with hk | hk
    · have hne : x ≠ v := fun e => hv (e ▸ hk)
      have h0 := h.vals x hx hk
      show lookup x (match W.var v with | some i => store v i s.vars | none => s.vars) = _
      cases W.var v with
      | none => exact h0
      | some j => rw [lookup_store, if_neg hne]; exact h0
    · have hxv : x = v := by simpa using hk
      subst hxv
      show lookup x (match W.var x with | some i => store x i s.vars | none => s.vars) = _
      obtain ⟨e1, e2⟩ := h.fresh x i hi hv
      rw [hi]
      show lookup x (store x i s.vars) = _
      rw [lookup_store, if_pos rfl, e1, e2]
  · exact h.fresh x i hi fun hx => hk (List.mem_append_left _ hx)
  · show lookup x (match W.var v with | some i => store v i s.vars | none => s.vars) = none
    have h0 : lookup x s.vars = none := h.only x (hx.imp id fun hk hc => hk (List.mem_append_left _ hc))
    cases hj : W.var v with
    | none => exact h0
    | some j =>
      have hne : x ≠ v := by
        rintro rfl
        rcases hx with hx | hx
        · rw [hx] at hj; cases hj
        · exact hx (List.mem_append_right _ (List.mem_singleton.2 rfl))
      show lookup x (store v j s.vars) = none
      rw [lookup_store, if_neg hne]; exact h0
  · rcases List.mem_append.1 hw with hw | hw
    · exact List.mem_append_left _ (h.closed w hw (fun hc => hP (Or.inl hc)) u hu)
    · exact absurd (List.mem_singleton.1 hw) fun e => hP (Or.inr e)

theorem addNode_succ (n : Nat) (v : V) (s : State V α) (hv : v ∉ s.known) : addNode W (n + 1) v s = addNodes W n (W.net.inputs v)
    { s with known := s.known ++ [v], vars := match W.var v with | some i => store v i s.vars | none => s.vars } := by
  rw [addNode, if_neg hv]
  cases W.var v <;> rfl

theorem add_good {r : V → Nat} (hr : ∀ v, ∀ u ∈ W.net.inputs v, r u < r v) (m : Mem V α) (n : Nat) :
    (∀ v s P, r v < n → Good W s m P → (∀ p, P p → r v < r p) →
      Good W (addNode W n v s) m P ∧ v ∈ (addNode W n v s).known ∧ Frame s (addNode W n v s)) ∧
    (∀ vs s P, (∀ v ∈ vs, r v < n) → Good W s m P → (∀ v ∈ vs, ∀ p, P p → r v < r p) →
      Good W (addNodes W n vs s) m P ∧ (∀ v ∈ vs, v ∈ (addNodes W n vs s).known) ∧ Frame s (addNodes W n vs s)) := by
  have hlist : ∀ n, (∀ v s P, r v < n → Good W s m P → (∀ p, P p → r v < r p) →
      Good W (addNode W n v s) m P ∧ v ∈ (addNode W n v s).known ∧ Frame s (addNode W n v s)) →
    (∀ vs s P, (∀ v ∈ vs, r v < n) → Good W s m P → (∀ v ∈ vs, ∀ p, P p → r v < r p) →
      Good W (addNodes W n vs s) m P ∧ (∀ v ∈ vs, v ∈ (addNodes W n vs s).known) ∧ Frame s (addNodes W n vs s)) := by
    intro n h1 vs
    induction vs with
    | nil => intro s P _ hg _; rw [addNodes]; exact ⟨hg, fun _ h => absurd h List.not_mem_nil, Frame.refl s⟩
    | cons v vs ih =>
      intro s P hn hg hP
      rw [addNodes]
      obtain ⟨g1, k1, f1⟩ := h1 v s P (hn v List.mem_cons_self) hg (hP v List.mem_cons_self)
      obtain ⟨g2, k2, f2⟩ := ih (addNode W n v s) P (fun w hw => hn w (List.mem_cons_of_mem _ hw)) g1
        (fun w hw => hP w (List.mem_cons_of_mem _ hw))
      refine ⟨g2, fun w hw => ?_, f1.trans f2⟩
      rcases List.mem_cons.1 hw with rfl | hw
      · exact f2.known _ k1
      · exact k2 w hw
  have hone : ∀ n, (∀ v s P, r v < n → Good W s m P → (∀ p, P p → r v < r p) →
      Good W (addNode W n v s) m P ∧ v ∈ (addNode W n v s).known ∧ Frame s (addNode W n v s)) := by
    intro n
    induction n with
    | zero => intro v s P h; exact absurd h (Nat.not_lt_zero _)
    | succ n ih =>
      intro v s P hn hg hP
      by_cases hk : v ∈ s.known
      · rw [addNode, if_pos hk]
        exact ⟨hg, hk, Frame.refl s⟩
      · rw [addNode_succ n v s hk]
        obtain ⟨g2, k2, f2⟩ := hlist n ih (W.net.inputs v) _ (fun w => P w ∨ w = v) (fun u hu => by have := hr v u hu; omega)
          (good_push hg v hk) (fun u hu p hp => by
            rcases hp with hp | rfl
            · exact Nat.lt_trans (hr v u hu) (hP p hp)
            · exact hr _ u hu)
        refine ⟨⟨g2.vals, g2.fresh, g2.only, fun w hw hPw u hu => ?_⟩, ?_, ?_⟩
        · by_cases hwv : w = v
          · subst hwv; exact k2 u hu
          · exact g2.closed w hw (fun hc => hc.elim hPw hwv) u hu
        · exact f2.known v (List.mem_append_right _ (List.mem_singleton.2 rfl))
        · exact ⟨fun w hw => f2.known w (List.mem_append_left _ hw), f2.actions, f2.ptr, f2.modifiable⟩
  exact ⟨hone n, hlist n (hone n)⟩

/-! ### Reading nodes -/

theorem evals_den {den : (V → α) → V → α} (hden : Meaning W den) {s : State V α} {m : Mem V α} (hg : Good W s m fun _ => False) {v : V} {a : α}
    (h : Evals W.net W.f (fun v => (lookup v s.vars).map Prod.fst) v a) : v ∈ s.known → a = den m.value v := by
  induction h with
  | @override v a ha =>
    intro hk
    cases hv : W.var v with
    | none => rw [hg.only v (Or.inl hv)] at ha; cases ha
    | some i =>
      have hs : (W.var v).isSome := by rw [hv]; rfl
      rw [hg.vals v hs hk] at ha
      rw [hden, if_pos hs]
      exact (Option.some.inj ha).symm
  | @node v as ho hl _ ih =>
    intro hk
    have hn : ¬ (W.var v).isSome := fun hs => by rw [hg.vals v hs hk] at ho; cases ho
    rw [hden, if_neg hn]
    congr 1
    apply List.ext_getElem
    · rw [hl, List.length_map]
    · intro i h1 h2
      have hi : i < (W.net.inputs v).length := by rw [← hl]; exact h1
      have hz : ((W.net.inputs v)[i], as[i]) ∈ (W.net.inputs v).zip as :=
        List.mem_iff_getElem.2 ⟨i, by rw [List.length_zip]; omega, List.getElem_zip⟩
      have := ih _ hz (hg.closed v hk (fun h => h) _ (List.getElem_mem hi))
      rw [List.getElem_map]
      exact this

variable {r : V → Nat} {ord : List V → List V} {den : (V → α) → V → α}

/-- What is assumed of the graph: no cycles, variables not computed in parallel, and nodes computed in parallel not depending on each
other (C01). -/
structure Setting (W : World V α) (r : V → Nat) (ord : List V → List V) (den : (V → α) → V → α) : Prop where
  rank : ∀ v, ∀ u ∈ W.net.inputs v, r u < r v
  ord : ∀ l, (ord l).Perm l
  light : ∀ x, (W.var x).isSome → W.net.heavy x = false
  heavy : ∀ v, W.net.heavy v = true → ∀ u ∈ W.net.inputs v, W.net.heavy u = false
  den : Meaning W den

/-- Enough steps for evaluating `nodes`. -/
def Enough (W : World V α) (r : V → Nat) (n : Nat) (nodes : List V) : Prop :=
  (∃ g, createGraph W.net n nodes = some g) ∧ ∀ v ∈ nodes, r v < n

theorem eval_good (hS : Setting W r ord den) {n : Nat} {nodes : List V} (hn : Enough W r n nodes) {s : State V α} {m : Mem V α}
    (hg : Good W s m fun _ => False) : (evalNodes W ord n nodes s).2 = some (nodes.map (den m.value)) ∧
      Good W (evalNodes W ord n nodes s).1 m (fun _ => False) ∧ Frame s (evalNodes W ord n nodes s).1 := by
  obtain ⟨g1, k1, f1⟩ := (add_good hS.rank m n).2 nodes s (fun _ => False) hn.2 hg (fun _ _ _ h => h.elim)
  obtain ⟨g, hgr⟩ := hn.1
  obtain ⟨vals, tr, h1, h2, h3, _⟩ := Exec.evalFun_of_graph ⟨r, hS.rank⟩ W.f
    (fun v => (lookup v (addNodes W n nodes s).vars).map Prod.fst) ord hS.ord nodes
    (fun v _ hv => by
      have : W.var v = none := by
        cases hv' : W.var v with
        | none => rfl
        | some i => rw [hS.light v (by rw [hv']; rfl)] at hv; cases hv
      simp only [g1.only v (Or.inl this), Option.map_none])
    (fun v _ hv => hS.heavy v hv) hgr
  have hval : vals = nodes.map (den m.value) := by
    apply List.ext_getElem
    · rw [h2, List.length_map]
    · intro i a1 a2
      have hi : i < nodes.length := by rw [← h2]; exact a1
      have hz : (nodes[i], vals[i]) ∈ nodes.zip vals := List.mem_iff_getElem.2 ⟨i, by rw [List.length_zip]; omega, List.getElem_zip⟩
      rw [List.getElem_map]
      exact evals_den hS.den g1 (h3 _ hz) (k1 _ (List.getElem_mem hi))
  rw [evalNodes]
  simp only [h1]
  exact ⟨by rw [hval], g1, f1⟩

/-! ### Running actions -/

theorem good_store {s : State V α} {m : Mem V α} (hg : Good W s m fun _ => False) {x : V} (hx : (W.var x).isSome) (hk : x ∈ s.known)
    (a : α) (b : Bool) : Good W { s with vars := store x (a, b) s.vars }
      ⟨fun y => if y = x then a else m.value y, fun y => if y = x then b else m.frozen y⟩ fun _ => False := by
  refine ⟨fun y hy hky => ?_, fun y i hi hky => ?_, fun y hy => ?_, hg.closed⟩
  · show lookup y (store x (a, b) s.vars) = _
    rw [lookup_store]
    by_cases h : y = x
    · simp [h]
    · simp only [if_neg h]; exact hg.vals y hy hky
  · have hne : y ≠ x := fun e => hky (e ▸ hk)
    simp only [if_neg hne]
    exact hg.fresh y i hi hky
  · have hne : y ≠ x := by
      rintro rfl
      rcases hy with hy | hy
      · rw [hy] at hx; cases hx
      · exact hy hk
    show lookup y (store x (a, b) s.vars) = none
    rw [lookup_store, if_neg hne]
    exact hg.only y hy

theorem set_good {s : State V α} {m : Mem V α} (hg : Good W s m fun _ => False) {x : V} (hx : (W.var x).isSome) (hk : x ∈ s.known)
    (hm : s.modifiable = true) (a : α) :
    if m.frozen x && !W.param x then setValue x a (notParam W x) s = none
    else ∃ s', setValue x a (notParam W x) s = some s' ∧ Good W s' ⟨fun y => if y = x then a else m.value y, m.frozen⟩ (fun _ => False) ∧
      Frame s s' := by
  have hp : notParam W x = !W.param x := by
    obtain ⟨i, hi⟩ := Option.isSome_iff_exists.1 hx
    rw [notParam, World.param, hi]; rfl
  have e : setValue x a (notParam W x) s = if (!W.param x) && m.frozen x then none
      else some { s with vars := store x (a, m.frozen x) s.vars } := by
    rw [setValue, if_pos hm, hg.vals x hx hk, hp]
  rw [Bool.and_comm] at e
  by_cases h : (m.frozen x && !W.param x) = true
  · rw [if_pos h, e, if_pos h]
  · rw [if_neg h, e, if_neg h]
    refine ⟨_, rfl, ?_, ⟨fun _ h => h, rfl, rfl, rfl⟩⟩
    have h0 := good_store hg hx hk a (m.frozen x)
    have hf : (fun y => if y = x then m.frozen x else m.frozen y) = m.frozen := by
      funext y
      by_cases hy : y = x
      · simp [hy]
      · simp [hy]
    rw [hf] at h0
    exact h0

theorem frozen_good {s : State V α} {m : Mem V α} (hg : Good W s m fun _ => False) {x : V} (hx : (W.var x).isSome) (hk : x ∈ s.known)
    (hm : s.modifiable = true) (b : Bool) :
    ∃ s', setFrozen x b s = some s' ∧ Good W s' ⟨m.value, fun y => if y = x then b else m.frozen y⟩ (fun _ => False) ∧ Frame s s' := by
  have e : setFrozen x b s = some { s with vars := store x (m.value x, b) s.vars } := by
    rw [setFrozen, if_pos hm, hg.vals x hx hk]
  refine ⟨_, e, ?_, ⟨fun _ h => h, rfl, rfl, rfl⟩⟩
  have h0 := good_store hg hx hk (m.value x) b
  have hf : (fun y => if y = x then m.value x else m.value y) = m.value := by
    funext y
    by_cases hy : y = x
    · simp [hy]
    · simp [hy]
  rw [hf] at h0
  exact h0

/-- Enough steps for an action. -/
def EnoughAct (W : World V α) (r : V → Nat) (n : Nat) (a : Act V α) : Prop :=
  r a.target < n ∧ match a with
    | .set _ e => Enough W r n [e]
    | _ => True

theorem act_good (hS : Setting W r ord den) {n : Nat} {a : Act V α} (hn : EnoughAct W r n a) {s : State V α} {m : Mem V α}
    (hg : Good W s m fun _ => False) (hx : (W.var a.target).isSome) (hk : a.target ∈ s.known) (hm : s.modifiable = true) :
    (match a.exec W den m with
      | some m' => (runAct W ord n a s).2 = true ∧ Good W (runAct W ord n a s).1 m' (fun _ => False)
      | none => (runAct W ord n a s).2 = false ∧ Good W (runAct W ord n a s).1 m (fun _ => False)) ∧
      Frame s (runAct W ord n a s).1 := by
  have hset : ∀ (x : V) (v : α) (s : State V α), Good W s m (fun _ => False) → (W.var x).isSome → x ∈ s.known → s.modifiable = true →
      ∀ R : State V α × Bool, R = (match setValue x v (notParam W x) s with | some s => (s, true) | none => (s, false)) →
      (match (if m.frozen x && !W.param x then none else some (⟨fun y => if y = x then v else m.value y, m.frozen⟩ : Mem V α)) with
        | some m' => R.2 = true ∧ Good W R.1 m' (fun _ => False)
        | none => R.2 = false ∧ Good W R.1 m (fun _ => False)) ∧ Frame s R.1 := by
    intro x v s hg hx hk hm R hR
    have h0 := set_good hg hx hk hm v
    by_cases h : (m.frozen x && !W.param x) = true
    · rw [if_pos h] at h0
      rw [h0] at hR
      subst hR
      rw [if_pos h]
      exact ⟨⟨rfl, hg⟩, Frame.refl s⟩
    · rw [if_neg h] at h0
      obtain ⟨s', e, g', f'⟩ := h0
      rw [e] at hR
      subst hR
      rw [if_neg h]
      exact ⟨⟨rfl, g'⟩, f'⟩
  cases a with
  | set x e =>
    obtain ⟨e1, e2, e3⟩ := eval_good hS hn.2 hg
    have hrun : runAct W ord n (.set x e) s = (match setValue x (den m.value e) (notParam W x) (evalNodes W ord n [e] s).1 with
        | some s => (s, true) | none => ((evalNodes W ord n [e] s).1, false)) := by
      rw [runAct]
      generalize evalNodes W ord n [e] s = q at e1
      obtain ⟨q1, q2⟩ := q
      simp only [List.map_cons, List.map_nil] at e1
      subst e1
      show (match setValue x (den m.value e) (notParam W x) q1 with | some s => (s, true) | none => (q1, false)) =
        (match setValue x (den m.value e) (notParam W x) q1 with | some s => (s, true) | none => (q1, false))
      cases setValue x (den m.value e) (notParam W x) q1 <;> rfl
    obtain ⟨k1, k2⟩ := hset x (den m.value e) _ e2 hx (e3.known _ hk) (e3.modifiable.trans hm) _ hrun
    exact ⟨k1, e3.trans k2⟩
  | setTo x v => exact hset x v s hg hx hk hm _ rfl
  | freeze x =>
    obtain ⟨s', e, g', f'⟩ := frozen_good (x := x) hg hx hk hm true
    have hrun : runAct W ord n (.freeze x) s = (s', true) := by rw [runAct, e]
    rw [hrun]
    exact ⟨⟨rfl, g'⟩, f'⟩
  | thaw x =>
    obtain ⟨s', e, g', f'⟩ := frozen_good (x := x) hg hx hk hm false
    have hrun : runAct W ord n (.thaw x) s = (s', true) := by rw [runAct, e]
    rw [hrun]
    exact ⟨⟨rfl, g'⟩, f'⟩

/-- The actions left can be run. -/
def Ready (W : World V α) (r : V → Nat) (n : Nat) (s : State V α) (todo : List (Act V α)) : Prop :=
  ∀ a ∈ todo, (W.var a.target).isSome ∧ a.target ∈ s.known ∧ EnoughAct W r n a

theorem loop_good (hS : Setting W r ord den) {n : Nat} (todo : List (Act V α)) : ∀ (s : State V α) (m : Mem V α),
    Good W s m (fun _ => False) → Ready W r n s todo → s.modifiable = true → s.actions.drop s.ptr = todo → s.ptr ≤ s.actions.length →
    Good W (runLoop W ord n todo s).1 (perform W den todo m).1 (fun _ => False) ∧
      Ready W r n (runLoop W ord n todo s).1 (perform W den todo m).2 ∧
      (runLoop W ord n todo s).2 = (perform W den todo m).2.isEmpty ∧
      (runLoop W ord n todo s).1.actions.drop (runLoop W ord n todo s).1.ptr = (perform W den todo m).2 ∧
      (runLoop W ord n todo s).1.ptr ≤ (runLoop W ord n todo s).1.actions.length := by
  induction todo with
  | nil => intro s m hg hr _ hd hl; exact ⟨hg, hr, rfl, hd, hl⟩
  | cons a as ih =>
    intro s m hg hr hm hd hl
    obtain ⟨a1, a2, a3⟩ := hr a List.mem_cons_self
    obtain ⟨k1, k2⟩ := act_good hS a3 hg a1 a2 hm
    have hready : Ready W r n (runAct W ord n a s).1 (a :: as) := fun b hb =>
      ⟨(hr b hb).1, k2.known _ (hr b hb).2.1, (hr b hb).2.2⟩
    rw [runLoop, perform]
    generalize hq : runAct W ord n a s = q at k1 k2 hready
    obtain ⟨s1, b1⟩ := q
    cases he : a.exec W den m with
    | none =>
      rw [he] at k1
      obtain ⟨hb, hg1⟩ := k1
      simp only at hb hg1
      subst hb
      exact ⟨hg1, hready, rfl, by simp only; rw [k2.actions, k2.ptr, hd], by simp only; rw [k2.actions, k2.ptr]; exact hl⟩
    | some m' =>
      rw [he] at k1
      obtain ⟨hb, hg1⟩ := k1
      simp only at hb hg1
      subst hb
      have hlt : s.ptr < s.actions.length := by
        rcases Nat.lt_or_ge s.ptr s.actions.length with h | h
        · exact h
        · rw [List.drop_eq_nil_of_le h] at hd
          cases hd
      have h1 : s1.actions = s.actions := k2.actions
      have h2 : s1.ptr = s.ptr := k2.ptr
      refine ih { s1 with ptr := s1.ptr + 1 } m' ⟨hg1.vals, hg1.fresh, hg1.only, hg1.closed⟩
        (fun b hb => hready b (List.mem_cons_of_mem _ hb)) (k2.modifiable.trans hm) ?_ ?_
      · show s1.actions.drop (s1.ptr + 1) = as
        rw [h1, h2, ← List.tail_drop, hd]; rfl
      · show s1.ptr + 1 ≤ s1.actions.length
        rw [h1, h2]; exact hlt

/-- The plan is at the point of the program that the specification says. -/
structure At (W : World V α) (r : V → Nat) (n : Nat) (s : State V α) (q : Mem V α × List (Act V α)) : Prop where
  good : Good W s q.1 fun _ => False
  ready : Ready W r n s q.2
  todo : s.actions.drop s.ptr = q.2
  ptr : s.ptr ≤ s.actions.length

theorem run_at (hS : Setting W r ord den) {n : Nat} {s : State V α} {q : Mem V α × List (Act V α)} (h : At W r n s q) :
    At W r n (run W ord n s).1 (perform W den q.2 q.1) ∧ (run W ord n s).2 = (perform W den q.2 q.1).2.isEmpty := by
  obtain ⟨g, hr, hb, hd, hl⟩ := loop_good hS (ord := ord) q.2 { s with modifiable := true } q.1
    ⟨h.good.vals, h.good.fresh, h.good.only, h.good.closed⟩ h.ready rfl h.todo h.ptr
  rw [run, h.todo]
  generalize runLoop W ord n q.2 { s with modifiable := true } = z at g hr hb hd hl
  obtain ⟨s1, b1⟩ := z
  simp only at g hr hb hd hl
  cases b1 with
  | false => exact ⟨⟨g, hr, hd, hl⟩, hb⟩
  | true => exact ⟨⟨⟨g.vals, g.fresh, g.only, g.closed⟩, hr, hd, hl⟩, hb⟩

/-- Enough steps for a call. -/
def EnoughOp (W : World V α) (r : V → Nat) (n : Nat) : Op V α → Prop
  | .act a => EnoughAct W r n a
  | .node v => r v < n
  | .run => True
  | .read nodes => Enough W r n nodes

theorem step_at (hS : Setting W r ord den) {n : Nat} (autorun : Bool) {s : State V α} {q : Mem V α × List (Act V α)} (h : At W r n s q)
    (o : Op V α) (ho : EnoughOp W r n o) (hx : ∀ a, o = .act a → (W.var a.target).isSome) :
    At W r n (step W ord n autorun o s).1 (specStep W den autorun q o).1 ∧
      (step W ord n autorun o s).2 = (specStep W den autorun q o).2 := by
  have hrun : ∀ {s : State V α} {q : Mem V α × List (Act V α)}, At W r n s q →
      At W r n (match run W ord n s with | (s, true) => (s, (Out.ok : Out α)) | (s, false) => (s, Out.raised)).1 (specRun W den q).1 ∧
      (match run W ord n s with | (s, true) => (s, (Out.ok : Out α)) | (s, false) => (s, Out.raised)).2 = (specRun W den q).2 := by
    intro s q h
    obtain ⟨h1, h2⟩ := run_at hS (ord := ord) h
    rw [specRun]
    generalize run W ord n s = z at h1 h2
    obtain ⟨s1, b1⟩ := z
    simp only at h1 h2
    subst h2
    cases hb : (perform W den q.2 q.1).2.isEmpty with
    | true => exact ⟨h1, by simp⟩
    | false => exact ⟨h1, by simp⟩
  cases o with
  | act a =>
    have ha := hx a rfl
    have h0 : Good W { s with actions := s.actions ++ [a] } q.1 fun _ => False :=
      ⟨h.good.vals, h.good.fresh, h.good.only, h.good.closed⟩
    obtain ⟨g1, k1, f1⟩ := (add_good hS.rank q.1 n).1 a.target _ (fun _ => False) ho.1 h0 (fun _ h => h.elim)
    have hAt : At W r n (addNode W n a.target { s with actions := s.actions ++ [a] }) (q.1, q.2 ++ [a]) := by
      refine ⟨g1, fun b hb => ?_, ?_, ?_⟩
      · rcases List.mem_append.1 hb with hb | hb
        · exact ⟨(h.ready b hb).1, f1.known _ (h.ready b hb).2.1, (h.ready b hb).2.2⟩
        · rw [List.mem_singleton.1 hb]; exact ⟨ha, k1, ho⟩
      · rw [f1.actions, f1.ptr]
        show (s.actions ++ [a]).drop s.ptr = q.2 ++ [a]
        rw [List.drop_append_of_le_length h.ptr, h.todo]
      · rw [f1.actions, f1.ptr]
        show s.ptr ≤ (s.actions ++ [a]).length
        rw [List.length_append]; have := h.ptr; omega
    have href : refused W a = a.thawsParam W := by
      cases a with
      | thaw x =>
        obtain ⟨i, hi⟩ := Option.isSome_iff_exists.1 ha
        have hi' : W.var x = some i := hi
        simp [refused, Act.thawsParam, notParam, World.param, hi']
      | _ => rfl
    rw [step, specStep, href]
    by_cases ht : a.thawsParam W = true
    · rw [if_pos ht, if_pos ht]; exact ⟨h, rfl⟩
    · rw [if_neg ht, if_neg ht, addAction]
      cases autorun with
      | false => exact ⟨hAt, rfl⟩
      | true => exact hrun hAt
  | node v =>
    obtain ⟨g1, k1, f1⟩ := (add_good hS.rank q.1 n).1 v s (fun _ => False) ho h.good (fun _ h => h.elim)
    exact ⟨⟨g1, fun b hb => ⟨(h.ready b hb).1, f1.known _ (h.ready b hb).2.1, (h.ready b hb).2.2⟩,
      by rw [step]; simp only; rw [f1.actions, f1.ptr]; exact h.todo, by rw [step]; simp only; rw [f1.actions, f1.ptr]; exact h.ptr⟩, rfl⟩
  | run => exact hrun h
  | read nodes =>
    obtain ⟨e1, g1, f1⟩ := eval_good hS (n := n) (nodes := nodes) ho h.good
    rw [step, specStep]
    generalize evalNodes W ord n nodes s = z at e1 g1 f1
    obtain ⟨s1, v1⟩ := z
    simp only at e1 g1 f1
    subst e1
    exact ⟨⟨g1, fun b hb => ⟨(h.ready b hb).1, f1.known _ (h.ready b hb).2.1, (h.ready b hb).2.2⟩,
      by simp only; rw [f1.actions, f1.ptr]; exact h.todo, by simp only; rw [f1.actions, f1.ptr]; exact h.ptr⟩, rfl⟩

theorem session_at (hS : Setting W r ord den) {n : Nat} (autorun : Bool) (ops : List (Op V α)) : ∀ (s : State V α) (q : Mem V α × List (Act V α)),
    At W r n s q → (∀ o ∈ ops, EnoughOp W r n o) → (∀ a, Op.act a ∈ ops → (W.var a.target).isSome) →
    session W ord n autorun ops s = specSession W den autorun ops q := by
  induction ops with
  | nil => intro s q _ _ _; rfl
  | cons o os ih =>
    intro s q h hn hx
    obtain ⟨h1, h2⟩ := step_at hS autorun h o (hn o List.mem_cons_self) (fun a ha => hx a (ha ▸ List.mem_cons_self))
    rw [session, specSession, h2, ih _ _ h1 (fun b hb => hn b (List.mem_cons_of_mem _ hb)) (fun a ha => hx a (List.mem_cons_of_mem _ ha))]

/-! ### Enough steps -/

omit [DecidableEq V] in
theorem le_sum (r : V → Nat) {v : V} : ∀ {l : List V}, v ∈ l → r v ≤ (l.map r).sum
  | [], h => absurd h List.not_mem_nil
  | w :: l, h => by
    rw [List.map_cons, List.sum_cons]
    rcases List.mem_cons.1 h with rfl | h
    · omega
    · have := le_sum r h; omega

theorem enough_nodes (hN : ∀ v, ∀ u ∈ W.net.inputs v, r u < r v) (nodes : List V) : ∃ n₀, ∀ n, n₀ ≤ n → Enough W r n nodes := by
  obtain ⟨n₁, h₁⟩ := Exec.createGraph_terminates ⟨r, hN⟩ nodes
  refine ⟨n₁ + (nodes.map r).sum + 1, fun n hn => ⟨h₁ n (by omega), fun v hv => ?_⟩⟩
  have := le_sum r hv
  omega

theorem enough_op (hN : ∀ v, ∀ u ∈ W.net.inputs v, r u < r v) (o : Op V α) : ∃ n₀, ∀ n, n₀ ≤ n → EnoughOp W r n o := by
  cases o with
  | act a =>
    cases a with
    | set x e =>
      obtain ⟨n₁, h₁⟩ := enough_nodes hN [e]
      exact ⟨n₁ + r x + 1, fun n hn => ⟨by show r x < n; omega, h₁ n (by omega)⟩⟩
    | setTo x v => exact ⟨r x + 1, fun n hn => ⟨by show r x < n; omega, trivial⟩⟩
    | freeze x => exact ⟨r x + 1, fun n hn => ⟨by show r x < n; omega, trivial⟩⟩
    | thaw x => exact ⟨r x + 1, fun n hn => ⟨by show r x < n; omega, trivial⟩⟩
  | node v => exact ⟨r v + 1, fun n hn => by show r v < n; omega⟩
  | run => exact ⟨0, fun _ _ => trivial⟩
  | read nodes => exact enough_nodes hN nodes

theorem enough_ops (hN : ∀ v, ∀ u ∈ W.net.inputs v, r u < r v) (ops : List (Op V α)) :
    ∃ n₀, ∀ n, n₀ ≤ n → ∀ o ∈ ops, EnoughOp W r n o := by
  induction ops with
  | nil => exact ⟨0, fun _ _ _ h => absurd h List.not_mem_nil⟩
  | cons o os ih =>
    obtain ⟨n₁, h₁⟩ := enough_op hN o
    obtain ⟨n₂, h₂⟩ := ih
    refine ⟨n₁ + n₂, fun n hn b hb => ?_⟩
    rcases List.mem_cons.1 hb with rfl | hb
    · exact h₁ n (by omega)
    · exact h₂ n (by omega) b hb

/-! ### The property -/

/-- **C128.** A plan is a program. In every session the calls give what the program says: actions take effect when they are run and not
when they are written, in the order they were added, once each; an assignment stores the value its expression has at that point; setting a
frozen variable raises and stops there; and reading nodes gives their values in the current memory, whatever was read before. Partial: nodes
computed in parallel must not depend on each other (C01). -/
theorem plan_is_program_partial (W : World V α) (hN : Acyclic W.net) (hlight : ∀ x, (W.var x).isSome → W.net.heavy x = false)
    (hheavy : ∀ v, W.net.heavy v = true → ∀ u ∈ W.net.inputs v, W.net.heavy u = false) (ord : List V → List V)
    (hord : ∀ l, (ord l).Perm l) (den : (V → α) → V → α) (hden : Meaning W den) (m : Mem V α) (hm : Initial W m) (autorun : Bool)
    (ops : List (Op V α)) (hops : ∀ a, Op.act a ∈ ops → (W.var a.target).isSome) :
    ∃ n₀, ∀ n, n₀ ≤ n → session W ord n autorun ops State.new = specSession W den autorun ops (m, []) := by
  obtain ⟨r, hr⟩ := hN
  obtain ⟨n₀, h₀⟩ := enough_ops hr ops
  refine ⟨n₀, fun n hn => session_at ⟨hr, hord, hlight, hheavy, hden⟩ autorun ops _ _ ?_ (h₀ n hn) hops⟩
  exact ⟨⟨fun x _ hk => absurd hk List.not_mem_nil, fun x i hi _ => hm x i hi, fun x _ => rfl, fun v hv => absurd hv List.not_mem_nil⟩,
    fun a ha => absurd ha List.not_mem_nil, rfl, Nat.le_refl _⟩

omit [DecidableEq V] in
/-- The meaning of expressions exists and is unique on every graph without cycles. -/
theorem meaning_unique (W : World V α) (hN : Acyclic W.net) : ∃! den : (V → α) → V → α, Meaning W den := by
  classical
  obtain ⟨r, hr⟩ := hN
  have hex : ∀ (σ : V → α) (n : Nat), ∃ d : V → α, ∀ v, r v < n →
      d v = if (W.var v).isSome then σ v else W.f v ((W.net.inputs v).map d) := by
    intro σ n
    induction n with
    | zero => exact ⟨σ, fun v h => absurd h (Nat.not_lt_zero _)⟩
    | succ n ih =>
      obtain ⟨d, hd⟩ := ih
      refine ⟨fun v => if r v < n then d v else if (W.var v).isSome then σ v else W.f v ((W.net.inputs v).map d), fun v hv => ?_⟩
      have hmap : (W.net.inputs v).map (fun v => if r v < n then d v else if (W.var v).isSome then σ v else W.f v ((W.net.inputs v).map d)) =
          (W.net.inputs v).map d := List.map_congr_left fun u hu => by
        have := hr v u hu
        simp only [if_pos (show r u < n by omega)]
      rw [hmap]
      by_cases h : r v < n
      · simp only [if_pos h]; exact hd v h
      · simp only [if_neg h]
  have huniq : ∀ (σ : V → α) (d d' : V → α) (n : Nat),
      (∀ v, r v < n → d v = if (W.var v).isSome then σ v else W.f v ((W.net.inputs v).map d)) →
      (∀ v, r v < n → d' v = if (W.var v).isSome then σ v else W.f v ((W.net.inputs v).map d')) → ∀ k v, r v < k → r v < n → d v = d' v := by
    intro σ d d' n h h' k
    induction k with
    | zero => intro v hv; exact absurd hv (Nat.not_lt_zero _)
    | succ k ih =>
      intro v hv hn
      rw [h v hn, h' v hn]
      congr 2
      exact List.map_congr_left fun u hu => by
        have := hr v u hu
        exact ih u (by omega) (by omega)
  choose D hD using hex
  refine ⟨fun σ v => D σ (r v + 1) v, fun σ v => ?_, fun den' h' => ?_⟩
  · simp only
    rw [hD σ (r v + 1) v (Nat.lt_succ_self _)]
    congr 2
    exact List.map_congr_left fun u hu => by
      have := hr v u hu
      exact huniq σ _ _ (r u + 1) (fun w hw => hD σ (r v + 1) w (by omega)) (fun w hw => hD σ (r u + 1) w hw) (r u + 1) u
        (Nat.lt_succ_self _) (Nat.lt_succ_self _)
  · funext σ v
    exact huniq σ _ _ (r v + 1) (fun w _ => h' σ w) (fun w hw => hD σ (r v + 1) w hw) (r v + 1) v (Nat.lt_succ_self _) (Nat.lt_succ_self _)

/-! ### Consequences -/

/-- **C128.** Reading does not change anything: leaving out the reads of a session leaves the results of all other calls. -/
theorem reads_are_silent (W : World V α) (den : (V → α) → V → α) (autorun : Bool) (os os' : List (Op V α)) (nodes : List V)
    (q : Mem V α × List (Act V α)) : specSession W den autorun (os ++ .read nodes :: os') q =
      (specSession W den autorun (os ++ os') q).take os.length ++
        .values (nodes.map (den (os.foldl (fun q o => (specStep W den autorun q o).1) q).1.value)) ::
          (specSession W den autorun (os ++ os') q).drop os.length := by
  induction os generalizing q with
  | nil => simp [specSession, specStep]
  | cons o os ih => simp only [List.cons_append, specSession, ih, List.length_cons, List.take_succ_cons, List.drop_succ_cons, List.foldl_cons]

/-- **C128.** An action that is added but not run is not seen by readers. -/
theorem not_yet_run (W : World V α) (den : (V → α) → V → α) (q : Mem V α × List (Act V α)) (a : Act V α)
    (ha : a.thawsParam W = false) (nodes : List V) :
    specSession W den false [.act a, .read nodes] q = [.ok, .values (nodes.map (den q.1.value))] := by
  simp [specSession, specStep, ha]

/-! ### A case: `x = 1; y = 2; z = x + y; x.set(z * z); y.set(x); run` -/

/-- Nodes 0 and 1 are the variables, 2 their sum and 3 its square. -/
def twoVars : World Nat Int where
  net := ⟨fun v => if v = 2 then [0, 1] else if v = 3 then [2, 2] else [], fun v => v == 3⟩
  f := fun v l => if v = 2 then l.sum else l.prod
  var := fun v => if v = 0 then some (1, false) else if v = 1 then some (2, true) else none

theorem twoVars_ok : Acyclic twoVars.net ∧ (∀ x, (twoVars.var x).isSome → twoVars.net.heavy x = false) ∧
    (∀ v, twoVars.net.heavy v = true → ∀ u ∈ twoVars.net.inputs v, twoVars.net.heavy u = false) ∧
    Initial twoVars ⟨fun v => if v = 0 then 1 else 2, fun v => v == 1⟩ := by
  refine ⟨⟨id, fun v u hu => ?_⟩, fun x hx => ?_, fun v hv u hu => ?_, fun x i hi => ?_⟩
  · simp only [twoVars] at hu
    split at hu
    · next h => subst h; simp only [List.mem_cons, List.not_mem_nil, or_false] at hu; simp only [id]; omega
    · split at hu
      · next h => subst h; simp only [List.mem_cons, List.not_mem_nil, or_false] at hu; simp only [id]; omega
      · cases hu
  · simp only [twoVars] at hx
    have : x = 0 ∨ x = 1 := by
      by_contra hc
      rw [if_neg (fun e => hc (Or.inl e)), if_neg (fun e => hc (Or.inr e))] at hx
      cases hx
    rcases this with rfl | rfl <;> rfl
  · have h3 : v = 3 := by simpa [twoVars] using hv
    subst h3
    have : u = 2 := by simpa [twoVars] using hu
    subst this; rfl
  · simp only [twoVars] at hi
    split at hi
    · next h => subst h; cases hi; exact ⟨rfl, rfl⟩
    · split at hi
      · next h => subst h; cases hi; exact ⟨rfl, rfl⟩
      · cases hi

/-- The values of its nodes. -/
def twoVarsDen (σ : Nat → Int) (v : Nat) : Int :=
  if v = 2 then σ 0 + σ 1 else if v = 3 then (σ 0 + σ 1) * (σ 0 + σ 1) else if v < 2 then σ v else 1

theorem twoVars_meaning : Meaning twoVars twoVarsDen := by
  intro σ v
  by_cases h0 : v = 0
  · subst h0; simp [twoVars, twoVarsDen]
  by_cases h1 : v = 1
  · subst h1; simp [twoVars, twoVarsDen]
  by_cases h2 : v = 2
  · subst h2; simp [twoVars, twoVarsDen]
  by_cases h3 : v = 3
  · subst h3; simp [twoVars, twoVarsDen]
  · have : ¬ v < 2 := by omega
    simp [twoVars, twoVarsDen, h0, h1, h2, h3, this]

/-- The second assignment sees the first; the parameter may be set although it is frozen, but not thawed; before `run` nothing has
happened; setting the frozen variable raises. -/
example : ∃ n₀, ∀ n, n₀ ≤ n → session twoVars id n false [.act (.set 0 3), .act (.set 1 0), .read [0, 1], .run, .read [0, 1, 2],
    .act (.freeze 0), .act (.setTo 0 7), .run, .read [0], .act (.thaw 1)] State.new =
      [.ok, .ok, .values [1, 2], .ok, .values [9, 9, 18], .ok, .ok, .raised, .values [9], .raised] := by
  obtain ⟨h1, h2, h3, h4⟩ := twoVars_ok
  obtain ⟨n₀, h⟩ := plan_is_program_partial twoVars h1 h2 h3 id (fun l => List.Perm.refl l) twoVarsDen twoVars_meaning _ h4 false
    [.act (.set 0 3), .act (.set 1 0), .read [0, 1], .run, .read [0, 1, 2], .act (.freeze 0), .act (.setTo 0 7), .run, .read [0],
      .act (.thaw 1)] (fun a ha => by
        simp only [List.mem_cons, List.not_mem_nil, or_false, Op.act.injEq, reduceCtorEq, false_or] at ha
        rcases ha with rfl | rfl | rfl | rfl | rfl <;> rfl)
  refine ⟨n₀, fun n hn => (h n hn).trans ?_⟩
  decide +kernel

end Verif.Plan.Assign
