import Verif.Schema.Context
/-
Property C17. The specification keeps, for every context object, the function from keys to
registered values; a lookup is the first hit in the contexts of the stack from the top down.
-/
namespace Verif.Schema

/-! ### Specification -/

/-- Contexts as functions; `stack` has its top first. -/
structure Abs (K V : Type) where
  count : Nat
  reg : Nat → K → Option V
  stack : List Nat

variable {K V : Type} [DecidableEq K]

/-- One context, empty, on the stack. -/
def Abs.init : Abs K V := { count := 1, reg := fun _ _ => none, stack := [0] }

/-- Adds a registration. -/
def Abs.add (a : Abs K V) (c : Nat) (k : K) (v : V) : Abs K V :=
  { a with reg := fun c' k' => if c' = c ∧ k' = k then some v else a.reg c' k' }

/-- The intended effect of an operation, `none` if it has to raise. -/
def Abs.step (a : Abs K V) : CtxOp K V → Option (Abs K V)
  | .create => some { a with count := a.count + 1 }
  | .push none => some { a with count := a.count + 1, stack := a.count :: a.stack }
  | .push (some c) => if c < a.count then some { a with stack := c :: a.stack } else none
  | .pop => match a.stack with
    | [] => none
    | _ :: cs => some { a with stack := cs }
  | .register k v => match a.stack with
    | [] => none
    | c :: _ => if a.reg c k = none then some (a.add c k v) else none
  | .registerIn c k v => if c < a.count ∧ a.reg c k = none then some (a.add c k v) else none

/-- Operations that raise have no effect. -/
def Abs.run (a : Abs K V) (ops : List (CtxOp K V)) : Abs K V :=
  ops.foldl (fun a op => (a.step op).getD a) a

/-- The registration of the topmost context that has one. -/
def Abs.lookup (a : Abs K V) (k : K) : Option V := (a.stack.filterMap (a.reg · k)).head?

/-! ### Dictionaries -/

theorem Dict.get_set (d : Dict K V) (k k' : K) (v : V) :
    (d.set k v).get k' = if k' = k then some v else d.get k' := by
  induction d with
  | nil =>
    simp only [Dict.set, Dict.get]
    by_cases h : k' = k
    · simp [h]
    · have : k ≠ k' := fun e => h e.symm
      simp [h, this]
  | cons e d ih =>
    obtain ⟨k0, v0⟩ := e
    simp only [Dict.set]
    by_cases h0 : k0 = k
    · subst h0
      simp only [if_true, Dict.get]
      by_cases h : k' = k0
      · subst h; simp
      · have : k0 ≠ k' := fun e => h e.symm
        simp [h, this]
    · simp only [h0, if_false, Dict.get, ih]
      by_cases h1 : k0 = k'
      · subst h1
        simp [h0]
      · simp [h1]

theorem Dict.get_update (d e : Dict K V) (hk : (e.map Prod.fst).Nodup) (k : K) :
    (d.update e).get k = match e.get k with | some v => some v | none => d.get k := by
  unfold Dict.update
  induction e generalizing d with
  | nil => rfl
  | cons p e ih =>
    obtain ⟨k0, v0⟩ := p
    simp only [List.map_cons, List.nodup_cons] at hk
    rw [List.foldl_cons, ih _ hk.2]
    simp only [Dict.get]
    have hnone : ∀ (e : Dict K V), k0 ∉ e.map Prod.fst → e.get k0 = none := by
      intro e
      induction e with
      | nil => intro _; rfl
      | cons p e ih =>
        intro h
        simp only [List.map_cons, List.mem_cons, not_or] at h
        have : p.1 ≠ k0 := fun x => h.1 x.symm
        obtain ⟨p1, p2⟩ := p
        simp only [Dict.get]
        rw [if_neg this]
        exact ih h.2
    by_cases h : k0 = k
    · subst h
      rw [hnone e hk.1, Dict.get_set]
      simp
    · rw [if_neg h, Dict.get_set, if_neg (fun x => h x.symm)]

theorem Dict.keys_set (d : Dict K V) (k : K) (v : V) (h : d.get k = none) :
    (d.set k v).map Prod.fst = d.map Prod.fst ++ [k] := by
  induction d with
  | nil => rfl
  | cons e d ih =>
    obtain ⟨k0, v0⟩ := e
    simp only [Dict.get] at h
    by_cases h0 : k0 = k
    · rw [if_pos h0] at h; cases h
    · rw [if_neg h0] at h
      simp [Dict.set, h0, ih h]

theorem Dict.get_none_iff (d : Dict K V) (k : K) : d.get k = none ↔ k ∉ d.map Prod.fst := by
  induction d with
  | nil => simp [Dict.get]
  | cons e d ih =>
    obtain ⟨k0, v0⟩ := e
    simp only [Dict.get, List.map_cons, List.mem_cons, not_or]
    by_cases h0 : k0 = k
    · simp [h0]
    · rw [if_neg h0, ih]
      exact ⟨fun h => ⟨fun e => h0 e.symm, h⟩, fun h => h.2⟩

theorem Dict.nodup_set (d : Dict K V) (k : K) (v : V) (h : d.get k = none)
    (hd : (d.map Prod.fst).Nodup) : ((d.set k v).map Prod.fst).Nodup := by
  rw [Dict.keys_set d k v h, List.nodup_append]
  refine ⟨hd, by simp, ?_⟩
  intro a ha b hb
  rw [List.mem_singleton] at hb
  subst hb
  exact fun e => (Dict.get_none_iff d b).1 h (e ▸ ha)

/-! ### goos: refinement -/

/-- The model's state represents the abstract one. -/
structure Rep (s : Stack K V) (a : Abs K V) : Prop where
  count : s.heap.length = a.count
  reg : ∀ c k, Dict.get (s.heap[c]?.getD []) k = a.reg c k
  stack : s.stack.reverse = a.stack
  bound : ∀ c ∈ a.stack, c < a.count
  keys : ∀ d ∈ s.heap, (d.map Prod.fst).Nodup

theorem rep_init : Rep (Stack.init : Stack K V) Abs.init := by
  refine ⟨rfl, ?_, rfl, by simp [Abs.init], by simp [Stack.init]⟩
  intro c k
  cases c <;> rfl

theorem rep_grow {s : Stack K V} {a : Abs K V} (h : Rep s a) (c : Nat) (k : K) :
    Dict.get ((s.heap ++ [[]])[c]?.getD []) k = a.reg c k := by
  rw [← h.reg]
  rcases Nat.lt_trichotomy c s.heap.length with hc | hc | hc
  · rw [List.getElem?_append_left hc]
  · subst hc; simp
  · rw [List.getElem?_eq_none (by simp; omega), List.getElem?_eq_none (by omega)]

theorem rep_registerIn {s : Stack K V} {a : Abs K V} (h : Rep s a) (c : Nat) (k : K) (v : V) :
    if c < a.count ∧ a.reg c k = none
    then (s.registerIn c k v).2 = false ∧ Rep (s.registerIn c k v).1 (a.add c k v)
    else s.registerIn c k v = (s, true) := by
  have hreg := h.reg c k
  by_cases hc : c < s.heap.length
  · have hc' : c < a.count := h.count ▸ hc
    have hget : s.heap[c]? = some s.heap[c] := List.getElem?_eq_getElem hc
    rw [hget] at hreg
    simp only [Option.getD_some] at hreg
    unfold Stack.registerIn
    rw [hget]
    simp only [regCtx, hreg]
    cases hr : a.reg c k with
    | some w => simp
    | none =>
      simp only [hc', and_self, if_true]
      rw [hr] at hreg
      refine ⟨trivial, ⟨by simpa [Abs.add] using h.count, ?_, h.stack, h.bound, ?_⟩⟩
      · intro c' k'
        simp only [Abs.add, List.getElem?_set]
        by_cases e : c = c'
        · subst e
          rw [if_pos rfl, if_pos hc, Option.getD_some, Dict.get_set]
          by_cases ek : k' = k
          · simp [ek]
          · simp only [ek, if_false, and_false]
            rw [← h.reg, hget, Option.getD_some]
        · rw [if_neg e, if_neg (fun x => e x.1.symm)]
          exact h.reg c' k'
      · intro d hd
        rcases List.mem_or_eq_of_mem_set hd with hd | hd
        · exact h.keys d hd
        · subst hd
          exact Dict.nodup_set _ _ _ hreg (h.keys _ (List.getElem_mem hc))
  · have : ¬ c < a.count := h.count ▸ hc
    rw [if_neg (fun x => this x.1)]
    unfold Stack.registerIn
    rw [List.getElem?_eq_none (by omega)]

/-- Every operation does what the specification says; one that raises changes nothing. -/
theorem rep_step {s : Stack K V} {a : Abs K V} (h : Rep s a) (op : CtxOp K V) :
    match a.step op with
    | some a' => (s.step op).2 = false ∧ Rep (s.step op).1 a'
    | none => s.step op = (s, true) := by
  cases op with
  | create =>
    refine ⟨rfl, ⟨?_, fun c k => rep_grow (a := a) h c k, h.stack, ?_, ?_⟩⟩
    · simp [Stack.step, h.count]
    · intro c hc
      exact Nat.lt_succ_of_lt (h.bound c hc)
    · intro d hd
      simp only [Stack.step, List.mem_append, List.mem_singleton] at hd
      rcases hd with hd | rfl
      · exact h.keys d hd
      · simp
  | push c =>
    cases c with
    | none =>
      refine ⟨rfl, ⟨?_, fun c k => rep_grow (a := a) h c k, ?_, ?_, ?_⟩⟩
      · simp [Stack.step, h.count]
      · simp [Stack.step, h.stack, h.count]
      · intro c hc
        simp only [List.mem_cons] at hc
        rcases hc with rfl | hc
        · exact Nat.lt_succ_self _
        · exact Nat.lt_succ_of_lt (h.bound c hc)
      · intro d hd
        simp only [Stack.step, List.mem_append, List.mem_singleton] at hd
        rcases hd with hd | rfl
        · exact h.keys d hd
        · simp
    | some c =>
      simp only [Abs.step, Stack.step, h.count]
      by_cases hc : c < a.count
      · simp only [hc, if_true]
        refine ⟨trivial, ⟨h.count, h.reg, by simp [h.stack], ?_, h.keys⟩⟩
        intro c' hc'
        rcases List.mem_cons.1 hc' with rfl | hc'
        · exact hc
        · exact h.bound c' hc'
      · simp [hc]
  | pop =>
    simp only [Abs.step, Stack.step]
    cases hs : a.stack with
    | nil =>
      have : s.stack = [] := by
        have := h.stack
        rw [hs] at this
        simpa using this
      simp [this]
    | cons c cs =>
      have e : s.stack = cs.reverse ++ [c] := by
        have := h.stack
        rw [hs] at this
        have := congrArg List.reverse this
        simpa using this
      have hne : s.stack ≠ [] := by rw [e]; simp
      simp only [hne, if_false]
      refine ⟨trivial, ⟨h.count, h.reg, by rw [e]; simp, ?_, h.keys⟩⟩
      intro c' hc'
      exact h.bound c' (by rw [hs]; exact List.mem_cons_of_mem _ hc')
  | register k v =>
    simp only [Abs.step, Stack.step]
    cases hs : a.stack with
    | nil =>
      have : s.stack = [] := by
        have := h.stack
        rw [hs] at this
        simpa using this
      simp [this]
    | cons c cs =>
      have e : s.stack.getLast? = some c := by
        have := h.stack
        rw [hs] at this
        have := congrArg List.reverse this
        rw [List.reverse_reverse] at this
        rw [this]; simp
      have hc : c < a.count := h.bound c (by rw [hs]; simp)
      have := rep_registerIn h c k v
      rw [e]
      by_cases hr : a.reg c k = none
      · rw [if_pos ⟨hc, hr⟩] at this
        simpa [hr] using this
      · rw [if_neg (fun x => hr x.2)] at this
        simpa [hr] using this
  | registerIn c k v =>
    have := rep_registerIn h c k v
    simp only [Abs.step, Stack.step]
    by_cases hc : c < a.count ∧ a.reg c k = none
    · rw [if_pos hc] at this ⊢
      exact this
    · rw [if_neg hc] at this ⊢
      exact this

theorem rep_run (ops : List (CtxOp K V)) {s : Stack K V} {a : Abs K V} (h : Rep s a) :
    Rep (s.run ops) (a.run ops) := by
  induction ops generalizing s a with
  | nil => exact h
  | cons op ops ih =>
    refine ih ?_
    have := rep_step h op
    show Rep (s.step op).1 ((a.step op).getD a)
    cases hs : a.step op with
    | none =>
      rw [hs] at this
      simp only at this
      rw [this]
      exact h
    | some a' =>
      rw [hs] at this
      exact this.2

theorem searchTop_eq (heap : List (Dict K V)) (reg : Nat → K → Option V)
    (hreg : ∀ c k, Dict.get (heap[c]?.getD []) k = reg c k) (cs : List Nat) (k : K) :
    searchTop heap cs k = (cs.filterMap (reg · k)).head? := by
  induction cs with
  | nil => rfl
  | cons c cs ih =>
    rw [searchTop, hreg, List.filterMap_cons]
    cases reg c k with
    | none => exact ih
    | some v => rfl

/-- C17: after any history, a lookup returns the registration of the topmost context that has
one. -/
theorem lookup_is_topmost (ops : List (CtxOp K V)) (k : K) :
    (Stack.init.run ops).getNode k = (Abs.init.run ops).lookup k := by
  have h := rep_run ops (rep_init (K := K) (V := V))
  unfold Stack.getNode Abs.lookup
  rw [searchTop_eq _ _ h.reg, h.stack]

theorem getMap_get {s : Stack K V} {a : Abs K V} (h : Rep s a) (k : K) :
    s.getMap.get k = s.getNode k := by
  unfold Stack.getMap Stack.getNode
  rw [← List.foldr_reverse]
  generalize s.stack.reverse = cs
  have hk : ∀ c : Nat, ((s.heap[c]?.getD []).map Prod.fst).Nodup := by
    intro c
    by_cases hc : c < s.heap.length
    · rw [List.getElem?_eq_getElem hc, Option.getD_some]
      exact h.keys _ (List.getElem_mem hc)
    · rw [List.getElem?_eq_none (by omega)]; simp
  induction cs with
  | nil => rfl
  | cons c cs ih =>
    rw [List.foldr_cons, Dict.get_update _ _ (hk c), ih, searchTop]
    cases Dict.get (s.heap[c]?.getD []) k <;> rfl

/-- C17: after any history, the merged dictionary agrees with the individual lookups. -/
theorem map_agrees_with_lookup (ops : List (CtxOp K V)) (k : K) :
    (Stack.init.run ops).getMap.get k = (Stack.init.run ops).getNode k :=
  getMap_get (rep_run ops rep_init) k

/-- C17: after any history, an operation raises exactly when the specification says so (for a
registration: when the context already has one for that key), and then nothing changes. -/
theorem raises_without_effect (ops : List (CtxOp K V)) (op : CtxOp K V) :
    ((Stack.init.run ops).step op).2 = ((Abs.init.run ops).step op).isNone ∧
    (((Stack.init.run ops).step op).2 = true →
      ((Stack.init.run ops).step op).1 = Stack.init.run ops) := by
  have := rep_step (rep_run ops (rep_init (K := K) (V := V))) op
  cases hs : (Abs.init.run ops).step op with
  | none =>
    rw [hs] at this
    simp only at this
    rw [this]
    exact ⟨rfl, fun _ => rfl⟩
  | some a' =>
    rw [hs] at this
    refine ⟨this.1, fun h => ?_⟩
    rw [this.1] at h
    cases h

/-- C17: whatever is registered through the stack between pushing a new context and popping it,
afterwards every lookup gives what it gave before. -/
theorem pop_undoes_push (ops : List (CtxOp K V)) (regs : List (K × V)) (k : K) :
    (Stack.init.run (ops ++ [.push none] ++ regs.map (fun r => .register r.1 r.2) ++ [.pop])).getNode
      k = (Stack.init.run ops).getNode k := by
  rw [lookup_is_topmost, lookup_is_topmost]
  have hb := (rep_run ops (rep_init (K := K) (V := V))).bound
  revert hb
  simp only [Abs.run, List.foldl_append]
  generalize (List.foldl _ Abs.init ops : Abs K V) = a
  intro hb
  simp only [List.foldl_cons, List.foldl_nil]
  have key : ∀ (regs : List (K × V)) (b : Abs K V), b.stack = a.count :: a.stack →
      (∀ c, c < a.count → b.reg c = a.reg c) →
      let b' := List.foldl (fun a op => (a.step op).getD a) b
        (regs.map (fun r => CtxOp.register r.1 r.2))
      b'.stack = a.count :: a.stack ∧ (∀ c, c < a.count → b'.reg c = a.reg c) := by
    intro regs
    induction regs with
    | nil => exact fun b h1 h2 => ⟨h1, h2⟩
    | cons r regs ih =>
      intro b h1 h2
      simp only [List.map_cons, List.foldl_cons]
      refine ih _ ?_ ?_
      · simp only [Abs.step, h1]
        split
        · simpa [Abs.add] using h1
        · exact h1
      · intro c hc
        simp only [Abs.step, h1]
        split
        · funext k'
          simp only [Option.getD_some, Abs.add]
          rw [if_neg (fun x => by have := x.1; omega), h2 c hc]
        · exact h2 c hc
  obtain ⟨h1, h2⟩ := key regs ((a.step (.push none)).getD a) rfl (fun _ _ => rfl)
  revert h1 h2
  generalize List.foldl _ _ (regs.map _) = b
  intro h1 h2
  unfold Abs.lookup
  simp only [Abs.step, h1, Option.getD_some]
  congr 1
  revert hb
  generalize a.stack = cs
  intro hb
  induction cs with
  | nil => rfl
  | cons c cs ih =>
    rw [List.filterMap_cons, List.filterMap_cons, h2 c (hb c (by simp)),
      ih (fun c hc => hb c (List.mem_cons_of_mem _ hc))]

/-- A history in which the topmost registration is not the last one. -/
example : (Stack.init.run ([.register "a" 1, .push none, .register "a" 2, .registerIn 0 "b" 3,
      .register "a" 4] : List (CtxOp String Nat))).getNode "a" = some 2 ∧
    (Stack.init.run ([.register "a" 1, .push none, .register "a" 2, .registerIn 0 "b" 3,
      .register "a" 4] : List (CtxOp String Nat))).getNode "b" = some 3 := by decide

/-- C17 is false for `SchemaRegistryStack`: no registry can ever be pushed. -/
theorem registry_push_always_raises (s : Stack K V) (c : Option Nat) :
    (s.stepRegistry (.push c)).2 = true ∧ (s.stepRegistry (.push c)).1.stack = s.stack := by
  cases c <;> exact ⟨rfl, rfl⟩

/-- So after any history its stack holds at most the initial registry. -/
theorem registry_stack_never_grows (ops : List (CtxOp K V)) :
    (Stack.init.runRegistry ops).stack = [0] ∨ (Stack.init.runRegistry ops).stack = [] := by
  have : ∀ (ops : List (CtxOp K V)) (s : Stack K V), (s.stack = [0] ∨ s.stack = []) →
      ((s.runRegistry ops).stack = [0] ∨ (s.runRegistry ops).stack = []) := by
    intro ops
    induction ops with
    | nil => exact fun s h => h
    | cons op ops ih =>
      intro s h
      refine ih _ ?_
      have hreg : ∀ c k v, (s.registerIn c k v).1.stack = s.stack := by
        intro c k v
        unfold Stack.registerIn
        split
        · rfl
        · split <;> rfl
      cases op with
      | create => exact h
      | push c => cases c <;> exact h
      | pop =>
        simp only [Stack.stepRegistry, Stack.step]
        rcases h with h | h <;> simp [h]
      | register k v =>
        simp only [Stack.stepRegistry, Stack.step]
        split
        · exact h
        · rw [hreg]; exact h
      | registerIn c k v =>
        simp only [Stack.stepRegistry, Stack.step]
        rw [hreg]; exact h
  exact this ops _ (Or.inl rfl)

/-! ### invdes -/

variable {M T Model Fun : Type} [DecidableEq M] [DecidableEq T]

/-- The intended content: per context object and pair of metatype and type a model and a creator. -/
structure PAbs (M T Model Fun : Type) where
  count : Nat
  reg : Nat → M → T → Option (Model × Option Fun)
  stack : List Nat

def PAbs.init : PAbs M T Model Fun := { count := 0, reg := fun _ _ _ => none, stack := [] }

def PAbs.step (a : PAbs M T Model Fun) : PCtxOp M T Model Fun → Option (PAbs M T Model Fun)
  | .create => some { a with count := a.count + 1 }
  | .push c => if c < a.count then some { a with stack := c :: a.stack } else none
  | .pop => some { a with stack := a.stack.tail }
  | .registerIn c m t model fn =>
    if c < a.count ∧ (a.reg c m t).isNone then
      some { a with reg := fun c' m' t' =>
        if c' = c ∧ m' = m ∧ t' = t then some (model, fn) else a.reg c' m' t' }
    else none

def PAbs.run (a : PAbs M T Model Fun) (ops : List (PCtxOp M T Model Fun)) : PAbs M T Model Fun :=
  ops.foldl (fun a op => (a.step op).getD a) a

def entry (d : PCtx M T Model Fun) (m : M) (t : T) : Option (Model × Option Fun) :=
  (d.get m).bind (fun e => e.get t)

structure PRep (s : PStack M T Model Fun) (a : PAbs M T Model Fun) : Prop where
  count : s.heap.length = a.count
  reg : ∀ c m t, entry (s.heap[c]?.getD []) m t = a.reg c m t
  stack : s.stack.reverse = a.stack
  keys : ∀ d ∈ s.heap, ∀ m e, Dict.get d m = some e → (e.map Prod.fst).Nodup

theorem prep_init : PRep (PStack.init : PStack M T Model Fun) PAbs.init :=
  ⟨rfl, fun _ _ _ => rfl, rfl, fun _ h => by cases h⟩

theorem prep_step {s : PStack M T Model Fun} {a : PAbs M T Model Fun} (h : PRep s a)
    (op : PCtxOp M T Model Fun) :
    match a.step op with
    | some a' => (s.step op).2 = false ∧ PRep (s.step op).1 a'
    | none => s.step op = (s, true) := by
  cases op with
  | create =>
    refine ⟨rfl, ⟨by simp [PStack.step, h.count], ?_, h.stack, ?_⟩⟩
    · intro c m t
      rw [← h.reg]
      simp only [PStack.step]
      rcases Nat.lt_trichotomy c s.heap.length with hc | hc | hc
      · rw [List.getElem?_append_left hc]
      · subst hc; simp
      · rw [List.getElem?_eq_none (by simp; omega), List.getElem?_eq_none (by omega)]
    · intro d hd
      simp only [PStack.step, List.mem_append, List.mem_singleton] at hd
      rcases hd with hd | rfl
      · exact h.keys d hd
      · intro m e he; cases he
  | push c =>
    simp only [PAbs.step, PStack.step, h.count]
    by_cases hc : c < a.count
    · simp only [hc, if_true]
      exact ⟨trivial, ⟨h.count, h.reg, by simp [h.stack], h.keys⟩⟩
    · simp [hc]
  | pop =>
    refine ⟨rfl, ⟨h.count, h.reg, ?_, h.keys⟩⟩
    simp only [PStack.step]
    rw [← h.stack]
    simp [List.tail_reverse]
  | registerIn c m t model fn =>
    have hreg := h.reg c m t
    simp only [PAbs.step, PStack.step]
    by_cases hc : c < s.heap.length
    · have hc' : c < a.count := h.count ▸ hc
      have hget : s.heap[c]? = some s.heap[c] := List.getElem?_eq_getElem hc
      rw [hget] at hreg ⊢
      simp only [Option.getD_some] at hreg
      have hent : ((Dict.get s.heap[c] m).getD []).get t = a.reg c m t := by
        rw [← hreg, entry]
        cases Dict.get s.heap[c] m <;> rfl
      simp only [PCtx.register, hent]
      cases hr : a.reg c m t with
      | some w => simp
      | none =>
        simp only [hc', Option.isNone_none, and_self, if_true]
        rw [hr] at hent
        refine ⟨trivial, ⟨by simpa using h.count, ?_, h.stack, ?_⟩⟩
        · intro c' m' t'
          simp only [List.getElem?_set]
          by_cases e : c = c'
          · subst e
            rw [if_pos rfl, if_pos hc, Option.getD_some]
            simp only [entry, Dict.get_set, true_and]
            by_cases em : m' = m
            · subst em
              simp only [if_true, Option.bind_some, Dict.get_set, true_and]
              by_cases et : t' = t
              · simp [et]
              · simp only [et, if_false]
                rw [← h.reg, hget, Option.getD_some, entry]
                cases Dict.get s.heap[c] m' <;> rfl
            · simp only [em, if_false, false_and]
              rw [← h.reg, hget, Option.getD_some, entry]
          · rw [if_neg e, if_neg (fun x => e x.1.symm)]
            exact h.reg c' m' t'
        · intro d hd
          rcases List.mem_or_eq_of_mem_set hd with hd | hd
          · exact h.keys d hd
          · subst hd
            intro m' e he
            rw [Dict.get_set] at he
            by_cases em : m' = m
            · simp only [em, if_true, Option.some.injEq] at he
              subst he
              refine Dict.nodup_set _ _ _ hent ?_
              cases hm : Dict.get s.heap[c] m with
              | none => simp
              | some e => exact h.keys _ (List.getElem_mem hc) m e hm
            · simp only [em, if_false] at he
              exact h.keys _ (List.getElem_mem hc) m' e he
    · have : ¬ c < a.count := h.count ▸ hc
      rw [if_neg (fun x => this x.1), List.getElem?_eq_none (by omega)]

theorem prep_run (ops : List (PCtxOp M T Model Fun)) {s : PStack M T Model Fun}
    {a : PAbs M T Model Fun} (h : PRep s a) : PRep (s.run ops) (a.run ops) := by
  induction ops generalizing s a with
  | nil => exact h
  | cons op ops ih =>
    refine ih ?_
    have := prep_step h op
    show PRep (s.step op).1 ((a.step op).getD a)
    cases hs : a.step op with
    | none =>
      rw [hs] at this
      simp only at this
      rw [this]
      exact h
    | some a' =>
      rw [hs] at this
      exact this.2

theorem pSearch_eq {A : Type} (look : Nat → Option A) (cs : List Nat) :
    pSearch look cs = (cs.filterMap look).head? := by
  induction cs with
  | nil => rfl
  | cons c cs ih =>
    rw [pSearch, List.filterMap_cons]
    cases look c with
    | none => exact ih
    | some v => rfl

theorem model_eq (c : PCtx M T Model Fun) (m : M) (t : T) :
    c.model m t = (entry c m t).map Prod.fst := by
  unfold PCtx.model entry
  cases c.get m with
  | none => rfl
  | some d => simp only [Option.bind_some]; cases d.get t <;> rfl

theorem creator_eq (c : PCtx M T Model Fun) (m : M) (t : T) :
    c.creator m t = (entry c m t).bind Prod.snd := by
  unfold PCtx.creator entry
  cases c.get m with
  | none => rfl
  | some d => simp only [Option.bind_some]; cases d.get t <;> rfl

/-- C17 for invdes: after any history, the model found is the one registered in the topmost context
that has a registration, and the creator found is the topmost one that is not `None`. -/
theorem invdes_lookup_is_topmost (ops : List (PCtxOp M T Model Fun)) (m : M) (t : T) :
    let a := PAbs.init.run ops
    (PStack.init.run ops).getModel m t =
      ((a.stack.filterMap (a.reg · m t)).head?).map Prod.fst ∧
    (PStack.init.run ops).getCreator m t =
      (a.stack.filterMap (fun c => (a.reg c m t).bind Prod.snd)).head? := by
  have h := prep_run ops (prep_init (M := M) (T := T) (Model := Model) (Fun := Fun))
  constructor
  · unfold PStack.getModel
    rw [pSearch_eq, h.stack]
    simp only [model_eq, h.reg]
    rw [← List.head?_map, List.map_filterMap]
  · unfold PStack.getCreator
    rw [pSearch_eq, h.stack]
    simp only [creator_eq, h.reg]

theorem modelDict_get (c : PCtx M T Model Fun) (m : M) (t : T) :
    (c.modelDict m).get t = c.model m t := by
  unfold PCtx.modelDict PCtx.model
  cases c.get m with
  | none => rfl
  | some d =>
    simp only
    induction d with
    | nil => rfl
    | cons e d ih =>
      obtain ⟨k, v⟩ := e
      simp only [List.map_cons, Dict.get]
      by_cases hk : k = t
      · simp [hk]
      · simp only [hk, if_false]; exact ih

/-- C17 for invdes: the merged dictionary agrees with the individual lookups. -/
theorem invdes_map_agrees_with_lookup (ops : List (PCtxOp M T Model Fun)) (m : M) (t : T) :
    ((PStack.init.run ops).getModelDict m).get t = (PStack.init.run ops).getModel m t := by
  have h := prep_run ops (prep_init (M := M) (T := T) (Model := Model) (Fun := Fun))
  revert h
  generalize PStack.init.run ops = s
  intro h
  unfold PStack.getModelDict PStack.getModel
  rw [← List.foldr_reverse]
  generalize s.stack.reverse = cs
  have hk : ∀ c : Nat, ((PCtx.modelDict (s.heap[c]?.getD []) m).map Prod.fst).Nodup := by
    intro c
    unfold PCtx.modelDict
    cases he : Dict.get (s.heap[c]?.getD []) m with
    | none => simp
    | some e =>
      have hc : c < s.heap.length := by
        refine Classical.byContradiction fun hc => ?_
        rw [List.getElem?_eq_none (by omega)] at he
        cases he
      rw [List.getElem?_eq_getElem hc, Option.getD_some] at he
      have := h.keys _ (List.getElem_mem hc) m e he
      simpa [List.map_map, Function.comp_def] using this
  induction cs with
  | nil => rfl
  | cons c cs ih =>
    rw [List.foldr_cons, Dict.get_update _ _ (hk c), ih, pSearch, modelDict_get]
    cases PCtx.model (s.heap[c]?.getD []) m t <;> rfl

/-- C17 for invdes: registering a type twice in the same context raises and changes nothing, and an
operation raises exactly when the specification says so. -/
theorem invdes_raises_without_effect (ops : List (PCtxOp M T Model Fun))
    (op : PCtxOp M T Model Fun) :
    ((PStack.init.run ops).step op).2 = ((PAbs.init.run ops).step op).isNone ∧
    (((PStack.init.run ops).step op).2 = true →
      ((PStack.init.run ops).step op).1 = PStack.init.run ops) := by
  have := prep_step (prep_run ops
    (prep_init (M := M) (T := T) (Model := Model) (Fun := Fun))) op
  cases hs : (PAbs.init.run ops).step op with
  | none =>
    rw [hs] at this
    simp only at this
    rw [this]
    exact ⟨rfl, fun _ => rfl⟩
  | some a' =>
    rw [hs] at this
    refine ⟨this.1, fun h => ?_⟩
    rw [this.1] at h
    cases h

/-- C17 for invdes: popping what was pushed restores the stack. -/
theorem invdes_pop_undoes_push (s : PStack M T Model Fun) (c : Nat) (hc : c < s.heap.length) :
    ((s.step (.push c)).1.step .pop).1 = s := by
  simp [PStack.step, hc]

/-- A creator registered as `None` in an upper context does not hide the creator below it, although
the model found is that of the upper context. -/
theorem none_creator_falls_through :
    ∃ ops : List (PCtxOp String String Nat Nat),
      (PStack.init.run ops).getModel "m" "t" = some 2 ∧
      (PStack.init.run ops).getCreator "m" "t" = some 10 :=
  ⟨[.create, .create, .push 0, .push 1, .registerIn 0 "m" "t" 1 (some 10),
    .registerIn 1 "m" "t" 2 none], by decide⟩

example : (PStack.init.run ([.create, .create, .push 0, .push 1,
      .registerIn 0 "m" "t" 1 (some 10), .registerIn 1 "m" "t" 2 (some 20), .pop] :
      List (PCtxOp String String Nat Nat))).getCreator "m" "t" = some 10 := by decide

end Verif.Schema
