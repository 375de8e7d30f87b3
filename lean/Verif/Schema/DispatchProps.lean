import Verif.Schema.Dispatch
import Verif.Schema.ContextProps
/-
Property C119: what can be saved is loaded as the same class.
-/
namespace Verif.Schema

variable {M T C F : Type} [DecidableEq M] [DecidableEq T]

/-! ### Specification: the history of contexts -/

/-- The registrations of each context, newest context of the stack first. -/
structure Hist (M C : Type) where
  count : Nat
  regs : Nat → M → List C
  stack : List Nat

def Hist.init : Hist M C := ⟨0, fun _ _ => [], []⟩

/-- A context takes one class for each type. -/
def Hist.step (typeOf : C → T) (h : Hist M C) : DOp M C F → Hist M C
  | .create => { h with count := h.count + 1 }
  | .push c => if c < h.count then { h with stack := c :: h.stack } else h
  | .pop => { h with stack := h.stack.tail }
  | .register m cls _ =>
    match h.stack with
    | [] => h
    | c :: _ =>
      if (h.regs c m).any (fun c' => decide (typeOf c' = typeOf cls)) then h
      else { h with regs := fun c' m' => if c' = c ∧ m' = m then cls :: h.regs c m else h.regs c' m' }

def Hist.run (typeOf : C → T) (ops : List (DOp M C F)) : Hist M C := ops.foldl (Hist.step typeOf) Hist.init

/-- The class for a type that a program sees: the one registered in the topmost context that has one. -/
def Hist.visible (typeOf : C → T) (h : Hist M C) (m : M) (t : T) : Option C :=
  (h.stack.filterMap (fun c => (h.regs c m).find? (fun cls => decide (typeOf cls = t)))).head?

/-! ### Refinement -/

/-- The dictionaries hold what was registered. -/
structure DRep (typeOf : C → T) (s : PStack M T C F) (a : PAbs M T C F) (h : Hist M C) : Prop where
  prep : PRep s a
  count : a.count = h.count
  stack : a.stack = h.stack
  bound : ∀ c ∈ h.stack, c < h.count
  reg : ∀ c m t, (a.reg c m t).map Prod.fst = (h.regs c m).find? (fun cls => decide (typeOf cls = t))

theorem drep_step {typeOf : C → T} {s : PStack M T C F} {a : PAbs M T C F} {h : Hist M C}
    (r : DRep typeOf s a h) (op : DOp M C F) :
    ∃ a', DRep typeOf (dStep typeOf s op).1 a' (h.step typeOf op) := by
  cases op with
  | create =>
    have := prep_step r.prep (.create)
    simp only [PAbs.step] at this
    exact ⟨_, this.2, by simp [Hist.step, r.count], r.stack, fun c hc => Nat.lt_succ_of_lt (r.bound c hc), r.reg⟩
  | push c =>
    have := prep_step r.prep (.push c)
    simp only [PAbs.step, r.count] at this
    by_cases hc : c < h.count
    · simp only [hc, if_true] at this
      refine ⟨_, this.2, ?_, ?_, ?_, ?_⟩
      · simp [Hist.step, hc]
      · simp [Hist.step, hc, r.stack]
      · intro c' hc'
        simp only [Hist.step, hc, if_true, List.mem_cons] at hc' ⊢
        rcases hc' with rfl | hc'
        · exact hc
        · exact r.bound c' hc'
      · intro c' m t
        simpa [Hist.step, hc] using r.reg c' m t
    · simp only [hc, if_false] at this
      refine ⟨a, ?_⟩
      have e : (dStep typeOf s (.push c)).1 = s := by simp only [dStep, this]
      have e2 : h.step (F := F) typeOf (.push c) = h := by simp [Hist.step, hc]
      rw [e, e2]
      exact r
  | pop =>
    have := prep_step r.prep (.pop)
    simp only [PAbs.step] at this
    exact ⟨_, this.2, r.count, by simp [Hist.step, r.stack], fun c hc => r.bound c (List.mem_of_mem_tail hc), r.reg⟩
  | register m cls fn =>
    have hst : s.stack.getLast? = h.stack.head? := by
      rw [← r.stack, ← r.prep.stack, List.head?_reverse]
    cases hs : h.stack with
    | nil =>
      rw [hs] at hst
      have e : (dStep typeOf s (.register m cls fn)).1 = s := by
        simp only [dStep, hst, List.head?_nil]
      have e2 : h.step typeOf (.register m cls fn) = h := by simp [Hist.step, hs]
      rw [e, e2]
      exact ⟨a, r⟩
    | cons c cs =>
      rw [hs] at hst
      have hc : c < h.count := r.bound c (by rw [hs]; simp)
      have hstep : dStep typeOf s (.register m cls fn) =
          s.step (.registerIn c m (typeOf cls) cls (some fn)) := by
        simp only [dStep, hst, List.head?_cons]
      rw [hstep]
      have := prep_step r.prep (.registerIn c m (typeOf cls) cls (some fn))
      simp only [PAbs.step, r.count, hc, true_and] at this
      have hreg := r.reg c m (typeOf cls)
      by_cases hn : (h.regs c m).any (fun c' => decide (typeOf c' = typeOf cls)) = true
      · have hsome : (a.reg c m (typeOf cls)).isNone = false := by
          cases ha : a.reg c m (typeOf cls) with
          | some _ => rfl
          | none =>
            rw [ha, Option.map_none] at hreg
            have := List.find?_eq_none.1 hreg.symm
            obtain ⟨y, hy1, hy2⟩ := List.any_eq_true.1 hn
            exact absurd hy2 (this y hy1)
        rw [hsome] at this
        simp only [Bool.false_eq_true, if_false] at this
        refine ⟨a, ?_⟩
        rw [this]
        have e2 : h.step typeOf (.register m cls fn) = h := by simp only [Hist.step, hs, hn, if_true]
        rw [e2]
        exact r
      · have hnone : (a.reg c m (typeOf cls)).isNone = true := by
          cases ha : a.reg c m (typeOf cls) with
          | none => rfl
          | some e =>
            rw [ha, Option.map_some] at hreg
            refine absurd ?_ hn
            rw [List.any_eq_true]
            refine ⟨e.1, List.mem_of_find?_eq_some hreg.symm, ?_⟩
            have := List.find?_some hreg.symm
            exact this
        rw [hnone] at this
        simp only [if_true] at this
        have e2 : h.step typeOf (.register m cls fn) =
            { h with regs := fun c' m' => if c' = c ∧ m' = m then cls :: h.regs c m else h.regs c' m' } := by
          simp only [Hist.step, hs, if_neg hn]
        rw [e2]
        refine ⟨_, this.2, rfl, by simpa [hs] using r.stack, by simpa [hs] using r.bound, ?_⟩
        intro c' m' t'
        simp only
        by_cases h1 : c' = c ∧ m' = m
        · obtain ⟨rfl, rfl⟩ := h1
          simp only [true_and, and_self, if_true, List.find?_cons]
          by_cases h2 : t' = typeOf cls
          · simp [h2]
          · have h3 : ¬ typeOf cls = t' := fun e => h2 e.symm
            simp only [h2, h3, if_false, decide_false]
            exact r.reg c' m' t'
        · rw [if_neg h1, if_neg (fun x => h1 ⟨x.1, x.2.1⟩)]
          exact r.reg c' m' t'

theorem drep_run (typeOf : C → T) (ops : List (DOp M C F)) :
    ∃ a, DRep typeOf (dRun typeOf ops PStack.init) a (Hist.run typeOf ops) := by
  have key : ∀ (ops : List (DOp M C F)) s a h, DRep typeOf s a h →
      ∃ a, DRep typeOf (dRun typeOf ops s) a (ops.foldl (Hist.step typeOf) h) := by
    intro ops
    induction ops with
    | nil => intro s a h r; exact ⟨a, r⟩
    | cons op ops ih =>
      intro s a h r
      obtain ⟨a', r'⟩ := drep_step r op
      exact ih _ _ _ r'
  refine key ops _ PAbs.init _ ⟨prep_init, rfl, rfl, by simp [Hist.init], fun _ _ _ => rfl⟩

theorem getModel_visible {typeOf : C → T} {s : PStack M T C F} {a : PAbs M T C F} {h : Hist M C}
    (r : DRep typeOf s a h) (m : M) (t : T) : s.getModel m t = h.visible typeOf m t := by
  unfold PStack.getModel Hist.visible
  rw [pSearch_eq, r.prep.stack, r.stack]
  simp only [model_eq, r.prep.reg, r.reg]

omit [DecidableEq M] in
theorem visible_type {typeOf : C → T} {h : Hist M C} {m : M} {t : T} {cls : C}
    (hv : h.visible typeOf m t = some cls) : typeOf cls = t := by
  unfold Hist.visible at hv
  obtain ⟨c, -, hc⟩ := List.mem_filterMap.1 (List.mem_of_head? hv)
  simpa using List.find?_some hc

/-! ### The values of a dictionary -/

theorem Dict.nodup_set' {K V : Type} [DecidableEq K] (d : Dict K V) (k : K) (v : V) (hd : (d.map Prod.fst).Nodup) :
    ((d.set k v).map Prod.fst).Nodup := by
  cases hg : d.get k with
  | none => exact Dict.nodup_set d k v hg hd
  | some w =>
    have : (d.set k v).map Prod.fst = d.map Prod.fst := by
      clear hd
      induction d with
      | nil => simp [Dict.get] at hg
      | cons e d ih =>
        obtain ⟨k0, v0⟩ := e
        simp only [Dict.get] at hg
        by_cases h0 : k0 = k
        · simp [Dict.set, h0]
        · rw [if_neg h0] at hg
          simp only [Dict.set, h0, if_false, List.map_cons]
          rw [ih hg]
    rw [this]
    exact hd

theorem Dict.nodup_update {K V : Type} [DecidableEq K] (e d : Dict K V) (hd : (d.map Prod.fst).Nodup) :
    ((d.update e).map Prod.fst).Nodup := by
  unfold Dict.update
  induction e generalizing d with
  | nil => exact hd
  | cons x e ih => exact ih _ (Dict.nodup_set' d x.1 x.2 hd)

theorem Dict.mem_values {K V : Type} [DecidableEq K] (d : Dict K V) (hd : (d.map Prod.fst).Nodup) (v : V) :
    v ∈ d.map Prod.snd ↔ ∃ k, d.get k = some v := by
  induction d with
  | nil => simp [Dict.get]
  | cons e d ih =>
    obtain ⟨k0, v0⟩ := e
    simp only [List.map_cons, List.nodup_cons] at hd
    simp only [List.map_cons, List.mem_cons, ih hd.2, Dict.get]
    constructor
    · rintro (rfl | ⟨k, hk⟩)
      · exact ⟨k0, by simp⟩
      · refine ⟨k, ?_⟩
        have : k0 ≠ k := by
          rintro rfl
          rw [(Dict.get_none_iff d k0).2 hd.1] at hk
          cases hk
        rw [if_neg this]
        exact hk
    · rintro ⟨k, hk⟩
      by_cases h0 : k0 = k
      · rw [if_pos h0] at hk
        exact Or.inl (Option.some.inj hk).symm
      · rw [if_neg h0] at hk
        exact Or.inr ⟨k, hk⟩

theorem modelDict_nodup (s : PStack M T C F) (m : M) : ((s.getModelDict m).map Prod.fst).Nodup := by
  unfold PStack.getModelDict
  have key : ∀ (l : List Nat) (d : Dict T C), (d.map Prod.fst).Nodup →
      ((l.foldl (fun d c => d.update (PCtx.modelDict (s.heap[c]?.getD []) m)) d).map Prod.fst).Nodup := by
    intro l
    induction l with
    | nil => exact fun d h => h
    | cons c l ih => exact fun d h => ih _ (Dict.nodup_update _ _ h)
  exact key _ _ (by simp)

theorem modelDict_agrees {s : PStack M T C F} {a : PAbs M T C F} (h : PRep s a) (m : M) (t : T) :
    (s.getModelDict m).get t = s.getModel m t := by
  unfold PStack.getModelDict PStack.getModel
  rw [← List.foldr_reverse]
  generalize s.stack.reverse = cs
  have hk : ∀ c : Nat, ((PCtx.modelDict (s.heap[c]?.getD []) m).map Prod.fst).Nodup := by
    intro c
    unfold PCtx.modelDict
    cases he : Dict.get (s.heap[c]?.getD []) m with
    | none => simp
    | some e =>
      have hc : c < s.heap.length := by
        refine Classical.byContradiction fun hc => ?_
        rw [List.getElem?_eq_none (by omega)] at he
        cases he
      rw [List.getElem?_eq_getElem hc, Option.getD_some] at he
      have := h.keys _ (List.getElem_mem hc) m e he
      simpa [List.map_map, Function.comp_def] using this
  induction cs with
  | nil => rfl
  | cons c cs ih =>
    rw [List.foldr_cons, Dict.get_update _ _ (hk c), ih, pSearch, modelDict_get]
    cases PCtx.model (s.heap[c]?.getD []) m t <;> rfl

/-! ### The property -/

/-- C119: after any history, data is converted to the class seen for its type. -/
theorem convert_visible (typeOf : C → T) (ops : List (DOp M C F)) (m : M) (t : T) :
    polyConvert (dRun typeOf ops PStack.init) m t = (Hist.run typeOf ops).visible typeOf m t := by
  obtain ⟨a, r⟩ := drep_run typeOf ops
  exact getModel_visible r m t

/-- C119: after any history, a model can be saved exactly if its class is the one seen for the type of the
class: not if it was never registered, nor with another metatype, nor if its context was popped, nor if
another class hides it. -/
theorem export_iff_visible [DecidableEq C] (typeOf : C → T) (ops : List (DOp M C F)) (m : M) (v : DValue T C) :
    polyExport (dRun typeOf ops PStack.init) m v =
      if (Hist.run typeOf ops).visible typeOf m (typeOf v.cls) = some v.cls then some v.type else none := by
  obtain ⟨a, r⟩ := drep_run typeOf ops
  have key : v.cls ∈ ((dRun typeOf ops PStack.init).getModelDict m).map Prod.snd ↔
      (Hist.run typeOf ops).visible typeOf m (typeOf v.cls) = some v.cls := by
    rw [Dict.mem_values _ (modelDict_nodup _ m)]
    simp only [modelDict_agrees r.prep, getModel_visible r]
    constructor
    · rintro ⟨t, ht⟩
      have := visible_type ht
      rw [this]
      exact ht
    · exact fun h => ⟨_, h⟩
  unfold polyExport
  by_cases h : v.cls ∈ ((dRun typeOf ops PStack.init).getModelDict m).map Prod.snd
  · rw [if_pos h, if_pos (key.1 h)]
  · rw [if_neg h, if_neg (fun x => h (key.2 x))]

/-- C119: a valid model that can be saved is loaded as a model of the same class. -/
theorem saved_loads_same_class [DecidableEq C] (typeOf : C → T) (ops : List (DOp M C F)) (m : M) (v : DValue T C)
    (hv : v.type = typeOf v.cls) (t : T) (he : polyExport (dRun typeOf ops PStack.init) m v = some t) :
    polyConvert (dRun typeOf ops PStack.init) m t = some v.cls := by
  rw [export_iff_visible] at he
  rw [convert_visible]
  split at he
  · rename_i h
    rw [← Option.some.inj he, hv]
    exact h
  · cases he

/-- C119: what is loaded can be saved again, with the type that was loaded. -/
theorem loaded_saves_again [DecidableEq C] (typeOf : C → T) (ops : List (DOp M C F)) (m : M) (t : T) (cls : C)
    (hc : polyConvert (dRun typeOf ops PStack.init) m t = some cls) :
    typeOf cls = t ∧ polyExport (dRun typeOf ops PStack.init) m ⟨cls, t⟩ = some t := by
  rw [convert_visible] at hc
  have h := visible_type hc
  refine ⟨h, ?_⟩
  rw [export_iff_visible]
  simp only [h]
  rw [if_pos hc]

/-- A history in which a class is hidden by another one with the same type (the parity of the number). -/
def hidingOps : List (DOp Unit Nat Unit) :=
  [.create, .create, .push 0, .register () 1 (), .register () 2 (), .register () 4 (), .push 1, .register () 3 ()]

example : let s := dRun (fun c : Nat => c % 2) hidingOps PStack.init;
    polyExport s () ⟨1, 1⟩ = none ∧ polyExport s () ⟨3, 1⟩ = some 1 ∧ polyExport s () ⟨2, 0⟩ = some 0 ∧
      polyExport s () ⟨4, 0⟩ = none ∧ polyConvert s () 1 = some 3 := by decide

omit [DecidableEq M] in
/-- C119 for goos: data is converted to the class of the topmost context that has one for the type, if that
is a class of the kind wanted. -/
theorem goos_convert_visible (sub : C → M → Bool) (ops : List (CtxOp T C)) (m : M) (t : T) :
    goosConvert sub (Stack.init.run ops) m t = ((Abs.init.run ops).lookup t).filter (fun c => sub c m) := by
  unfold goosConvert
  rw [lookup_is_topmost]
  cases (Abs.init.run ops).lookup t with
  | none => rfl
  | some c => cases h : sub c m <;> simp [h, Option.filter]

omit [DecidableEq M] in
/-- C119 for goos, as far as it holds: a node is loaded as a node of the same class exactly if that class is the
one seen for its type and is of the kind wanted. Missing: nothing stops a node of another class from
being saved. -/
theorem goos_saved_loads_same_class_partial (sub : C → M → Bool) (ops : List (CtxOp T C)) (m : M) (v : DValue T C) :
    (goosExport v).bind (goosConvert sub (Stack.init.run ops) m) = some v.cls ↔
      (Abs.init.run ops).lookup v.type = some v.cls ∧ sub v.cls m = true := by
  simp only [goosExport, Option.bind_some]
  rw [goos_convert_visible]
  cases (Abs.init.run ops).lookup v.type with
  | none => simp
  | some c =>
    cases h : sub c m
    · simp only [Option.filter, h]
      constructor
      · intro h'; cases h'
      · rintro ⟨h1, h2⟩
        rw [← Option.some.inj h1, h] at h2
        cases h2
    · simp only [Option.filter, h, if_true, Option.some.injEq]
      constructor
      · rintro rfl
        exact ⟨rfl, h⟩
      · exact fun h => h.1

/-- C119 fails for goos: a node whose class is hidden by another one of the same type is saved and loaded as
the other class. -/
theorem goos_hidden_class_false :
    ∃ (ops : List (CtxOp String Nat)) (v : DValue String Nat),
      (goosExport v).bind (goosConvert (fun _ _ => true) (Stack.init.run ops) ()) = some 2 ∧ v.cls = 1 ∧
      v.type = "t" ∧ CtxOp.register "t" 1 ∈ ops :=
  ⟨[.register "t" 1, .push none, .register "t" 2], ⟨1, "t"⟩, by decide, rfl, rfl, by simp⟩

end Verif.Schema
