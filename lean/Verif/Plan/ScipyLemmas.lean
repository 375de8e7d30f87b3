import Verif.Plan.ScipySpec
import Verif.Plan.Lemmas
/-
Helper lemmas about the optimizer action.
-/
set_option linter.unusedSectionVars false
namespace Verif.Plan
variable {Name R Mon F : Type} [DecidableEq Name]

theorem size_normShape (s : List Nat) : size (normShape s) = size s := by
  cases s with
  | nil => rfl
  | cons a s => rfl

theorem normShape_idem (s : List Nat) : normShape (normShape s) = normShape s := by
  cases s with
  | nil => rfl
  | cons a s => rfl

theorem thawedNames_cons (n : Name) (s : VarState (Arr R)) (vs : Vars Name (Arr R)) :
    thawedNames ((n, s) :: vs) = if s.frozen then thawedNames vs else n :: thawedNames vs := by
  cases h : s.frozen <;> simp [thawedNames, h]

theorem flat_cons (n : Name) (s : VarState (Arr R)) (vs : Vars Name (Arr R)) :
    flat ((n, s) :: vs) = if s.frozen then flat vs else s.value.data ++ flat vs := by
  cases h : s.frozen <;> simp [flat, h]

theorem getVar_append (n : Name) (s : VarState (Arr R)) (pre vs : Vars Name (Arr R))
    (h : n ∉ pre.map Prod.fst) : getVar n (pre ++ (n, s) :: vs) = some s := by
  induction pre with
  | nil => simp [getVar]
  | cons e pre ih =>
    obtain ⟨m, t⟩ := e
    rw [List.map_cons, List.mem_cons, not_or] at h
    have hm : m ≠ n := fun h' => h.1 h'.symm
    simp [getVar, hm, ih h.2]

theorem putVar_append (n : Name) (s t : VarState (Arr R)) (pre vs : Vars Name (Arr R))
    (h : n ∉ pre.map Prod.fst) : putVar n t (pre ++ (n, s) :: vs) = pre ++ (n, t) :: vs := by
  induction pre with
  | nil => simp [putVar]
  | cons e pre ih =>
    obtain ⟨m, u⟩ := e
    rw [List.map_cons, List.mem_cons, not_or] at h
    have hm : m ≠ n := fun h' => h.1 h'.symm
    simp [putVar, hm, ih h.2]

/-- The shapes the optimizer uses for the variables that are not frozen. -/
def thawedShapes (vs : Vars Name (Arr R)) : List (List Nat) :=
  (vs.filter (fun e => !e.2.frozen)).map (fun e => normShape e.2.value.shape)

theorem thawedShapes_cons (n : Name) (s : VarState (Arr R)) (vs : Vars Name (Arr R)) :
    thawedShapes ((n, s) :: vs) =
      if s.frozen then thawedShapes vs else normShape s.value.shape :: thawedShapes vs := by
  cases h : s.frozen <;> simp [thawedShapes, h]

theorem filterMap_getVar (pre vs : Vars Name (Arr R)) (hnd : ((pre ++ vs).map Prod.fst).Nodup) :
    (thawedNames vs).filterMap (fun n => getVar n (pre ++ vs)) =
      (vs.filter (fun e => !e.2.frozen)).map Prod.snd := by
  induction vs generalizing pre with
  | nil => rfl
  | cons e vs ih =>
    obtain ⟨n, s⟩ := e
    have hn : n ∉ pre.map Prod.fst := by
      rw [List.map_append, List.nodup_append] at hnd
      intro h
      exact hnd.2.2 n h n (by simp) rfl
    have h := ih (pre ++ [(n, s)]) (by simpa using hnd)
    rw [List.append_assoc, List.singleton_append] at h
    rw [thawedNames_cons]
    cases hf : s.frozen with
    | true => simp [hf, h]
    | false => simp [hf, h, getVar_append n s pre vs hn]

theorem setAll_assign (k : Prog Name (Arr R) Nat Mon) (vs pre : Vars Name (Arr R)) (x : List R)
    (hnd : ((pre ++ vs).map Prod.fst).Nodup) (hw : WellShaped vs)
    (hx : x.length = (flat vs).length) :
    ∃ vals, unpack (thawedShapes vs) x = some vals ∧
      effect (setAll ((thawedNames vs).zip vals) k) (pre ++ vs) =
        effect k (pre ++ assign vs x) := by
  induction vs generalizing pre x with
  | nil => exact ⟨[], rfl, by simp [thawedNames, setAll, assign]⟩
  | cons e vs ih =>
    obtain ⟨n, s⟩ := e
    have hn : n ∉ pre.map Prod.fst := by
      rw [List.map_append, List.nodup_append] at hnd
      intro h
      exact hnd.2.2 n h n (by simp) rfl
    have hw' : WellShaped vs := fun e he => hw e (List.mem_cons_of_mem _ he)
    have hs : s.value.data.length = size s.value.shape := hw (n, s) (by simp)
    rw [flat_cons] at hx
    rw [thawedNames_cons, thawedShapes_cons, assign]
    cases hf : s.frozen with
    | true =>
      simp only [hf, if_true] at hx ⊢
      obtain ⟨vals, h1, h2⟩ := ih (pre ++ [(n, s)]) x (by simpa using hnd) hw' hx
      refine ⟨vals, h1, ?_⟩
      simpa using h2
    | false =>
      simp only [hf, Bool.false_eq_true, if_false, List.length_append] at hx ⊢
      have hlen : (x.take s.value.data.length).length = s.value.data.length := by
        rw [List.length_take]; omega
      have hlen' : (x.drop s.value.data.length).length = (flat vs).length := by
        rw [List.length_drop]; omega
      obtain ⟨vals, h1, h2⟩ := ih
        (pre ++ [(n, { s with value := ⟨normShape s.value.shape, x.take s.value.data.length⟩ })])
        (x.drop s.value.data.length) (by simpa using hnd) hw' hlen'
      refine ⟨⟨normShape s.value.shape, x.take s.value.data.length⟩ :: vals, ?_, ?_⟩
      · rw [unpack, size_normShape, ← hs, if_pos hlen, h1]
      · rw [List.zip_cons_cons, setAll, effect]
        have hc : change n (fun t => if (true && t.frozen) = true then none else
            some { t with value := ⟨normShape s.value.shape, x.take s.value.data.length⟩ })
            (pre ++ (n, s) :: vs) =
            (pre ++ (n, { s with value := ⟨normShape s.value.shape,
              x.take s.value.data.length⟩ }) :: vs, true) := by
          unfold change
          rw [getVar_append n s pre vs hn]
          simp [hf, putVar_append n s _ pre vs hn]
        rw [hc]
        simpa [hf] using h2

theorem assign_keys (vs : Vars Name (Arr R)) (x : List R) :
    (assign vs x).map Prod.fst = vs.map Prod.fst := by
  induction vs generalizing x with
  | nil => rfl
  | cons e vs ih =>
    obtain ⟨n, s⟩ := e
    rw [assign]
    split <;> simp [ih]

theorem assign_names (vs : Vars Name (Arr R)) (x : List R) :
    thawedNames (assign vs x) = thawedNames vs := by
  induction vs generalizing x with
  | nil => rfl
  | cons e vs ih =>
    obtain ⟨n, s⟩ := e
    rw [assign, thawedNames_cons]
    cases hf : s.frozen <;> simp [thawedNames_cons, hf, ih]

theorem assign_shapes (vs : Vars Name (Arr R)) (x : List R) :
    thawedShapes (assign vs x) = thawedShapes vs := by
  induction vs generalizing x with
  | nil => rfl
  | cons e vs ih =>
    obtain ⟨n, s⟩ := e
    rw [assign, thawedShapes_cons]
    cases hf : s.frozen <;> simp [thawedShapes_cons, hf, ih, normShape_idem]

theorem assign_flat (vs : Vars Name (Arr R)) (x : List R) (hx : x.length = (flat vs).length) :
    flat (assign vs x) = x := by
  induction vs generalizing x with
  | nil =>
    have : x = [] := by simpa [flat] using hx
    subst this; rfl
  | cons e vs ih =>
    obtain ⟨n, s⟩ := e
    rw [flat_cons] at hx
    rw [assign]
    cases hf : s.frozen with
    | true =>
      simp only [hf, if_true] at hx ⊢
      rw [flat_cons, hf, if_pos rfl]
      exact ih x hx
    | false =>
      simp only [hf, Bool.false_eq_true, if_false, List.length_append] at hx ⊢
      rw [flat_cons]
      simp only [Bool.false_eq_true, if_false]
      rw [ih _ (by rw [List.length_drop]; omega), List.take_append_drop]

theorem assign_wellShaped (vs : Vars Name (Arr R)) (x : List R) (hw : WellShaped vs)
    (hx : x.length = (flat vs).length) : WellShaped (assign vs x) := by
  induction vs generalizing x with
  | nil => intro e he; cases he
  | cons e vs ih =>
    obtain ⟨n, s⟩ := e
    have hw' : WellShaped vs := fun e he => hw e (List.mem_cons_of_mem _ he)
    have hs : s.value.data.length = size s.value.shape := hw (n, s) (by simp)
    rw [flat_cons] at hx
    rw [assign]
    cases hf : s.frozen with
    | true =>
      simp only [hf, if_true] at hx ⊢
      intro e he
      rcases List.mem_cons.1 he with rfl | he
      · exact hs
      · exact ih x hw' hx e he
    | false =>
      simp only [hf, Bool.false_eq_true, if_false, List.length_append] at hx ⊢
      intro e he
      rcases List.mem_cons.1 he with rfl | he
      · show (x.take s.value.data.length).length = size (normShape s.value.shape)
        rw [size_normShape, List.length_take, ← hs]
        omega
      · exact ih _ hw' (by rw [List.length_drop]; omega) e he

theorem assign_assign (vs : Vars Name (Arr R)) (x y : List R)
    (hx : x.length = (flat vs).length) : assign (assign vs x) y = assign vs y := by
  induction vs generalizing x y with
  | nil => rfl
  | cons e vs ih =>
    obtain ⟨n, s⟩ := e
    rw [flat_cons] at hx
    rw [assign]
    cases hf : s.frozen with
    | true =>
      simp only [hf, if_true] at hx ⊢
      rw [assign, assign, hf, if_pos rfl, if_pos rfl, ih x y hx]
    | false =>
      simp only [hf, Bool.false_eq_true, if_false, List.length_append] at hx ⊢
      rw [assign, assign]
      simp only [hf, Bool.false_eq_true, if_false, normShape_idem]
      have hlen : (x.take s.value.data.length).length = s.value.data.length := by
        rw [List.length_take]; omega
      rw [hlen, ih _ _ (by rw [List.length_drop]; omega)]

/-- Setting the variables to `x`, from any state reached by such settings. -/
theorem unpackAndSet_effect (vs : Vars Name (Arr R)) (hnd : (vs.map Prod.fst).Nodup)
    (hw : WellShaped vs) (x : List R) (hx : x.length = (flat vs).length)
    (k : Prog Name (Arr R) Nat Mon) :
    effect (unpackAndSet (thawedNames vs) (thawedShapes vs) x k) vs = effect k (assign vs x) := by
  obtain ⟨vals, h1, h2⟩ := setAll_assign k vs [] x (by simpa using hnd) hw hx
  rw [unpackAndSet, h1]
  exact h2

theorem unpackAndSet_effect' (v0 vs : Vars Name (Arr R)) (hnd : (v0.map Prod.fst).Nodup)
    (hw : WellShaped v0) (hvs : vs = v0 ∨ ∃ y, y.length = (flat v0).length ∧ vs = assign v0 y)
    (x : List R) (hx : x.length = (flat v0).length) (k : Prog Name (Arr R) Nat Mon) :
    effect (unpackAndSet (thawedNames v0) (thawedShapes v0) x k) vs = effect k (assign v0 x) := by
  rcases hvs with rfl | ⟨y, hy, rfl⟩
  · exact unpackAndSet_effect _ hnd hw x hx k
  · have h := unpackAndSet_effect (assign v0 y) (by rw [assign_keys]; exact hnd)
      (assign_wellShaped v0 y hw hy) x (by rw [assign_flat v0 y hy, hx, hy]) k
    rw [assign_names, assign_shapes, assign_assign v0 y x hy] at h
    exact h

theorem serve_effect [Neg R] (o : Optimizer Name R Mon F) (hiter : o.iter = none)
    (v0 : Vars Name (Arr R)) (hnd : (v0.map Prod.fst).Nodup) (hw : WellShaped v0)
    (c : Client R) (hc : Sized (flat v0).length c) (it : Nat) (vs : Vars Name (Arr R))
    (hvs : vs = v0 ∨ ∃ y, y.length = (flat v0).length ∧ vs = assign v0 y) :
    match c.result (fun q x => o.answer (thawedNames v0) q (assign v0 x))
        (fun _ x => (o.mon (assign v0 x)).isSome) it with
    | some x => effect (serve o (thawedNames v0) (thawedShapes v0) c it) vs = (assign v0 x, true) ∧
        x.length = (flat v0).length
    | none => (effect (serve o (thawedNames v0) (thawedShapes v0) c it) vs).2 = false := by
  induction c generalizing it vs with
  | raise => rfl
  | finish x =>
    rw [Client.result, serve]
    refine ⟨?_, hc⟩
    rw [unpackAndSet_effect' v0 vs hnd hw hvs x hc]
    rfl
  | call q x k ih =>
    rw [Client.result, serve]
    rw [unpackAndSet_effect' v0 vs hnd hw hvs x hc.1, effect]
    cases ha : o.answer (thawedNames v0) q (assign v0 x) with
    | none => rfl
    | some r => exact ih r (hc.2 r) it (assign v0 x) (Or.inr ⟨x, hc.1, rfl⟩)
  | callback x k ih =>
    rw [Client.result, serve, hiter]
    rw [unpackAndSet_effect' v0 vs hnd hw hvs x hc.1, setIter, effect]
    cases ha : (o.mon (assign v0 x)).isSome with
    | false => rfl
    | true => exact ih hc.2 (it + 1) (assign v0 x) (Or.inr ⟨x, hc.1, rfl⟩)

theorem thawedNames_filterMap (vs : Vars Name (Arr R)) (hnd : (vs.map Prod.fst).Nodup) :
    (thawedNames vs).filterMap (fun n => getVar n vs) =
      (vs.filter (fun e => !e.2.frozen)).map Prod.snd :=
  filterMap_getVar [] vs (by simpa using hnd)

/-! ### Frozen variables, for every client -/

theorem Kept.refl (vs : Vars Name (Arr R)) : Kept vs vs := by
  induction vs with
  | nil => exact List.Forall₂.nil
  | cons e vs ih => exact List.Forall₂.cons ⟨rfl, rfl, rfl, fun _ => rfl⟩ ih

theorem Kept.trans {a b c : Vars Name (Arr R)} (h : Kept a b) (h' : Kept b c) : Kept a c := by
  unfold Kept at *
  induction h generalizing c with
  | nil => cases h'; exact List.Forall₂.nil
  | cons h1 _ ih =>
    cases h' with
    | cons h2 h3 =>
      refine List.Forall₂.cons ⟨h2.1.trans h1.1, h2.2.1.trans h1.2.1, h2.2.2.1.trans h1.2.2.1, ?_⟩
        (ih h3)
      intro hf
      rw [h2.2.2.2 (h1.2.1.trans hf), h1.2.2.2 hf]

theorem change_kept (n : Name) (v : Arr R) (vs : Vars Name (Arr R)) :
    Kept vs (change n (fun s => if true && s.frozen then none else some { s with value := v })
      vs).1 := by
  unfold change
  cases hg : getVar n vs with
  | none => exact Kept.refl vs
  | some s =>
    cases hf : s.frozen with
    | true => simp only [hf, Bool.and_self, if_true]; exact Kept.refl vs
    | false =>
      simp only [hf, Bool.and_false, Bool.false_eq_true, if_false]
      induction vs with
      | nil => cases hg
      | cons e vs ih =>
        obtain ⟨m, t⟩ := e
        by_cases hm : m = n
        · simp only [getVar, hm, if_true, Option.some.injEq] at hg
          subst hg
          simp only [putVar, hm, if_true]
          exact List.Forall₂.cons ⟨rfl, hf.symm, rfl, fun h => by rw [hf] at h; cases h⟩ (Kept.refl vs)
        · simp only [getVar, hm, if_false] at hg
          simp only [putVar, hm, if_false]
          exact List.Forall₂.cons ⟨rfl, rfl, rfl, fun _ => rfl⟩ (ih hg)

theorem setAll_kept (l : List (Name × Arr R)) (k : Prog Name (Arr R) Nat Mon)
    (hk : ∀ vs, Kept vs (effect k vs).1) (vs : Vars Name (Arr R)) :
    Kept vs (effect (setAll l k) vs).1 := by
  induction l generalizing vs with
  | nil => exact hk vs
  | cons e l ih =>
    obtain ⟨n, v⟩ := e
    rw [setAll, effect]
    refine (change_kept n v vs).trans ?_
    split
    · exact ih _
    · exact Kept.refl _

theorem serve_kept [Neg R] (o : Optimizer Name R Mon F) (names : List Name)
    (shapes : List (List Nat)) (c : Client R) (it : Nat) (vs : Vars Name (Arr R)) :
    Kept vs (effect (serve o names shapes c it) vs).1 := by
  have hu : ∀ (x : List R) (k : Prog Name (Arr R) Nat Mon), (∀ vs, Kept vs (effect k vs).1) →
      ∀ vs, Kept vs (effect (unpackAndSet names shapes x k) vs).1 := by
    intro x k hk vs
    rw [unpackAndSet]
    cases unpack shapes x with
    | none => exact Kept.refl vs
    | some vals => exact setAll_kept _ k hk vs
  induction c generalizing it vs with
  | raise => exact Kept.refl vs
  | finish x => exact hu x .done Kept.refl vs
  | call q x k ih =>
    rw [serve]
    apply hu
    intro vs
    rw [effect]
    cases o.answer names q vs with
    | none => exact Kept.refl vs
    | some r => exact ih r it vs
  | callback x k ih =>
    rw [serve]
    apply hu
    intro vs
    have hw : ∀ vs, Kept vs (effect (.writeEvent (it + 1) o.mon (fun ok =>
        if ok then serve o names shapes k (it + 1) else .raise)) vs).1 := by
      intro vs
      rw [effect]
      split
      · exact ih (it + 1) vs
      · exact Kept.refl vs
    cases hi : o.iter with
    | none => exact hw vs
    | some n =>
      rw [setIter, effect]
      refine (change_kept n (o.iterVal (it + 1)) vs).trans ?_
      split
      · exact hw _
      · exact Kept.refl _

/-! ### Closures -/

theorem loopEq_spec (es : List F) (env : Env F) (cs : List Closure) :
    loopEq es env cs = ({ env with eq := (es.getLast?).orElse (fun _ => env.eq) },
      cs ++ List.replicate es.length .eq) := by
  induction es generalizing env cs with
  | nil => simp [loopEq]
  | cons e es ih =>
    rw [loopEq, ih]
    simp only [List.length_cons, List.replicate_succ, List.append_assoc, List.singleton_append,
      Prod.mk.injEq, and_true]
    cases es with
    | nil => rfl
    | cons e' es => rw [List.getLast?_cons_cons, List.getLast?_cons]; rfl

theorem loopIneq_spec (es : List F) (env : Env F) (cs : List Closure) :
    loopIneq es env cs = ({ env with ineq := (es.getLast?).orElse (fun _ => env.ineq) },
      cs ++ List.replicate es.length .ineq) := by
  induction es generalizing env cs with
  | nil => simp [loopIneq]
  | cons e es ih =>
    rw [loopIneq, ih]
    simp only [List.length_cons, List.replicate_succ, List.append_assoc, List.singleton_append,
      Prod.mk.injEq, and_true]
    cases es with
    | nil => rfl
    | cons e' es => rw [List.getLast?_cons_cons, List.getLast?_cons]; rfl

theorem buildConstraints_spec (es is : List F) :
    buildConstraints es is = (⟨es.getLast?, is.getLast?⟩,
      List.replicate es.length .eq ++ List.replicate is.length .ineq) := by
  unfold buildConstraints
  rw [loopEq_spec]
  simp only [loopIneq_spec, List.nil_append]
  cases es.getLast? <;> cases is.getLast? <;> rfl

end Verif.Plan
