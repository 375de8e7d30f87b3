import Verif.Plan.Spec
/-
Helper lemmas about plans.
-/
set_option linter.unusedSectionVars false
namespace Verif.Plan
variable {Name Val Ev Mon : Type} [DecidableEq Name]

/-- The fields no API call of an action changes. -/
structure Same (p q : Plan Name Val Ev Mon) : Prop where
  modifiable : q.modifiable = p.modifiable
  save : q.save = p.save
  autorun : q.autorun = p.autorun
  actions : q.actions = p.actions
  ptr : q.ptr = p.ptr

theorem Same.refl (p : Plan Name Val Ev Mon) : Same p p := ⟨rfl, rfl, rfl, rfl, rfl⟩

theorem Same.trans {p q r : Plan Name Val Ev Mon} (h : Same p q) (h' : Same q r) : Same p r :=
  ⟨h'.1.trans h.1, h'.2.trans h.2, h'.3.trans h.3, h'.4.trans h.4, h'.5.trans h.5⟩

theorem setValue_same (p : Plan Name Val Ev Mon) (n : Name) (v : Val) (c : Bool) :
    Same p (p.setValue n v c).1 := by
  unfold Plan.setValue
  split
  · split
    · exact Same.refl p
    · split
      · exact Same.refl p
      · exact ⟨rfl, rfl, rfl, rfl, rfl⟩
  · exact Same.refl p

theorem setBounds_same (p : Plan Name Val Ev Mon) (n : Name) (b : Val × Val) :
    Same p (p.setBounds n b).1 := by
  unfold Plan.setBounds
  split
  · split
    · exact Same.refl p
    · exact ⟨rfl, rfl, rfl, rfl, rfl⟩
  · exact Same.refl p

theorem setFrozen_same (p : Plan Name Val Ev Mon) (n : Name) (b : Bool) :
    Same p (p.setFrozen n b).1 := by
  unfold Plan.setFrozen
  split
  · split
    · exact Same.refl p
    · exact ⟨rfl, rfl, rfl, rfl, rfl⟩
  · exact Same.refl p

theorem writeEvent_same (p : Plan Name Val Ev Mon) (e : Ev) (m : Vars Name Val → Option Mon) :
    Same p (p.writeEvent e m).1 := by
  unfold Plan.writeEvent
  split
  · simp only
    split
    · split
      · exact ⟨rfl, rfl, rfl, rfl, rfl⟩
      · split <;> exact ⟨rfl, rfl, rfl, rfl, rfl⟩
    · exact ⟨rfl, rfl, rfl, rfl, rfl⟩
  · exact Same.refl p

theorem writeCheckpoint_same (p : Plan Name Val Ev Mon) (f : File) :
    Same p (p.writeCheckpoint f).1 := by
  unfold Plan.writeCheckpoint
  split
  · exact ⟨rfl, rfl, rfl, rfl, rfl⟩
  · exact Same.refl p

theorem runProg_same (pr : Prog Name Val Ev Mon) (p : Plan Name Val Ev Mon) :
    Same p (runProg pr p).1 := by
  induction pr generalizing p with
  | done => exact Same.refl p
  | raise => exact Same.refl p
  | getValue n k ih => exact ih _ p
  | getBounds n k ih => exact ih _ p
  | getThawed k ih => exact ih _ p
  | look k ih => exact ih _ p
  | setValue n v c k ih => exact (setValue_same p n v c).trans (ih _ _)
  | setBounds n b k ih => exact (setBounds_same p n b).trans (ih _ _)
  | freeze n k ih => exact (setFrozen_same p n true).trans (ih _ _)
  | thaw n k ih => exact (setFrozen_same p n false).trans (ih _ _)
  | writeEvent e m k ih => exact (writeEvent_same p e m).trans (ih _ _)
  | writeCheckpoint f k ih => exact (writeCheckpoint_same p _).trans (ih _ _)

theorem setValue_effect (p : Plan Name Val Ev Mon) (n : Name) (v : Val) (c : Bool)
    (h : p.modifiable = true) :
    ((p.setValue n v c).1.vars, (p.setValue n v c).2) =
      change n (fun s => if c && s.frozen then none else some { s with value := v }) p.vars := by
  unfold Plan.setValue change
  rw [if_pos h]
  cases hg : getVar n p.vars with
  | none => rfl
  | some s =>
    simp only
    by_cases hc : (c && s.frozen) = true
    · simp [hc]
    · simp [hc]

theorem setBounds_effect (p : Plan Name Val Ev Mon) (n : Name) (b : Val × Val)
    (h : p.modifiable = true) :
    ((p.setBounds n b).1.vars, (p.setBounds n b).2) =
      change n (fun s => some { s with bounds := b }) p.vars := by
  unfold Plan.setBounds change
  rw [if_pos h]
  cases hg : getVar n p.vars <;> rfl

theorem setFrozen_effect (p : Plan Name Val Ev Mon) (n : Name) (b : Bool)
    (h : p.modifiable = true) :
    ((p.setFrozen n b).1.vars, (p.setFrozen n b).2) =
      change n (fun s => some { s with frozen := b }) p.vars := by
  unfold Plan.setFrozen change
  rw [if_pos h]
  cases hg : getVar n p.vars <;> rfl

theorem writeEvent_effect (p : Plan Name Val Ev Mon) (e : Ev) (m : Vars Name Val → Option Mon)
    (h : p.modifiable = true) (hp : p.ptr < p.actions.length) :
    (p.writeEvent e m).1.vars = p.vars ∧ (p.writeEvent e m).2 = (m p.vars).isSome := by
  unfold Plan.writeEvent
  rw [if_pos h]
  simp only [hp, if_true]
  cases hm : m p.vars with
  | none => exact ⟨rfl, rfl⟩
  | some x =>
    simp only
    split <;> exact ⟨rfl, rfl⟩

theorem runProg_effect (pr : Prog Name Val Ev Mon) (p : Plan Name Val Ev Mon)
    (h : p.modifiable = true) (hp : p.ptr < p.actions.length) :
    ((runProg pr p).1.vars, (runProg pr p).2) = effect pr p.vars := by
  have aux : ∀ (q : Plan Name Val Ev Mon), Same p q → q.modifiable = true ∧
      q.ptr < q.actions.length := by
    intro q hs
    rw [hs.modifiable, hs.ptr, hs.actions]
    exact ⟨h, hp⟩
  induction pr generalizing p with
  | done => rfl
  | raise => rfl
  | getValue n k ih => exact ih _ p h hp aux
  | getBounds n k ih => exact ih _ p h hp aux
  | getThawed k ih =>
    simp only [runProg, effect, Plan.thawed, h, if_true]
    exact ih _ p h hp aux
  | look k ih => exact ih _ p h hp aux
  | setValue n v c k ih =>
    have h1 := setValue_effect p n v c h
    have hs := setValue_same p n v c
    have h2 := ih (p.setValue n v c).2 (p.setValue n v c).1 (aux _ hs).1 (aux _ hs).2
      (fun q hq => aux q (hs.trans hq))
    simp only [runProg, effect, h2, ← h1]
  | setBounds n b k ih =>
    have h1 := setBounds_effect p n b h
    have hs := setBounds_same p n b
    have h2 := ih (p.setBounds n b).2 (p.setBounds n b).1 (aux _ hs).1 (aux _ hs).2
      (fun q hq => aux q (hs.trans hq))
    simp only [runProg, effect, h2, ← h1]
  | freeze n k ih =>
    have h1 := setFrozen_effect p n true h
    have hs := setFrozen_same p n true
    have h2 := ih (p.setFrozen n true).2 (p.setFrozen n true).1 (aux _ hs).1 (aux _ hs).2
      (fun q hq => aux q (hs.trans hq))
    simp only [runProg, effect, h2, ← h1]
  | thaw n k ih =>
    have h1 := setFrozen_effect p n false h
    have hs := setFrozen_same p n false
    have h2 := ih (p.setFrozen n false).2 (p.setFrozen n false).1 (aux _ hs).1 (aux _ hs).2
      (fun q hq => aux q (hs.trans hq))
    simp only [runProg, effect, h2, ← h1]
  | writeEvent e m k ih =>
    have h1 := writeEvent_effect p e m h hp
    have hs := writeEvent_same p e m
    have h2 := ih (p.writeEvent e m).2 (p.writeEvent e m).1 (aux _ hs).1 (aux _ hs).2
      (fun q hq => aux q (hs.trans hq))
    rw [h1.1] at h2
    rw [runProg, effect, ← h1.2]
    exact h2
  | writeCheckpoint f k ih =>
    have hs := writeCheckpoint_same p (.user f)
    have h2 := ih (p.writeCheckpoint (.user f)).2 (p.writeCheckpoint (.user f)).1
      (aux _ hs).1 (aux _ hs).2 (fun q hq => aux q (hs.trans hq))
    simp only [runProg, effect, h2]
    simp [Plan.writeCheckpoint, hp, Plan.write]

/-! ### Keys -/

theorem getVar_none (n : Name) (vs : Vars Name Val) :
    getVar n vs = none ↔ n ∉ vs.map Prod.fst := by
  induction vs with
  | nil => simp [getVar]
  | cons e vs ih =>
    obtain ⟨m, s⟩ := e
    by_cases h : m = n
    · simp [getVar, h]
    · simp [getVar, h, ih, Ne.symm h]

theorem putVar_keys (n : Name) (s : VarState Val) (vs : Vars Name Val) (h : n ∈ vs.map Prod.fst) :
    (putVar n s vs).map Prod.fst = vs.map Prod.fst := by
  induction vs with
  | nil => simp at h
  | cons e vs ih =>
    obtain ⟨m, t⟩ := e
    by_cases hm : m = n
    · simp [putVar, hm]
    · have : n ∈ vs.map Prod.fst := by
        rw [List.map_cons, List.mem_cons] at h
        exact h.resolve_left (fun h' => hm h'.symm)
      simp [putVar, hm, ih this]

theorem change_keys (n : Name) (f : VarState Val → Option (VarState Val)) (vs : Vars Name Val) :
    (change n f vs).1.map Prod.fst = vs.map Prod.fst := by
  unfold change
  cases hg : getVar n vs with
  | none => rfl
  | some s =>
    simp only
    cases f s with
    | none => rfl
    | some t =>
      apply putVar_keys
      refine Classical.byContradiction fun h => ?_
      rw [(getVar_none n vs).2 h] at hg
      cases hg

theorem effect_keys (pr : Prog Name Val Ev Mon) (vs : Vars Name Val) :
    (effect pr vs).1.map Prod.fst = vs.map Prod.fst := by
  induction pr generalizing vs with
  | done => rfl
  | raise => rfl
  | getValue n k ih => exact ih _ vs
  | getBounds n k ih => exact ih _ vs
  | getThawed k ih => exact ih _ vs
  | look k ih => exact ih _ vs
  | setValue n v c k ih => rw [effect, ih, change_keys]
  | setBounds n b k ih => rw [effect, ih, change_keys]
  | freeze n k ih => rw [effect, ih, change_keys]
  | thaw n k ih => rw [effect, ih, change_keys]
  | writeEvent e m k ih => exact ih _ vs
  | writeCheckpoint f k ih => exact ih _ vs

theorem effects_keys (as : List (Action Name Val Ev Mon)) (vs : Vars Name Val) :
    (effects as vs).1.map Prod.fst = vs.map Prod.fst := by
  induction as generalizing vs with
  | nil => rfl
  | cons a as ih =>
    have h := effect_keys a.run vs
    rw [effects]
    cases he : effect a.run vs with
    | mk vs' b =>
      rw [he] at h
      cases b with
      | false => exact h
      | true => simp only; rw [ih]; exact h

theorem putVar_foldl (r vs : Vars Name Val) (hk : r.map Prod.fst = vs.map Prod.fst)
    (hn : (vs.map Prod.fst).Nodup) : r.foldl (fun vs e => putVar e.1 e.2 vs) vs = r := by
  suffices h : ∀ (pre r vs : Vars Name Val), r.map Prod.fst = vs.map Prod.fst →
      ((pre ++ vs).map Prod.fst).Nodup →
      r.foldl (fun vs e => putVar e.1 e.2 vs) (pre ++ vs) = pre ++ r by
    simpa using h [] r vs hk (by simpa using hn)
  intro pre r
  induction r generalizing pre with
  | nil =>
    intro vs hk _
    have : vs = [] := by
      cases vs with
      | nil => rfl
      | cons e vs => simp at hk
    subst this; rfl
  | cons e r ih =>
    intro vs hk hn
    cases vs with
    | nil => simp at hk
    | cons e' vs =>
      obtain ⟨m, s⟩ := e
      obtain ⟨m', s'⟩ := e'
      rw [List.map_cons, List.map_cons, List.cons.injEq] at hk
      simp only at hk
      obtain ⟨rfl, hk⟩ := hk
      have hput : ∀ pre : Vars Name Val, m ∉ pre.map Prod.fst →
          putVar m s (pre ++ (m, s') :: vs) = pre ++ (m, s) :: vs := by
        intro pre
        induction pre with
        | nil => intro _; simp [putVar]
        | cons x pre ihp =>
          obtain ⟨mx, sx⟩ := x
          intro hm
          have h1 : mx ≠ m := by
            intro h; apply hm; simp [h]
          have h2 : m ∉ pre.map Prod.fst := fun h => hm (by
            rw [List.map_cons]; exact List.mem_cons_of_mem _ h)
          simp [putVar, h1, ihp h2]
      rw [List.foldl_cons]
      have hm : m ∉ pre.map Prod.fst := by
        rw [List.map_append, List.nodup_append] at hn
        intro h
        exact hn.2.2 m h m (by simp) rfl
      simp only [hput pre hm]
      have := ih (pre ++ [(m, s)]) vs hk (by
        simpa using hn)
      simpa using this

/-! ### Running -/

theorem autoCheckpoint_same (p : Plan Name Val Ev Mon) (auto : Bool) :
    Same p (p.autoCheckpoint auto) := by
  unfold Plan.autoCheckpoint
  split
  · exact writeCheckpoint_same p _
  · exact Same.refl p

theorem autoCheckpoint_vars (p : Plan Name Val Ev Mon) (auto : Bool) :
    (p.autoCheckpoint auto).vars = p.vars := by
  unfold Plan.autoCheckpoint Plan.writeCheckpoint
  split
  · split <;> rfl
  · rfl

theorem runLoop_fixed (auto : Bool) (as : List (Action Name Val Ev Mon)) (p : Plan Name Val Ev Mon) :
    (runLoop auto as p).1.modifiable = p.modifiable ∧ (runLoop auto as p).1.actions = p.actions ∧
    (runLoop auto as p).1.save = p.save ∧ (runLoop auto as p).1.autorun = p.autorun := by
  induction as generalizing p with
  | nil => exact ⟨rfl, rfl, rfl, rfl⟩
  | cons a as ih =>
    have hs := runProg_same a.run p
    rw [runLoop]
    cases hr : runProg a.run p with
    | mk p' b =>
      rw [hr] at hs
      cases b with
      | false => exact ⟨hs.modifiable, hs.actions, hs.save, hs.autorun⟩
      | true =>
        simp only
        have h := ih (p'.autoCheckpoint auto).advance
        have hc := hs.trans (autoCheckpoint_same p' auto)
        exact ⟨h.1.trans hc.modifiable, h.2.1.trans hc.actions, h.2.2.1.trans hc.save,
          h.2.2.2.trans hc.autorun⟩

theorem runLoop_effects (auto : Bool) (as : List (Action Name Val Ev Mon))
    (p : Plan Name Val Ev Mon) (h : p.modifiable = true) (hp : p.ptr + as.length = p.actions.length) :
    ((runLoop auto as p).1.vars, (runLoop auto as p).2) = effects as p.vars := by
  induction as generalizing p with
  | nil => rfl
  | cons a as ih =>
    have hlt : p.ptr < p.actions.length := by simp only [List.length_cons] at hp; omega
    have he := runProg_effect a.run p h hlt
    have hs := runProg_same a.run p
    rw [runLoop, effects, ← he]
    cases hr : runProg a.run p with
    | mk p' b =>
      rw [hr] at hs
      simp only at hs
      cases b with
      | false => rfl
      | true =>
        simp only
        have hc := hs.trans (autoCheckpoint_same p' auto)
        have := ih (p'.autoCheckpoint auto).advance (by
            show (p'.autoCheckpoint auto).modifiable = true
            rw [hc.modifiable, h]) (by
            show (p'.autoCheckpoint auto).ptr + 1 + as.length = (p'.autoCheckpoint auto).actions.length
            rw [hc.ptr, hc.actions]
            simp only [List.length_cons] at hp
            omega)
        rw [this]
        show effects as (p'.autoCheckpoint auto).vars = _
        rw [autoCheckpoint_vars]

theorem run_effects (p : Plan Name Val Ev Mon) (auto : Bool) (hp : p.ptr ≤ p.actions.length) :
    ((p.run auto).1.vars, (p.run auto).2) = effects (p.actions.drop p.ptr) p.vars := by
  have h := runLoop_effects auto (p.actions.drop p.ptr) { p with modifiable := true } rfl (by
    simp only [List.length_drop]; omega)
  simp only at h
  rw [← h, Plan.run]
  cases runLoop auto (p.actions.drop p.ptr) { p with modifiable := true } with
  | mk p' b => cases b <;> rfl

/-- Which files a program can write. -/
theorem runProg_disk_action (pr : Prog Name Val Ev Mon) (p : Plan Name Val Ev Mon) (N : Nat) :
    (runProg pr p).1.disk (.action N) = p.disk (.action N) := by
  induction pr generalizing p with
  | done => rfl
  | raise => rfl
  | getValue n k ih => exact ih _ p
  | getBounds n k ih => exact ih _ p
  | getThawed k ih => exact ih _ p
  | look k ih => exact ih _ p
  | setValue n v c k ih =>
    rw [runProg, ih]
    unfold Plan.setValue
    split
    · split
      · rfl
      · split <;> rfl
    · rfl
  | setBounds n b k ih =>
    rw [runProg, ih]
    unfold Plan.setBounds
    split
    · split <;> rfl
    · rfl
  | freeze n k ih =>
    rw [runProg, ih]
    unfold Plan.setFrozen
    split
    · split <;> rfl
    · rfl
  | thaw n k ih =>
    rw [runProg, ih]
    unfold Plan.setFrozen
    split
    · split <;> rfl
    · rfl
  | writeEvent e m k ih =>
    rw [runProg, ih]
    unfold Plan.writeEvent
    split
    · simp only
      split
      · split
        · rfl
        · split <;> simp [Plan.write]
      · rfl
    · rfl
  | writeCheckpoint f k ih =>
    rw [runProg, ih]
    unfold Plan.writeCheckpoint
    split <;> simp [Plan.write]

theorem runLoop_ptr_ge (auto : Bool) (as : List (Action Name Val Ev Mon))
    (p : Plan Name Val Ev Mon) : p.ptr ≤ (runLoop auto as p).1.ptr := by
  induction as generalizing p with
  | nil => exact Nat.le_refl _
  | cons a as ih =>
    have hs := runProg_same a.run p
    rw [runLoop]
    cases hr : runProg a.run p with
    | mk p' b =>
      rw [hr] at hs
      simp only at hs
      cases b with
      | false => simp only; rw [hs.ptr]; exact Nat.le_refl _
      | true =>
        simp only
        have h := ih (p'.autoCheckpoint auto).advance
        have hc := hs.trans (autoCheckpoint_same p' auto)
        have e : (p'.autoCheckpoint auto).advance.ptr = (p'.autoCheckpoint auto).ptr + 1 := rfl
        rw [e, hc.ptr] at h
        omega

/-- Content of the automatic checkpoint of action `N`. -/
theorem runLoop_checkpoint (as : List (Action Name Val Ev Mon)) (p : Plan Name Val Ev Mon)
    (h : p.modifiable = true) (hsave : p.save = true)
    (hp : p.ptr + as.length = p.actions.length) (N : Nat) :
    (p.ptr ≤ N → N < (runLoop true as p).1.ptr → (effects (as.take (N + 1 - p.ptr)) p.vars).2 = true ∧
      (runLoop true as p).1.disk (.action N) =
      some ⟨N, (effects (as.take (N + 1 - p.ptr)) p.vars).1, none, none, none⟩) ∧
    (N < p.ptr → (runLoop true as p).1.disk (.action N) = p.disk (.action N)) := by
  induction as generalizing p with
  | nil => exact ⟨fun h1 h2 => absurd h2 (by simp [runLoop]; omega), fun _ => rfl⟩
  | cons a as ih =>
    have hlt : p.ptr < p.actions.length := by simp only [List.length_cons] at hp; omega
    have he := runProg_effect a.run p h hlt
    have hs := runProg_same a.run p
    have hd := fun N => runProg_disk_action a.run p N
    rw [runLoop]
    cases hr : runProg a.run p with
    | mk p' b =>
      rw [hr] at hs he hd
      simp only at hs he hd
      cases b with
      | false =>
        simp only
        refine ⟨fun h1 h2 => ?_, fun _ => hd N⟩
        rw [hs.ptr] at h2; omega
      | true =>
        simp only
        have hc := hs.trans (autoCheckpoint_same p' true)
        have ih' := ih (p'.autoCheckpoint true).advance (by
            show (p'.autoCheckpoint true).modifiable = true
            rw [hc.modifiable, h]) (by
            show (p'.autoCheckpoint true).save = true
            rw [hc.save, hsave]) (by
            show (p'.autoCheckpoint true).ptr + 1 + as.length = (p'.autoCheckpoint true).actions.length
            rw [hc.ptr, hc.actions]
            simp only [List.length_cons] at hp
            omega)
        have hptr : (p'.autoCheckpoint true).advance.ptr = p.ptr + 1 := by
          show (p'.autoCheckpoint true).ptr + 1 = _
          rw [hc.ptr]
        have hdisk : ∀ N, (p'.autoCheckpoint true).advance.disk (.action N) =
            if N = p.ptr then some ⟨p.ptr, p'.vars, none, none, none⟩ else p.disk (.action N) := by
          intro N
          show (p'.autoCheckpoint true).disk (.action N) = _
          have hlt' : p'.ptr < p'.actions.length := by rw [hs.ptr, hs.actions]; exact hlt
          have hsave' : p'.save = true := by rw [hs.save, hsave]
          have hw : p'.autoCheckpoint true =
              p'.write (.action p.ptr) ⟨p.ptr, p'.vars, none, none, none⟩ := by
            unfold Plan.autoCheckpoint Plan.writeCheckpoint
            rw [hsave', if_pos hlt', hs.ptr]
            rfl
          rw [hw]
          by_cases hN : N = p.ptr
          · simp [Plan.write, hN]
          · simp [Plan.write, hN, hd N]
        have hvars : (p'.autoCheckpoint true).advance.vars = p'.vars := autoCheckpoint_vars p' true
        rw [hptr, hvars] at ih'
        constructor
        · intro h1 h2
          by_cases hN : N = p.ptr
          · subst hN
            have := ih'.2 (by omega)
            rw [hdisk, if_pos rfl] at this
            have e1 : p.ptr + 1 - p.ptr = 1 := by omega
            rw [this, e1]
            simp only [List.take_succ_cons, List.take_zero, effects, ← he]
            exact ⟨trivial, trivial⟩
          · obtain ⟨i1, i2⟩ := ih'.1 (by omega) h2
            have e1 : N + 1 - p.ptr = (N + 1 - (p.ptr + 1)) + 1 := by omega
            rw [e1]
            simp only [List.take_succ_cons, effects, ← he]
            exact ⟨i1, i2⟩
        · intro h1
          rw [ih'.2 (by omega), hdisk, if_neg (by omega)]

/-- Effects of two consecutive parts. -/
theorem effects_append (as bs : List (Action Name Val Ev Mon)) (vs : Vars Name Val)
    (h : (effects as vs).2 = true) : effects (as ++ bs) vs = effects bs (effects as vs).1 := by
  induction as generalizing vs with
  | nil => rfl
  | cons a as ih =>
    rw [List.cons_append, effects]
    rw [effects] at h
    rw [effects]
    cases he : effect a.run vs with
    | mk vs' b =>
      rw [he] at h
      cases b with
      | false => cases h
      | true => exact ih vs' h

theorem resumeHere_effects (p : Plan Name Val Ev Mon) (auto : Bool) (hd : p.data = none)
    (hp : p.ptr < p.actions.length) :
    ((p.resumeHere auto).1.vars, (p.resumeHere auto).2) = effects (p.actions.drop p.ptr) p.vars := by
  have hget : p.actions[p.ptr]? = some p.actions[p.ptr] := List.getElem?_eq_getElem hp
  have hdrop : p.actions.drop p.ptr = p.actions[p.ptr] :: p.actions.drop (p.ptr + 1) :=
    List.drop_eq_getElem_cons hp
  have he := runProg_effect p.actions[p.ptr].run { p with modifiable := true } rfl hp
  have hs := runProg_same p.actions[p.ptr].run { p with modifiable := true }
  unfold Plan.resumeHere
  have hp' : { p with modifiable := true, data := none } = { p with modifiable := true } := by
    rw [← hd]
  simp only [hget, hd, Action.resumeProg]
  rw [hp', hdrop, effects, ← he]
  cases hr : runProg p.actions[p.ptr].run { p with modifiable := true } with
  | mk p' b =>
    rw [hr] at hs
    simp only at hs
    cases b with
    | false => rfl
    | true =>
      simp only
      have hc := hs.trans (autoCheckpoint_same p' auto)
      have h := run_effects { (p'.autoCheckpoint auto).advance with modifiable := false } true (by
        show (p'.autoCheckpoint auto).ptr + 1 ≤ (p'.autoCheckpoint auto).actions.length
        rw [hc.ptr, hc.actions]; exact hp)
      rw [h]
      show effects ((p'.autoCheckpoint auto).actions.drop ((p'.autoCheckpoint auto).ptr + 1))
        (p'.autoCheckpoint auto).vars = _
      rw [hc.ptr, hc.actions, autoCheckpoint_vars]

end Verif.Plan
