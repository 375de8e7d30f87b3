import Verif.Plan.Log
import Verif.Plan.ScipyLemmas
/-
Properties C53 and C54: the event handed to a resumed action is its own, resuming from a log entry
continues that action, and a resumed optimizer continues to count its iterations.
-/
set_option linter.unusedSectionVars false
namespace Verif.Plan
variable {Name Val Ev Mon : Type} [DecidableEq Name]

/-! ### Helper lemmas -/

/-- Invariant of sessions that started in an empty folder. -/
structure EvInv (p : Plan Name Val Ev Mon) : Prop where
  save : p.save = true
  only : ∀ f r e, p.disk f = some r → r.event = some e → ∃ k, f = .step k
  own : ∀ e, p.data = some e → ∃ k r, p.disk (.step k) = some r ∧ r.ptr = p.ptr ∧ r.event = some e

theorem EvInv.of_eq {p q : Plan Name Val Ev Mon} (h : EvInv p) (h1 : q.save = p.save)
    (h2 : q.disk = p.disk) (h3 : q.data = p.data) (h4 : q.ptr = p.ptr) : EvInv q := by
  obtain ⟨a, b, c⟩ := h
  exact ⟨h1.trans a, by rw [h2]; exact b, by rw [h2, h3, h4]; exact c⟩

theorem EvInv.of_none {p q : Plan Name Val Ev Mon} (h : EvInv p) (h1 : q.save = p.save)
    (h2 : q.disk = p.disk) (h3 : q.data = none) : EvInv q := by
  obtain ⟨a, b, _⟩ := h
  exact ⟨h1.trans a, by rw [h2]; exact b, fun e he => by rw [h3] at he; cases he⟩

theorem setValue_ev {p : Plan Name Val Ev Mon} (h : EvInv p) (n : Name) (v : Val) (c : Bool) :
    EvInv (p.setValue n v c).1 := by
  unfold Plan.setValue
  split
  · split
    · exact h
    · split
      · exact h
      · exact h.of_eq rfl rfl rfl rfl
  · exact h

theorem setBounds_ev {p : Plan Name Val Ev Mon} (h : EvInv p) (n : Name) (b : Val × Val) :
    EvInv (p.setBounds n b).1 := by
  unfold Plan.setBounds
  split
  · split
    · exact h
    · exact h.of_eq rfl rfl rfl rfl
  · exact h

theorem setFrozen_ev {p : Plan Name Val Ev Mon} (h : EvInv p) (n : Name) (b : Bool) :
    EvInv (p.setFrozen n b).1 := by
  unfold Plan.setFrozen
  split
  · split
    · exact h
    · exact h.of_eq rfl rfl rfl rfl
  · exact h

theorem writeEvent_ev {p : Plan Name Val Ev Mon} (h : EvInv p) (e : Ev)
    (m : Vars Name Val → Option Mon) : EvInv (p.writeEvent e m).1 := by
  unfold Plan.writeEvent
  split
  · simp only
    split
    · split
      · exact h.of_eq rfl rfl rfl rfl
      · rw [if_pos h.save]
        refine ⟨h.save, ?_, ?_⟩
        · intro f r e' hf he
          by_cases hfs : f = .step (p.counter + 1)
          · exact ⟨_, hfs⟩
          · simp only [Plan.write, if_neg hfs] at hf
            exact h.only f r e' hf he
        · intro e' he
          have he : some e = some e' := he
          exact ⟨p.counter + 1, _, by simp [Plan.write]; rfl, rfl, he⟩
    · exact h.of_eq rfl rfl rfl rfl
  · exact h

theorem writeCheckpoint_ev {p : Plan Name Val Ev Mon} (h : EvInv p) (f : File)
    (hf : ∀ k, f ≠ .step k) : EvInv (p.writeCheckpoint f).1 := by
  unfold Plan.writeCheckpoint
  split
  · refine ⟨h.save, ?_, ?_⟩
    · intro g r e hg he
      by_cases hgf : g = f
      · simp only [Plan.write, if_pos hgf, Option.some.injEq] at hg
        subst hg
        cases he
      · simp only [Plan.write, if_neg hgf] at hg
        exact h.only g r e hg he
    · intro e he
      obtain ⟨k, r, h1, h2, h3⟩ := h.own e he
      exact ⟨k, r, by simp only [Plan.write, if_neg (Ne.symm (hf k))]; exact h1, h2, h3⟩
  · exact h

theorem runProg_ev (pr : Prog Name Val Ev Mon) {p : Plan Name Val Ev Mon} (h : EvInv p) :
    EvInv (runProg pr p).1 := by
  induction pr generalizing p with
  | done => exact h
  | raise => exact h
  | getValue n k ih => exact ih _ h
  | getBounds n k ih => exact ih _ h
  | getThawed k ih => exact ih _ h
  | look k ih => exact ih _ h
  | setValue n v c k ih => exact ih _ (setValue_ev h n v c)
  | setBounds n b k ih => exact ih _ (setBounds_ev h n b)
  | freeze n k ih => exact ih _ (setFrozen_ev h n true)
  | thaw n k ih => exact ih _ (setFrozen_ev h n false)
  | writeEvent e m k ih => exact ih _ (writeEvent_ev h e m)
  | writeCheckpoint f k ih => exact ih _ (writeCheckpoint_ev h _ (fun k => by simp))

theorem advance_ev {p : Plan Name Val Ev Mon} (h : EvInv p) (auto : Bool) :
    EvInv (p.autoCheckpoint auto).advance := by
  have h1 : EvInv (p.autoCheckpoint auto) := by
    unfold Plan.autoCheckpoint
    split
    · exact writeCheckpoint_ev h _ (fun k => by simp)
    · exact h
  exact h1.of_none rfl rfl rfl

theorem runLoop_ev (auto : Bool) (as : List (Action Name Val Ev Mon)) {p : Plan Name Val Ev Mon}
    (h : EvInv p) : EvInv (runLoop auto as p).1 := by
  induction as generalizing p with
  | nil => exact h
  | cons a as ih =>
    have hs := runProg_ev a.run h
    rw [runLoop]
    cases hr : runProg a.run p with
    | mk p' b =>
      rw [hr] at hs
      cases b with
      | false => exact hs
      | true => exact ih (advance_ev hs auto)

theorem run_ev {p : Plan Name Val Ev Mon} (h : EvInv p) (auto : Bool) : EvInv (p.run auto).1 := by
  have h1 := runLoop_ev auto (p.actions.drop p.ptr)
    (h.of_eq (q := { p with modifiable := true }) rfl rfl rfl rfl)
  rw [Plan.run]
  cases hr : runLoop auto (p.actions.drop p.ptr) { p with modifiable := true } with
  | mk p' b =>
    rw [hr] at h1
    cases b with
    | false => exact h1
    | true => exact h1.of_eq rfl rfl rfl rfl

theorem resumeHere_ev {p : Plan Name Val Ev Mon} (h : EvInv p) (auto : Bool) :
    EvInv (p.resumeHere auto).1 := by
  have h0 := h.of_eq (q := { p with modifiable := true }) rfl rfl rfl rfl
  unfold Plan.resumeHere
  simp only
  split
  · exact h0
  · rename_i a _
    generalize a.resumeProg p.data = prog
    have hs := runProg_ev prog h0
    cases hr : runProg prog { p with modifiable := true } with
    | mk p' b =>
      rw [hr] at hs
      cases b with
      | false => exact hs
      | true => exact run_ev ((advance_ev hs auto).of_eq rfl rfl rfl rfl) true

theorem readCheckpoint_ev {p : Plan Name Val Ev Mon} (h : EvInv p) (f : File) :
    EvInv (p.readCheckpoint f).1 := by
  unfold Plan.readCheckpoint
  split
  · exact h
  · rename_i r hr
    refine ⟨h.save, h.only, fun e he => ?_⟩
    obtain ⟨k, rfl⟩ := h.only f r e hr he
    exact ⟨k, r, hr, rfl, he⟩

theorem step_ev {p : Plan Name Val Ev Mon} (h : EvInv p) (o : Op Name Val Ev Mon) :
    EvInv (step p o).1 := by
  cases o with
  | setValue n v c => exact setValue_ev h n v c
  | setBounds n b => exact setBounds_ev h n b
  | freeze n => exact setFrozen_ev h n true
  | thaw n => exact setFrozen_ev h n false
  | getThawed => exact h
  | writeEvent e m => exact writeEvent_ev h e m
  | addVar n s =>
    show EvInv (p.addVar n s)
    unfold Plan.addVar
    split
    · exact h
    · exact h.of_eq rfl rfl rfl rfl
  | addAction a =>
    show EvInv (p.addAction a).1
    unfold Plan.addAction
    simp only
    have h0 := h.of_eq (q := { p with actions := p.actions ++ [a] }) rfl rfl rfl rfl
    split
    · exact run_ev h0 _
    · exact h0
  | run auto => exact run_ev h auto
  | resume f auto =>
    show EvInv (p.resume f auto).1
    unfold Plan.resume
    cases f with
    | none => exact resumeHere_ev h auto
    | some f =>
      have h1 := readCheckpoint_ev h f
      simp only
      cases hr : p.readCheckpoint f with
      | mk p' b =>
        rw [hr] at h1
        cases b with
        | false => exact h1
        | true => exact resumeHere_ev h1 auto
  | writeCheckpoint f => exact writeCheckpoint_ev h _ (fun k => by simp)
  | readCheckpoint f => exact readCheckpoint_ev h f

theorem exec_ev (os : List (Op Name Val Ev Mon)) {p : Plan Name Val Ev Mon} (h : EvInv p) :
    EvInv (exec os p).1 := by
  induction os generalizing p with
  | nil => exact h
  | cons o os ih => exact ih (step_ev h o)

/-! ### C53 -/

/-- C53. In every session of a saving plan that started in an empty folder, the event that
`resume()` would hand to the current action (`data`) was logged by that very action: some step file
holds this event together with the number of the current action. In particular, an action that has
not logged anything yet is never resumed from an event of another action. -/
theorem pending_event_is_own (autorun : Bool) (ops : List (Op Name Val Ev Mon)) (e : Ev)
    (he : (exec ops (Plan.new true autorun fun _ => none)).1.data = some e) :
    ∃ k r, (exec ops (Plan.new true autorun fun _ => none)).1.disk (.step k) = some r ∧
      r.ptr = (exec ops (Plan.new true autorun fun _ => none)).1.ptr ∧ r.event = some e :=
  (exec_ev ops (p := Plan.new true autorun fun _ => none)
    ⟨rfl, fun _ _ _ h _ => (by cases h), fun _ h => (by cases h)⟩).own e he

/-- C53. Resuming from a log entry hands the logged event to the `resume` method of the action that
logged it, on the variables of the entry, and continues with the actions after it. (An action
without `resume` method is run again instead.) -/
theorem resume_from_log_entry (p : Plan Name Val Ev Mon) (f : File) (auto : Bool)
    (r : Record Name Val Ev Mon) (e : Ev) (a : Action Name Val Ev Mon)
    (hf : p.disk f = some r) (he : r.event = some e) (ha : p.actions[r.ptr]? = some a)
    (hnd : (p.vars.map Prod.fst).Nodup) (hk : r.vars.map Prod.fst = p.vars.map Prod.fst) :
    ((p.resume (some f) auto).1.vars, (p.resume (some f) auto).2) =
      match effect (match a.resume with | some rs => rs e | none => a.run) r.vars with
      | (vs, false) => (vs, false)
      | (vs, true) => effects (p.actions.drop (r.ptr + 1)) vs := by
  have hlt : r.ptr < p.actions.length := by
    rcases Nat.lt_or_ge r.ptr p.actions.length with h | h
    · exact h
    · rw [List.getElem?_eq_none h] at ha; cases ha
  have hread : p.readCheckpoint f =
      ({ p with ptr := r.ptr, data := some e, vars := r.vars }, true) := by
    unfold Plan.readCheckpoint
    rw [hf]
    simp only
    rw [he, putVar_foldl r.vars p.vars hk hnd]
  have hprog : a.resumeProg (some e) = match a.resume with | some rs => rs e | none => a.run := by
    unfold Action.resumeProg
    cases a.resume <;> rfl
  unfold Plan.resume
  simp only [hread]
  unfold Plan.resumeHere
  simp only [ha, hprog]
  generalize (match a.resume with | some rs => rs e | none => a.run) = prog
  let q : Plan Name Val Ev Mon :=
    { p with ptr := r.ptr, data := some e, vars := r.vars, modifiable := true }
  have heff : ((runProg prog q).1.vars, (runProg prog q).2) = effect prog r.vars :=
    runProg_effect prog q rfl hlt
  have hs : Same q (runProg prog q).1 := runProg_same prog q
  show ((match runProg prog q with
    | (p', false) => (p', false)
    | (p', true) => ({ (p'.autoCheckpoint auto).advance with modifiable := false }).run true).1.vars,
    (match runProg prog q with
    | (p', false) => (p', false)
    | (p', true) => ({ (p'.autoCheckpoint auto).advance with modifiable := false }).run true).2) = _
  cases hr : runProg prog q with
  | mk p' b =>
    rw [hr] at heff hs
    rw [← heff]
    cases b with
    | false => rfl
    | true =>
      simp only
      have hc := hs.trans (autoCheckpoint_same p' auto)
      have h := run_effects { (p'.autoCheckpoint auto).advance with modifiable := false } true (by
        show (p'.autoCheckpoint auto).ptr + 1 ≤ (p'.autoCheckpoint auto).actions.length
        rw [hc.ptr, hc.actions]; exact hlt)
      rw [h]
      show effects ((p'.autoCheckpoint auto).actions.drop ((p'.autoCheckpoint auto).ptr + 1))
        (p'.autoCheckpoint auto).vars = _
      rw [hc.ptr, hc.actions, autoCheckpoint_vars]

/-! ### C54 -/

/-- The log entries between two states carry the iteration numbers after `it`. -/
def Counts (it : Nat) (p q : Plan Name Val Nat Mon) : Prop :=
  p.counter ≤ q.counter ∧ ∀ i, i < q.counter - p.counter →
    ∃ r, q.disk (.step (p.counter + 1 + i)) = some r ∧ r.event = some (it + 1 + i)

theorem Counts.of_eq {it : Nat} {p q : Plan Name Val Nat Mon} (h : q.counter = p.counter) :
    Counts it p q := ⟨Nat.le_of_eq h.symm, fun i hi => by omega⟩

theorem setValue_counter (p : Plan Name Val Ev Mon) (n : Name) (v : Val) (c : Bool) :
    (p.setValue n v c).1.counter = p.counter := by
  unfold Plan.setValue
  split
  · split
    · rfl
    · split <;> rfl
  · rfl

variable {R F : Type}

/-- Running `setAll` leaves the log alone and ends with the continuation or raises. -/
theorem runProg_setAll (l : List (Name × Val)) (k : Prog Name Val Nat Mon)
    (p : Plan Name Val Nat Mon) :
    (runProg (setAll l k) p).2 = true →
    ∃ q, Same p q ∧ q.counter = p.counter ∧ runProg (setAll l k) p = runProg k q := by
  induction l generalizing p with
  | nil => exact fun _ => ⟨p, Same.refl p, rfl, rfl⟩
  | cons e l ih =>
    obtain ⟨n, v⟩ := e
    intro h
    rw [setAll, runProg] at h ⊢
    cases hb : (p.setValue n v true).2 with
    | false => rw [hb] at h; cases h
    | true =>
      rw [hb] at h
      obtain ⟨q, h1, h2, h3⟩ := ih _ h
      exact ⟨q, (setValue_same p n v true).trans h1, h2.trans (setValue_counter p n v true), h3⟩

theorem runProg_unpackAndSet (names : List Name) (shapes : List (List Nat)) (x : List R)
    (k : Prog Name (Arr R) Nat Mon) (p : Plan Name (Arr R) Nat Mon)
    (h : (runProg (unpackAndSet names shapes x k) p).2 = true) :
    ∃ q, Same p q ∧ q.counter = p.counter ∧
      runProg (unpackAndSet names shapes x k) p = runProg k q := by
  unfold unpackAndSet at h ⊢
  cases hu : unpack shapes x with
  | none => rw [hu] at h; cases h
  | some vals =>
    rw [hu] at h
    exact runProg_setAll _ k p h

theorem runProg_setIter (it : Option Name) (v : Arr R)
    (k : Prog Name (Arr R) Nat Mon) (p : Plan Name (Arr R) Nat Mon)
    (h : (runProg (setIter it v k) p).2 = true) :
    ∃ q, Same p q ∧ q.counter = p.counter ∧ runProg (setIter it v k) p = runProg k q := by
  cases it with
  | none => exact ⟨p, Same.refl p, rfl, rfl⟩
  | some n =>
    unfold setIter at h ⊢
    rw [runProg] at h ⊢
    cases hb : (p.setValue n v true).2 with
    | false => rw [hb] at h; cases h
    | true => exact ⟨_, setValue_same p n v true, setValue_counter p n v true, rfl⟩

theorem serve_counts [Neg R] (o : Optimizer Name R Mon F) (names : List Name)
    (shapes : List (List Nat)) (c : Client R) (it : Nat) (p : Plan Name (Arr R) Nat Mon)
    (hsave : p.save = true) (h : (runProg (serve o names shapes c it) p).2 = true) :
    Counts it p (runProg (serve o names shapes c it) p).1 := by
  induction c generalizing it p with
  | raise => cases h
  | finish x =>
    rw [serve] at h ⊢
    obtain ⟨q, h1, h2, h3⟩ := runProg_unpackAndSet names shapes x .done p h
    rw [h3]
    exact Counts.of_eq h2
  | call q x k ih =>
    rw [serve] at h ⊢
    obtain ⟨p1, h1, h2, h3⟩ := runProg_unpackAndSet _ _ _ _ _ h
    rw [h3] at h ⊢
    rw [runProg] at h ⊢
    cases ha : o.answer names q p1.vars with
    | none => rw [ha] at h; cases h
    | some r =>
      rw [ha] at h
      have := ih r it p1 (h1.save.trans hsave) h
      unfold Counts at this ⊢
      rw [h2] at this
      exact this
  | callback x k ih =>
    rw [serve] at h ⊢
    obtain ⟨p1, h1, h2, h3⟩ := runProg_unpackAndSet _ _ _ _ _ h
    rw [h3] at h ⊢
    obtain ⟨p2, h4, h5, h6⟩ := runProg_setIter _ _ _ _ h
    rw [h6] at h ⊢
    rw [runProg] at h ⊢
    have hsave2 : p2.save = true := (h4.save.trans h1.save).trans hsave
    have hc2 : p2.counter = p.counter := h5.trans h2
    cases hb : (p2.writeEvent (it + 1) o.mon).2 with
    | false => rw [hb] at h; cases h
    | true =>
      rw [hb] at h
      -- the write happened
      have hw : (p2.writeEvent (it + 1) o.mon).1.counter = p2.counter + 1 ∧
          ∃ r, (p2.writeEvent (it + 1) o.mon).1.disk (.step (p2.counter + 1)) = some r ∧
            r.event = some (it + 1) := by
        revert hb
        unfold Plan.writeEvent
        split
        · simp only
          split
          · split
            · intro hb; cases hb
            · intro _
              exact ⟨rfl, _, by simp [Plan.write]; rfl, rfl⟩
          · intro hb; cases hb
        · intro hb; cases hb
      have hs3 := writeEvent_same p2 (it + 1) o.mon
      simp only [if_true] at h ⊢
      have hrec := ih (it + 1) _ (hs3.save.trans hsave2) h
      have hext := runProg_ext (serve o names shapes k (it + 1)) (p2.writeEvent (it + 1) o.mon).1
      obtain ⟨hle, hall⟩ := hrec
      rw [hw.1] at hle hall
      refine ⟨by omega, fun i hi => ?_⟩
      cases i with
      | zero =>
        obtain ⟨r, hr, hre⟩ := hw.2
        refine ⟨r, ?_, hre⟩
        rw [← hc2, Nat.add_zero, hext.keep _ (by rw [hw.1]; exact Nat.le_refl _), hr]
      | succ i =>
        obtain ⟨r, hr, hre⟩ := hall i (by omega)
        refine ⟨r, ?_, ?_⟩
        · rw [← hr, ← hc2]; congr 2; omega
        · rw [hre]; congr 1; omega

/-- C54. The optimizer action, started or resumed, logs consecutive iterations: if it returns, the
log entries it wrote are numbered on from the counter of the plan, and the `i`-th of them (from 0)
holds the iteration number `k + 1 + i` where `k` is the iteration of the event it was resumed from,
or 0 if it was started. -/
theorem optimizer_logs_iterations [Neg R] (o : Optimizer Name R Mon F) (d : Option Nat)
    (p : Plan Name (Arr R) Nat Mon) (hsave : p.save = true)
    (h : (runProg (o.action.resumeProg d) p).2 = true) (i : Nat)
    (hi : i < (runProg (o.action.resumeProg d) p).1.counter - p.counter) :
    ∃ r, (runProg (o.action.resumeProg d) p).1.disk (.step (p.counter + 1 + i)) = some r ∧
      r.event = some (d.getD 0 + 1 + i) := by
  have hp : o.action.resumeProg d = o.prog (d.getD 0) := by
    cases d <;> rfl
  rw [hp] at h hi ⊢
  revert h hi
  rw [Optimizer.prog, runProg]
  cases p.thawed with
  | none => intro h; cases h
  | some names =>
    simp only
    rw [runProg]
    split
    · intro h; cases h
    · split
      · intro h; cases h
      · intro h hi
        exact (serve_counts o names _ _ (d.getD 0) p hsave h).2 i hi

/-- The hypotheses are met: an optimizer that reports two iterations and is resumed after iteration
3 logs iterations 4 and 5. -/
def reporting : Optimizer Nat Int Unit Unit :=
  ⟨(), [], [], fun _ _ => some [0], fun _ _ _ => some [0], none, fun _ => ⟨[], []⟩, fun _ => some (),
    none, fun x _ _ => .callback x (.callback x (.finish x))⟩

def reportingPlan : Plan Nat (Arr Int) Nat Unit :=
  { Plan.new true false (fun _ => none) with
    modifiable := true, vars := [(0, ⟨⟨[1], [7]⟩, false, (⟨[1], [0]⟩, ⟨[1], [9]⟩)⟩)],
    actions := [reporting.action], counter := 5 }

example : (runProg (reporting.action.resumeProg (some 3)) reportingPlan).2 = true ∧
    (runProg (reporting.action.resumeProg (some 3)) reportingPlan).1.counter = 7 ∧
    ((runProg (reporting.action.resumeProg (some 3)) reportingPlan).1.disk (.step 7)).bind
      Record.event = some 5 := by
  refine ⟨rfl, rfl, rfl⟩

/-- A session in which an event is pending: the action logs and then raises. -/
example : (exec [.addAction ⟨.writeEvent (Name := Nat) (Val := Nat) (Mon := Unit) 8 (fun _ => some ())
      (fun _ => .raise), none⟩, .run true]
    (Plan.new true false (fun _ => none))).1.data = some 8 := rfl

end Verif.Plan
