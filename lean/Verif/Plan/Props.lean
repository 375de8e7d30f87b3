import Verif.Plan.Log
/-
Properties C08, C09 and the goos part of C10.
-/
namespace Verif.Plan
variable {Name Val Ev Mon : Type} [DecidableEq Name]

/-! ### C08: variables change only inside actions -/

/-- No call of the session that runs actions raised. -/
def NoActionRaised (ops : List (Op Name Val Ev Mon)) (p : Plan Name Val Ev Mon) : Prop :=
  ∀ x ∈ ops.zip (exec ops p).2, x.1.runsActions = true → x.2 = true

theorem step_locked (p : Plan Name Val Ev Mon) (o : Op Name Val Ev Mon)
    (h : p.modifiable = false) (hr : o.runsActions = true → (step p o).2 = true) :
    (step p o).1.modifiable = false := by
  cases o with
  | setValue n v c => exact (setValue_same p n v c).modifiable.trans h
  | setBounds n b => exact (setBounds_same p n b).modifiable.trans h
  | freeze n => exact (setFrozen_same p n true).modifiable.trans h
  | thaw n => exact (setFrozen_same p n false).modifiable.trans h
  | getThawed => exact h
  | writeEvent e m => exact (writeEvent_same p e m).modifiable.trans h
  | addVar n s =>
    show (p.addVar n s).modifiable = false
    unfold Plan.addVar
    split <;> exact h
  | addAction a =>
    have hr := hr rfl
    change (p.addAction a).2 = true at hr
    show (p.addAction a).1.modifiable = false
    unfold Plan.addAction at hr ⊢
    simp only at hr ⊢
    split
    · rename_i ha
      rw [if_pos ha] at hr
      exact (run_fixed _ true).2.2.2.1 hr
    · exact h
  | run auto => exact (run_fixed p auto).2.2.2.1 (hr rfl)
  | resume f auto =>
    have hr := hr rfl
    change (p.resume f auto).2 = true at hr
    show (p.resume f auto).1.modifiable = false
    have key : ∀ q : Plan Name Val Ev Mon, (q.resumeHere auto).2 = true →
        (q.resumeHere auto).1.modifiable = false := by
      intro q hq
      unfold Plan.resumeHere at hq ⊢
      simp only at hq ⊢
      cases ha : q.actions[q.ptr]? with
      | none => rw [ha] at hq; cases hq
      | some a =>
        rw [ha] at hq
        simp only at hq ⊢
        cases hb : runProg (a.resumeProg q.data) { q with modifiable := true } with
        | mk p' b =>
          rw [hb] at hq
          cases b with
          | false => cases hq
          | true => exact (run_fixed _ true).2.2.2.1 hq
    unfold Plan.resume at hr ⊢
    cases f with
    | none => exact key p hr
    | some f =>
      simp only at hr ⊢
      cases hb : p.readCheckpoint f with
      | mk p' b =>
        rw [hb] at hr
        cases b with
        | false => cases hr
        | true => exact key p' hr
  | writeCheckpoint f => exact (writeCheckpoint_same p _).modifiable.trans h
  | readCheckpoint f =>
    show (p.readCheckpoint f).1.modifiable = false
    unfold Plan.readCheckpoint
    split <;> exact h

theorem exec_locked (ops : List (Op Name Val Ev Mon)) (p : Plan Name Val Ev Mon)
    (h : p.modifiable = false) (hr : NoActionRaised ops p) :
    (exec ops p).1.modifiable = false := by
  induction ops generalizing p with
  | nil => exact h
  | cons o os ih =>
    apply ih
    · exact step_locked p o h (fun ho => hr (o, (step p o).2) (by simp [exec]) ho)
    · intro x hx
      exact hr x (by simp only [exec, List.zip_cons_cons]; exact List.mem_cons_of_mem _ hx)

/-- C08, as far as it holds: after any session in which no call that runs actions has raised, every
direct call of a modifying method raises and leaves the plan (and the folder) unchanged. Missing:
sessions in which an action raised (see `C08_full_false`). -/
theorem modification_outside_actions_raises_partial (save autorun : Bool)
    (disk : File → Option (Record Name Val Ev Mon)) (ops : List (Op Name Val Ev Mon))
    (hr : NoActionRaised ops (Plan.new save autorun disk)) (o : Op Name Val Ev Mon)
    (ho : o.isModifying = true) :
    step (exec ops (Plan.new save autorun disk)).1 o =
      ((exec ops (Plan.new save autorun disk)).1, false) := by
  have h := exec_locked ops (Plan.new save autorun disk) rfl hr
  generalize (exec ops (Plan.new save autorun disk)).1 = p at h
  cases o with
  | setValue n v c => simp [step, Plan.setValue, h]
  | setBounds n b => simp [step, Plan.setBounds, h]
  | freeze n => simp [step, Plan.setFrozen, h]
  | thaw n => simp [step, Plan.setFrozen, h]
  | getThawed => simp [step, Plan.thawed, h]
  | writeEvent e m => simp [step, Plan.writeEvent, h]
  | _ => cases ho

/-- C08, the other calls: outside of actions only `read_checkpoint` changes existing variables;
adding a variable leaves the others as they are. -/
theorem vars_unchanged_outside_actions_partial (save autorun : Bool)
    (disk : File → Option (Record Name Val Ev Mon)) (ops : List (Op Name Val Ev Mon))
    (hr : NoActionRaised ops (Plan.new save autorun disk)) (o : Op Name Val Ev Mon)
    (ho : o.runsActions = false) (hc : ∀ f, o ≠ .readCheckpoint f) (n : Name) (s : VarState Val)
    (hs : getVar n (exec ops (Plan.new save autorun disk)).1.vars = some s) :
    getVar n (step (exec ops (Plan.new save autorun disk)).1 o).1.vars = some s := by
  by_cases hm : o.isModifying = true
  · rw [modification_outside_actions_raises_partial save autorun disk ops hr o hm]; exact hs
  · generalize (exec ops (Plan.new save autorun disk)).1 = p at hs
    cases o with
    | addVar m t =>
      show getVar n (p.addVar m t).vars = some s
      unfold Plan.addVar
      split
      · exact hs
      · have : ∀ vs : Vars Name Val, getVar n vs = some s → getVar n (vs ++ [(m, t)]) = some s := by
          intro vs
          induction vs with
          | nil => intro h; cases h
          | cons e vs ih =>
            obtain ⟨a, b⟩ := e
            intro h
            by_cases ha : a = n
            · simpa [getVar, ha] using h
            · simp only [getVar, ha, if_false, List.cons_append] at h ⊢
              exact ih h
        exact this _ hs
    | writeCheckpoint f =>
      show getVar n (p.writeCheckpoint (.user f)).1.vars = some s
      unfold Plan.writeCheckpoint
      split <;> exact hs
    | readCheckpoint f => exact absurd rfl (hc f)
    | addAction a => cases ho
    | run a => cases ho
    | resume f a => cases ho
    | _ => exact absurd rfl hm

/-- C08, inside actions: running a plan applies the calls its actions make (the specification
`effects`), whatever the state of the plan before. -/
theorem run_applies_actions (p : Plan Name Val Ev Mon) (auto : Bool)
    (hp : p.ptr ≤ p.actions.length) :
    ((p.run auto).1.vars, (p.run auto).2) = effects (p.actions.drop p.ptr) p.vars :=
  run_effects p auto hp

/-- The full statement of C08: in every session, a direct call of a modifying method raises and
leaves the plan unchanged. -/
def C08_full : Prop :=
  ∀ (ops : List (Op Nat Nat Unit Unit)) (o : Op Nat Nat Unit Unit), o.isModifying = true →
    step (exec ops (Plan.new true false (fun _ => none))).1 o =
      ((exec ops (Plan.new true false (fun _ => none))).1, false)

/-- A session in which an action raises: afterwards the variable can be set directly. -/
theorem C08_full_false : ¬ C08_full := by
  intro h
  have h1 := h [.addVar 0 ⟨1, false, (0, 9)⟩, .addAction ⟨.raise, none⟩, .run true]
    (.setValue 0 5 true) rfl
  have h2 := congrArg Prod.snd h1
  cases h2

/-- A session that runs an action which sets a variable. -/
def sampleSession : List (Op Nat Nat Unit Unit) :=
  [.addVar 0 ⟨1, false, (0, 9)⟩, .addAction ⟨.setValue 0 7 true (fun _ => .done), none⟩, .run true]

/-- `NoActionRaised` holds for it, and it changes the variable. -/
example : NoActionRaised sampleSession (Plan.new true false (fun _ => none)) ∧
    (exec sampleSession (Plan.new true false (fun _ => none))).1.vars =
      [(0, ⟨7, false, (0, 9)⟩)] := by
  constructor
  · intro x hx _
    have h : (exec sampleSession (Plan.new true false (fun _ => none))).2 = [true, true, true] := rfl
    have h2 := (List.of_mem_zip hx).2
    rw [h] at h2
    simpa using h2
  · rfl

/-! ### C09: checkpoints -/

/-- What a first process leaves behind: the automatic checkpoint of each completed action `N` holds
the variables as they are after action `N`, but names action `N` itself as the action to continue
with. -/
theorem auto_checkpoint_content (p : Plan Name Val Ev Mon) (hsave : p.save = true)
    (hptr : p.ptr = 0) (N : Nat) (hN : N < (p.run true).1.ptr) :
    (effects (p.actions.take (N + 1)) p.vars).2 = true ∧
    (p.run true).1.disk (.action N) =
      some ⟨N, (effects (p.actions.take (N + 1)) p.vars).1, none, none, none⟩ := by
  have h := (runLoop_checkpoint (p.actions.drop p.ptr) { p with modifiable := true } rfl hsave
    (drop_add_length _ _ (by rw [hptr]; exact Nat.zero_le _)) N).1
  have hd : p.actions.drop p.ptr = p.actions := by rw [hptr]; rfl
  have hn : N + 1 - p.ptr = N + 1 := by rw [hptr]; rfl
  have hle : p.ptr ≤ N := by rw [hptr]; exact Nat.zero_le _
  rw [Plan.run, hd] at hN ⊢
  rw [hd, hn] at h
  cases hr : runLoop true p.actions { p with modifiable := true } with
  | mk p' b =>
    rw [hr] at h hN
    cases b with
    | false => exact h hle hN
    | true => exact h hle hN

/-- Resuming from a record that names action `N` and holds the variables as they were before
action `N` continues the run. `p` is the plan of the second process: it has the same actions and
has registered the same variables. -/
theorem resume_boundary (A : List (Action Name Val Ev Mon)) (v0 : Vars Name Val)
    (hnd : (v0.map Prod.fst).Nodup) (N : Nat) (hN : N < A.length)
    (hok : (effects (A.take N) v0).2 = true)
    (p : Plan Name Val Ev Mon) (hA : p.actions = A)
    (hk : p.vars.map Prod.fst = v0.map Prod.fst) (f : File) (auto : Bool)
    (vN : Vars Name Val) (hkN : vN.map Prod.fst = v0.map Prod.fst)
    (hv : effects (A.drop N) vN = effects (A.drop N) (effects (A.take N) v0).1)
    (r : Record Name Val Ev Mon) (hr : r.ptr = N ∧ r.vars = vN ∧ r.event = none)
    (hf : p.disk f = some r) :
    ((p.resume (some f) auto).1.vars, (p.resume (some f) auto).2) = effects A v0 := by
  obtain ⟨h1, h2, h3⟩ := hr
  have hread : p.readCheckpoint f = ({ p with ptr := N, data := none, vars := vN }, true) := by
    unfold Plan.readCheckpoint
    rw [hf]
    simp only
    rw [h1, h2, h3, putVar_foldl vN p.vars (hkN.trans hk.symm) (by rw [hk]; exact hnd)]
  unfold Plan.resume
  simp only [hread]
  have h := resumeHere_effects { p with ptr := N, data := none, vars := vN } auto rfl
    (by show N < p.actions.length; rw [hA]; exact hN)
  rw [h]
  show effects (p.actions.drop N) vN = _
  rw [hA, hv, ← effects_append _ _ _ hok, List.take_append_drop]

/-- C09, as far as it holds: a checkpoint taken by the first process at the beginning of action `N`
(before the action changed anything) lets a second process with the same plan finish with exactly
the variables of an uninterrupted run (and raise if that would have raised). -/
theorem resume_from_action_start_partial (A : List (Action Name Val Ev Mon)) (v0 : Vars Name Val)
    (hnd : (v0.map Prod.fst).Nodup) (N : Nat) (hN : N < A.length)
    (hok : (effects (A.take N) v0).2 = true)
    (p : Plan Name Val Ev Mon) (hA : p.actions = A)
    (hk : p.vars.map Prod.fst = v0.map Prod.fst) (f : File) (auto : Bool)
    (hf : p.disk f = some ⟨N, (effects (A.take N) v0).1, none, none, none⟩) :
    ((p.resume (some f) auto).1.vars, (p.resume (some f) auto).2) = effects A v0 :=
  resume_boundary A v0 hnd N hN hok p hA hk f auto _ (effects_keys _ _) rfl _ ⟨rfl, rfl, rfl⟩ hf

/-- C09, as far as it holds, for the automatic checkpoint: a first process `p1` runs the plan and
completes at least action `N` (it may fail later); a second process `p2` with the same actions and
variables resumes from the automatic checkpoint of action `N`. If action `N`, run again on its own
result, changes nothing, then the second process ends exactly like an uninterrupted run. Missing:
actions for which running twice differs from running once (`C09_full_false`). -/
theorem resume_from_auto_checkpoint_partial (p1 p2 : Plan Name Val Ev Mon)
    (hsave : p1.save = true) (hptr : p1.ptr = 0) (hnd : (p1.vars.map Prod.fst).Nodup)
    (N : Nat) (hN : N < (p1.run true).1.ptr)
    (hA : p2.actions = p1.actions) (hk : p2.vars.map Prod.fst = p1.vars.map Prod.fst)
    (hdisk : p2.disk (.action N) = (p1.run true).1.disk (.action N)) (auto : Bool)
    (a : Action Name Val Ev Mon) (ha : p1.actions[N]? = some a)
    (hidem : effect a.run (effects (p1.actions.take (N + 1)) p1.vars).1 =
      ((effects (p1.actions.take (N + 1)) p1.vars).1, true)) :
    ((p2.resume (some (.action N)) auto).1.vars, (p2.resume (some (.action N)) auto).2) =
      effects p1.actions p1.vars := by
  obtain ⟨hok1, hd⟩ := auto_checkpoint_content p1 hsave hptr N hN
  have hlen : N < p1.actions.length := by
    have h := run_ptr p1 true (by rw [hptr]; exact Nat.zero_le _)
    omega
  have hget : p1.actions[N] = a := by
    rw [List.getElem?_eq_getElem hlen] at ha
    exact Option.some.inj ha
  have htake : p1.actions.take (N + 1) = p1.actions.take N ++ [a] := by
    rw [List.take_add_one, List.getElem?_eq_getElem hlen, hget]; rfl
  have hok : (effects (p1.actions.take N) p1.vars).2 = true := by
    cases hb : (effects (p1.actions.take N) p1.vars).2 with
    | true => rfl
    | false =>
      exfalso
      have key : ∀ (as bs : List (Action Name Val Ev Mon)) (vs : Vars Name Val),
          (effects as vs).2 = false → (effects (as ++ bs) vs).2 = false := by
        intro as
        induction as with
        | nil => intro bs vs h; cases h
        | cons x as ih =>
          intro bs vs h
          rw [List.cons_append, effects]
          rw [effects] at h
          cases he : effect x.run vs with
          | mk vs' b =>
            rw [he] at h
            cases b with
            | false => rfl
            | true => exact ih bs vs' h
      rw [htake, key _ _ _ hb] at hok1
      cases hok1
  have hstep : effects [a] (effects (p1.actions.take N) p1.vars).1 =
      ((effects (p1.actions.take (N + 1)) p1.vars).1, true) := by
    rw [htake] at hok1 ⊢
    rw [effects_append _ _ _ hok] at hok1 ⊢
    exact Prod.ext rfl hok1
  refine resume_boundary p1.actions p1.vars hnd N hlen hok p2 hA hk (.action N) auto
    (effects (p1.actions.take (N + 1)) p1.vars).1 (effects_keys _ _) ?_ _ ⟨rfl, rfl, rfl⟩
    (hdisk.trans hd)
  have hdrop : p1.actions.drop N = [a] ++ p1.actions.drop (N + 1) := by
    rw [List.drop_eq_getElem_cons hlen, hget]; rfl
  rw [hdrop, effects_append [a] _ (effects (p1.actions.take N) p1.vars).1 (by rw [hstep]), hstep,
    effects_append [a]]
  · simp only [effects, hidem]
  · simp only [effects, hidem]

/-- An action that reads a variable and increases it, as an optimizer step does. -/
def increment : Action Nat Nat Unit Unit :=
  ⟨.getValue 0 (fun v => .setValue 0 (v.getD 0 + 1) true (fun _ => .done)), none⟩

/-- The plan of both processes: one variable, one incrementing action and one that doubles. -/
def twoActions (disk : File → Option (Record Nat Nat Unit Unit)) : Plan Nat Nat Unit Unit :=
  { Plan.new true false disk with
    vars := [(0, ⟨0, false, (0, 9)⟩)],
    actions := [increment,
      ⟨.getValue 0 (fun v => .setValue 0 (2 * v.getD 0) true (fun _ => .done)), none⟩] }

/-- The full statement of C09 for automatic checkpoints. -/
def C09_full : Prop :=
  ∀ (p1 p2 : Plan Nat Nat Unit Unit), p1.save = true → p1.ptr = 0 →
    (p1.vars.map Prod.fst).Nodup → ∀ N, N < (p1.run true).1.ptr →
    p2.actions = p1.actions → p2.vars.map Prod.fst = p1.vars.map Prod.fst →
    p2.disk = (p1.run true).1.disk →
    (p2.resume (some (.action N)) true).1.vars = (effects p1.actions p1.vars).1

/-- Uninterrupted, the plan ends with the value 2. Resumed from the checkpoint written after the
first action, it runs the first action again and ends with 4. -/
theorem C09_full_false : ¬ C09_full := by
  intro h
  have h1 := h (twoActions fun _ => none)
    (twoActions ((twoActions fun _ => none).run true).1.disk) rfl rfl (by decide) 0 (by decide) rfl
    rfl rfl
  have h2 := congrArg (fun vs => (getVar 0 vs).map VarState.value) h1
  revert h2
  decide

/-- The hypotheses of `resume_from_auto_checkpoint_partial` are met by a plan whose first action
sets a value and whose second increments it. -/
example :
    let p1 : Plan Nat Nat Unit Unit := { Plan.new true false (fun _ => none) with
      vars := [(0, ⟨0, false, (0, 9)⟩)],
      actions := [⟨.setValue 0 3 true (fun _ => .done), none⟩, increment] }
    let p2 : Plan Nat Nat Unit Unit := { p1 with disk := (p1.run true).1.disk }
    ((p2.resume (some (.action 0)) true).1.vars, (p2.resume (some (.action 0)) true).2) =
      effects p1.actions p1.vars ∧ (effects p1.actions p1.vars).1 = [(0, ⟨4, false, (0, 9)⟩)] := by
  intro p1 p2
  refine ⟨resume_from_auto_checkpoint_partial p1 p2 rfl rfl (by decide) 0 (by decide) rfl rfl rfl
    true ⟨.setValue 0 3 true (fun _ => .done), none⟩ rfl rfl, rfl⟩

/-- A finished plan cannot be resumed, and trying to do so unlocks it: the call raises and leaves
the plan modifiable. -/
theorem resume_finished_raises (p : Plan Name Val Ev Mon) (auto : Bool)
    (hp : p.actions.length ≤ p.ptr) :
    (p.resume none auto).2 = false ∧ (p.resume none auto).1.modifiable = true := by
  have h : p.actions[p.ptr]? = none := List.getElem?_eq_none hp
  constructor <;> simp [Plan.resume, Plan.resumeHere, h]

/-! ### C10: numbering of the log files (goos) -/

/-- C10: within a process, the step files are written with strictly increasing numbers starting
from at least 1, whatever actions run, raise or are resumed; so no step file is written twice. -/
theorem log_numbers_increase (save autorun : Bool) (disk : File → Option (Record Name Val Ev Mon))
    (ops : List (Op Name Val Ev Mon)) :
    (steps (exec ops (Plan.new save autorun disk)).1.writes).Pairwise (· < ·) ∧
    ∀ k ∈ steps (exec ops (Plan.new save autorun disk)).1.writes, 1 ≤ k ∧
      ∃ r, (exec ops (Plan.new save autorun disk)).1.disk (.step k) = some r ∧
        r.counter = some k := by
  obtain ⟨_, _, l, hw, hp, hl⟩ := exec_ext ops (Plan.new save autorun disk)
  have : (Plan.new save autorun disk).writes = [] := rfl
  rw [this, List.nil_append] at hw
  rw [hw]
  exact ⟨hp, fun k hk => ⟨(hl k hk).1, (hl k hk).2.2⟩⟩

/-- C10: what has been logged stays as it is: a step file written in the first part of a session
has the same content after any continuation of the session. -/
theorem log_entries_preserved (save autorun : Bool)
    (disk : File → Option (Record Name Val Ev Mon)) (ops more : List (Op Name Val Ev Mon)) (k : Nat)
    (hk : k ∈ steps (exec ops (Plan.new save autorun disk)).1.writes) :
    (exec (ops ++ more) (Plan.new save autorun disk)).1.disk (.step k) =
      (exec ops (Plan.new save autorun disk)).1.disk (.step k) := by
  obtain ⟨_, _, l, hw, _, hl⟩ := exec_ext ops (Plan.new save autorun disk)
  have : (Plan.new save autorun disk).writes = [] := rfl
  rw [this, List.nil_append] at hw
  rw [hw] at hk
  rw [exec_append]
  exact (exec_ext more _).keep k (hl k hk).2.1

/-- C10: running a plan whose monitors do not raise logs to consecutive steps: if `p.counter`
events were logged before, the files written by `run` are `p.counter + 1`, `p.counter + 2`, ... -/
theorem run_logs_consecutively (p : Plan Name Val Ev Mon) (auto : Bool)
    (hm : ∀ a ∈ p.actions, MonOk a.run) (hsave : p.save = true) (hp : p.ptr ≤ p.actions.length) :
    ∃ n, (p.run auto).1.counter = p.counter + n ∧
      steps (p.run auto).1.writes = steps p.writes ++ List.range' (p.counter + 1) n :=
  run_gf p auto hm hsave hp

/-- An action that logs the value of variable 0, increases it and logs again. -/
def logging : Action Nat Nat Unit Nat :=
  ⟨.writeEvent () (fun vs => (getVar 0 vs).map VarState.value) (fun _ =>
    .getValue 0 (fun v => .setValue 0 (v.getD 0 + 1) true (fun _ =>
    .writeEvent () (fun vs => (getVar 0 vs).map VarState.value) (fun _ => .done)))), none⟩

/-- The full statement of C10: resuming does not overwrite what an earlier process logged. -/
def C10_full : Prop :=
  ∀ (ops ops' : List (Op Nat Nat Unit Nat)) (k : Nat),
    let q := (exec ops (Plan.new true false (fun _ => none))).1
    k ∈ steps q.writes →
    (exec ops' (Plan.new true false q.disk)).1.disk (.step k) = q.disk (.step k)

/-- A second process that resumes from the checkpoint of the first action numbers its events from 1
again: the record of step 1 is replaced. -/
theorem C10_full_false : ¬ C10_full := by
  intro h
  have h1 := h [.addVar 0 ⟨5, false, (0, 9)⟩, .addAction logging, .run true]
    [.addVar 0 ⟨5, false, (0, 9)⟩, .addAction logging, .resume (some (.action 0)) true] 1
    (by decide)
  have h2 := congrArg (fun r => r.bind Record.monitors) h1
  revert h2
  decide

/-- The two events of one run of `logging` are written to steps 1 and 2. -/
example : steps (exec [.addVar 0 ⟨5, false, (0, 9)⟩, .addAction logging, .run true]
    (Plan.new true false (fun _ => none))).1.writes = [1, 2] := rfl

example : MonOk (Prog.writeEvent (Name := Nat) (Val := Nat) () (fun _ => some 3)
    (fun _ => .done) : Prog Nat Nat Unit Nat) := ⟨fun _ => rfl, fun _ => trivial⟩

end Verif.Plan
