import Verif.Plan.Lemmas
/-
Helper lemmas about the log files of plans.
-/
set_option linter.unusedSectionVars false
namespace Verif.Plan
variable {Name Val Ev Mon : Type} [DecidableEq Name]

theorem steps_append (l l' : List File) : steps (l ++ l') = steps l ++ steps l' := by
  simp [steps, List.filterMap_append]

/-- What happens to the log between two states of a session. -/
structure Ext (p q : Plan Name Val Ev Mon) : Prop where
  counter : p.counter ≤ q.counter
  keep : ∀ k, k ≤ p.counter → q.disk (.step k) = p.disk (.step k)
  writes : ∃ l, q.writes = p.writes ++ l ∧ (steps l).Pairwise (· < ·) ∧
    ∀ k ∈ steps l, p.counter < k ∧ k ≤ q.counter ∧
      ∃ r, q.disk (.step k) = some r ∧ r.counter = some k

theorem Ext.refl (p : Plan Name Val Ev Mon) : Ext p p :=
  ⟨Nat.le_refl _, fun _ _ => rfl, [], by simp [steps]⟩

theorem Ext.trans {p q r : Plan Name Val Ev Mon} (h : Ext p q) (h' : Ext q r) : Ext p r := by
  obtain ⟨c1, k1, l1, w1, s1, m1⟩ := h
  obtain ⟨c2, k2, l2, w2, s2, m2⟩ := h'
  refine ⟨Nat.le_trans c1 c2, fun k hk => (k2 k (Nat.le_trans hk c1)).trans (k1 k hk), l1 ++ l2, ?_, ?_, ?_⟩
  · rw [w2, w1, List.append_assoc]
  · rw [steps_append, List.pairwise_append]
    refine ⟨s1, s2, fun a ha b hb => ?_⟩
    have := (m1 a ha).2.1
    have := (m2 b hb).1
    omega
  · intro k hk
    rw [steps_append, List.mem_append] at hk
    rcases hk with hk | hk
    · obtain ⟨a, b, c⟩ := m1 k hk
      refine ⟨a, Nat.le_trans b c2, ?_⟩
      rw [k2 k b]; exact c
    · obtain ⟨a, b, c⟩ := m2 k hk
      exact ⟨by omega, b, c⟩

/-- Changes that do not concern the log. -/
theorem Ext.of_eq {p q : Plan Name Val Ev Mon} (h1 : q.counter = p.counter) (h2 : q.disk = p.disk)
    (h3 : q.writes = p.writes) : Ext p q :=
  ⟨Nat.le_of_eq h1.symm, fun k _ => by rw [h2], [], by simp [h3, steps]⟩

theorem setValue_ext (p : Plan Name Val Ev Mon) (n : Name) (v : Val) (c : Bool) :
    Ext p (p.setValue n v c).1 := by
  unfold Plan.setValue
  split
  · split
    · exact Ext.refl p
    · split
      · exact Ext.refl p
      · exact Ext.of_eq rfl rfl rfl
  · exact Ext.refl p

theorem setBounds_ext (p : Plan Name Val Ev Mon) (n : Name) (b : Val × Val) :
    Ext p (p.setBounds n b).1 := by
  unfold Plan.setBounds
  split
  · split
    · exact Ext.refl p
    · exact Ext.of_eq rfl rfl rfl
  · exact Ext.refl p

theorem setFrozen_ext (p : Plan Name Val Ev Mon) (n : Name) (b : Bool) :
    Ext p (p.setFrozen n b).1 := by
  unfold Plan.setFrozen
  split
  · split
    · exact Ext.refl p
    · exact Ext.of_eq rfl rfl rfl
  · exact Ext.refl p

theorem writeEvent_ext (p : Plan Name Val Ev Mon) (e : Ev) (m : Vars Name Val → Option Mon) :
    Ext p (p.writeEvent e m).1 := by
  have h0 : ∀ d, Ext p { p with counter := p.counter + 1, data := d } := fun d =>
    ⟨Nat.le_succ _, fun _ _ => rfl, [], by simp [steps]⟩
  unfold Plan.writeEvent
  split
  · simp only
    split
    · split
      · exact h0 p.data
      · split
        · refine ⟨Nat.le_succ _, fun k hk => ?_, [.step (p.counter + 1)], rfl, by simp [steps], ?_⟩
          · have : k ≠ p.counter + 1 := by omega
            simp [Plan.write, this]
          · intro k hk
            simp only [steps, List.filterMap_cons, List.filterMap_nil, List.mem_singleton] at hk
            subst hk
            exact ⟨Nat.lt_succ_self _, Nat.le_refl _, by simp [Plan.write]⟩
        · exact h0 _
    · exact h0 p.data
  · exact Ext.refl p

theorem writeCheckpoint_ext (p : Plan Name Val Ev Mon) (f : File) (hf : ∀ k, f ≠ .step k) :
    Ext p (p.writeCheckpoint f).1 := by
  unfold Plan.writeCheckpoint
  split
  · have hs : steps [f] = [] := by
      cases f with
      | step k => exact absurd rfl (hf k)
      | action k => rfl
      | user k => rfl
    refine ⟨Nat.le_refl _, fun k _ => ?_, [f], rfl, by rw [hs]; exact List.Pairwise.nil, ?_⟩
    · simp [Plan.write, (hf k).symm]
    · rw [hs]; simp
  · exact Ext.refl p

theorem runProg_ext (pr : Prog Name Val Ev Mon) (p : Plan Name Val Ev Mon) :
    Ext p (runProg pr p).1 := by
  induction pr generalizing p with
  | done => exact Ext.refl p
  | raise => exact Ext.refl p
  | getValue n k ih => exact ih _ p
  | getBounds n k ih => exact ih _ p
  | getThawed k ih => exact ih _ p
  | look k ih => exact ih _ p
  | setValue n v c k ih => exact (setValue_ext p n v c).trans (ih _ _)
  | setBounds n b k ih => exact (setBounds_ext p n b).trans (ih _ _)
  | freeze n k ih => exact (setFrozen_ext p n true).trans (ih _ _)
  | thaw n k ih => exact (setFrozen_ext p n false).trans (ih _ _)
  | writeEvent e m k ih => exact (writeEvent_ext p e m).trans (ih _ _)
  | writeCheckpoint f k ih =>
    exact (writeCheckpoint_ext p _ (fun k => by simp)).trans (ih _ _)

theorem autoCheckpoint_advance_ext (p : Plan Name Val Ev Mon) (auto : Bool) :
    Ext p (p.autoCheckpoint auto).advance := by
  have h : Ext p (p.autoCheckpoint auto) := by
    unfold Plan.autoCheckpoint
    split
    · exact writeCheckpoint_ext p _ (fun k => by simp)
    · exact Ext.refl p
  exact h.trans (Ext.of_eq rfl rfl rfl)

theorem runLoop_ext (auto : Bool) (as : List (Action Name Val Ev Mon)) (p : Plan Name Val Ev Mon) :
    Ext p (runLoop auto as p).1 := by
  induction as generalizing p with
  | nil => exact Ext.refl p
  | cons a as ih =>
    have hs := runProg_ext a.run p
    rw [runLoop]
    cases hr : runProg a.run p with
    | mk p' b =>
      rw [hr] at hs
      cases b with
      | false => exact hs
      | true => exact hs.trans ((autoCheckpoint_advance_ext p' auto).trans (ih _))

theorem run_ext (p : Plan Name Val Ev Mon) (auto : Bool) : Ext p (p.run auto).1 := by
  have h := runLoop_ext auto (p.actions.drop p.ptr) { p with modifiable := true }
  have h0 : Ext p { p with modifiable := true } := Ext.of_eq rfl rfl rfl
  rw [Plan.run]
  cases hr : runLoop auto (p.actions.drop p.ptr) { p with modifiable := true } with
  | mk p' b =>
    rw [hr] at h
    cases b with
    | false => exact h0.trans h
    | true => exact (h0.trans h).trans (Ext.of_eq rfl rfl rfl)

theorem resumeHere_ext (p : Plan Name Val Ev Mon) (auto : Bool) : Ext p (p.resumeHere auto).1 := by
  have h0 : Ext p { p with modifiable := true } := Ext.of_eq rfl rfl rfl
  unfold Plan.resumeHere
  simp only
  split
  · exact h0
  · rename_i a _
    generalize a.resumeProg p.data = prog
    have hs := runProg_ext prog { p with modifiable := true }
    cases hr : runProg prog { p with modifiable := true } with
    | mk p' b =>
      rw [hr] at hs
      cases b with
      | false => exact h0.trans hs
      | true =>
        exact (h0.trans hs).trans ((autoCheckpoint_advance_ext p' auto).trans
          ((Ext.of_eq rfl rfl rfl : Ext (p'.autoCheckpoint auto).advance
            { (p'.autoCheckpoint auto).advance with modifiable := false }).trans (run_ext _ true)))

theorem readCheckpoint_ext (p : Plan Name Val Ev Mon) (f : File) : Ext p (p.readCheckpoint f).1 := by
  unfold Plan.readCheckpoint
  split
  · exact Ext.refl p
  · exact Ext.of_eq rfl rfl rfl

theorem resume_ext (p : Plan Name Val Ev Mon) (f : Option File) (auto : Bool) :
    Ext p (p.resume f auto).1 := by
  unfold Plan.resume
  cases f with
  | none => exact resumeHere_ext p auto
  | some f =>
    have h := readCheckpoint_ext p f
    simp only
    cases hr : p.readCheckpoint f with
    | mk p' b =>
      rw [hr] at h
      cases b with
      | false => exact h
      | true => exact h.trans (resumeHere_ext p' auto)

theorem step_ext (p : Plan Name Val Ev Mon) (o : Op Name Val Ev Mon) : Ext p (step p o).1 := by
  cases o with
  | setValue n v c => exact setValue_ext p n v c
  | setBounds n b => exact setBounds_ext p n b
  | freeze n => exact setFrozen_ext p n true
  | thaw n => exact setFrozen_ext p n false
  | getThawed => exact Ext.refl p
  | writeEvent e m => exact writeEvent_ext p e m
  | addVar n s =>
    show Ext p (p.addVar n s)
    unfold Plan.addVar
    split
    · exact Ext.refl p
    · exact Ext.of_eq rfl rfl rfl
  | addAction a =>
    show Ext p (p.addAction a).1
    unfold Plan.addAction
    simp only
    have h0 : Ext p { p with actions := p.actions ++ [a] } := Ext.of_eq rfl rfl rfl
    split
    · exact h0.trans (run_ext _ _)
    · exact h0
  | run auto => exact run_ext p auto
  | resume f auto => exact resume_ext p f auto
  | writeCheckpoint f => exact writeCheckpoint_ext p _ (fun k => by simp)
  | readCheckpoint f => exact readCheckpoint_ext p f

theorem exec_ext (os : List (Op Name Val Ev Mon)) (p : Plan Name Val Ev Mon) :
    Ext p (exec os p).1 := by
  induction os generalizing p with
  | nil => exact Ext.refl p
  | cons o os ih => exact (step_ext p o).trans (ih _)

theorem exec_append (os os' : List (Op Name Val Ev Mon)) (p : Plan Name Val Ev Mon) :
    (exec (os ++ os') p).1 = (exec os' (exec os p).1).1 := by
  induction os generalizing p with
  | nil => rfl
  | cons o os ih => exact ih _

/-! ### No gaps -/

/-- The files written between two states are numbered consecutively. -/
def Gf (p q : Plan Name Val Ev Mon) : Prop :=
  ∃ n, q.counter = p.counter + n ∧ steps q.writes = steps p.writes ++ List.range' (p.counter + 1) n

theorem Gf.refl (p : Plan Name Val Ev Mon) : Gf p p := ⟨0, rfl, by simp⟩

theorem Gf.trans {p q r : Plan Name Val Ev Mon} (h : Gf p q) (h' : Gf q r) : Gf p r := by
  obtain ⟨n, c1, w1⟩ := h
  obtain ⟨m, c2, w2⟩ := h'
  refine ⟨n + m, by omega, ?_⟩
  rw [w2, w1, c1, List.append_assoc, ← List.range'_append (step := 1)]
  congr 2
  rw [Nat.one_mul]
  congr 1
  omega

theorem Gf.of_eq {p q : Plan Name Val Ev Mon} (h1 : q.counter = p.counter)
    (h3 : steps q.writes = steps p.writes) : Gf p q := ⟨0, h1, by simp [h3]⟩

theorem setValue_gf (p : Plan Name Val Ev Mon) (n : Name) (v : Val) (c : Bool) :
    Gf p (p.setValue n v c).1 := by
  unfold Plan.setValue
  split
  · split
    · exact Gf.refl p
    · split
      · exact Gf.refl p
      · exact Gf.of_eq rfl rfl
  · exact Gf.refl p

theorem setBounds_gf (p : Plan Name Val Ev Mon) (n : Name) (b : Val × Val) :
    Gf p (p.setBounds n b).1 := by
  unfold Plan.setBounds
  split
  · split
    · exact Gf.refl p
    · exact Gf.of_eq rfl rfl
  · exact Gf.refl p

theorem setFrozen_gf (p : Plan Name Val Ev Mon) (n : Name) (b : Bool) :
    Gf p (p.setFrozen n b).1 := by
  unfold Plan.setFrozen
  split
  · split
    · exact Gf.refl p
    · exact Gf.of_eq rfl rfl
  · exact Gf.refl p

theorem writeCheckpoint_gf (p : Plan Name Val Ev Mon) (f : File) (hf : ∀ k, f ≠ .step k) :
    Gf p (p.writeCheckpoint f).1 := by
  unfold Plan.writeCheckpoint
  split
  · have hs : steps [f] = [] := by
      cases f with
      | step k => exact absurd rfl (hf k)
      | action k => rfl
      | user k => rfl
    exact Gf.of_eq rfl (by simp [Plan.write, steps_append, hs])
  · exact Gf.refl p

theorem writeEvent_gf (p : Plan Name Val Ev Mon) (e : Ev) (m : Vars Name Val → Option Mon)
    (hm : ∀ vs, (m vs).isSome) (hsave : p.save = true) (hp : p.ptr < p.actions.length) :
    Gf p (p.writeEvent e m).1 := by
  unfold Plan.writeEvent
  split
  · have := hm p.vars
    cases hv : m p.vars with
    | none => rw [hv] at this; cases this
    | some x =>
      exact ⟨1, rfl, by simp [Plan.write, steps]⟩
  · exact Gf.refl p

theorem runProg_gf (pr : Prog Name Val Ev Mon) (p : Plan Name Val Ev Mon) (hm : MonOk pr)
    (hsave : p.save = true) (hp : p.ptr < p.actions.length) : Gf p (runProg pr p).1 := by
  have tr : ∀ {p q : Plan Name Val Ev Mon}, Same p q → p.save = true → p.ptr < p.actions.length →
      q.save = true ∧ q.ptr < q.actions.length := fun hs h1 h2 => by
    rw [hs.save, hs.ptr, hs.actions]; exact ⟨h1, h2⟩
  induction pr generalizing p with
  | done => exact Gf.refl p
  | raise => exact Gf.refl p
  | getValue n k ih => exact ih _ p (hm _) hsave hp
  | getBounds n k ih => exact ih _ p (hm _) hsave hp
  | getThawed k ih => exact ih _ p (hm _) hsave hp
  | look k ih => exact ih _ p (hm _) hsave hp
  | setValue n v c k ih =>
    have h := tr (setValue_same p n v c) hsave hp
    exact (setValue_gf p n v c).trans (ih _ _ (hm _) h.1 h.2)
  | setBounds n b k ih =>
    have h := tr (setBounds_same p n b) hsave hp
    exact (setBounds_gf p n b).trans (ih _ _ (hm _) h.1 h.2)
  | freeze n k ih =>
    have h := tr (setFrozen_same p n true) hsave hp
    exact (setFrozen_gf p n true).trans (ih _ _ (hm _) h.1 h.2)
  | thaw n k ih =>
    have h := tr (setFrozen_same p n false) hsave hp
    exact (setFrozen_gf p n false).trans (ih _ _ (hm _) h.1 h.2)
  | writeEvent e m k ih =>
    have h := tr (writeEvent_same p e m) hsave hp
    exact (writeEvent_gf p e m hm.1 hsave hp).trans (ih _ _ (hm.2 _) h.1 h.2)
  | writeCheckpoint f k ih =>
    have h := tr (writeCheckpoint_same p (.user f)) hsave hp
    exact (writeCheckpoint_gf p _ (fun k => by simp)).trans (ih _ _ (hm _) h.1 h.2)

theorem autoCheckpoint_advance_gf (p : Plan Name Val Ev Mon) (auto : Bool) :
    Gf p (p.autoCheckpoint auto).advance := by
  have h : Gf p (p.autoCheckpoint auto) := by
    unfold Plan.autoCheckpoint
    split
    · exact writeCheckpoint_gf p _ (fun k => by simp)
    · exact Gf.refl p
  exact h.trans (Gf.of_eq rfl rfl)

theorem runLoop_gf (auto : Bool) (as : List (Action Name Val Ev Mon)) (p : Plan Name Val Ev Mon)
    (hm : ∀ a ∈ as, MonOk a.run) (hsave : p.save = true)
    (hp : p.ptr + as.length = p.actions.length) : Gf p (runLoop auto as p).1 := by
  induction as generalizing p with
  | nil => exact Gf.refl p
  | cons a as ih =>
    simp only [List.length_cons] at hp
    have hg := runProg_gf a.run p (hm a (by simp)) hsave (by omega)
    have hs := runProg_same a.run p
    rw [runLoop]
    cases hr : runProg a.run p with
    | mk p' b =>
      rw [hr] at hs hg
      cases b with
      | false => exact hg
      | true =>
        have hc := hs.trans (autoCheckpoint_same p' auto)
        refine hg.trans ((autoCheckpoint_advance_gf p' auto).trans (ih _ ?_ ?_ ?_))
        · exact fun a ha => hm a (by simp [ha])
        · show (p'.autoCheckpoint auto).save = true
          rw [hc.save, hsave]
        · show (p'.autoCheckpoint auto).ptr + 1 + as.length = (p'.autoCheckpoint auto).actions.length
          rw [hc.ptr, hc.actions]
          show p.ptr + 1 + as.length = p.actions.length
          omega

theorem drop_add_length {α : Type} (l : List α) (n : Nat) (h : n ≤ l.length) :
    n + (l.drop n).length = l.length := by
  rw [List.length_drop]; omega

theorem run_gf (p : Plan Name Val Ev Mon) (auto : Bool) (hm : ∀ a ∈ p.actions, MonOk a.run)
    (hsave : p.save = true) (hp : p.ptr ≤ p.actions.length) : Gf p (p.run auto).1 := by
  have h := runLoop_gf auto (p.actions.drop p.ptr) { p with modifiable := true }
    (fun a ha => hm a (List.mem_of_mem_drop ha)) hsave (drop_add_length _ _ hp)
  have h0 : Gf p { p with modifiable := true } := Gf.of_eq rfl rfl
  rw [Plan.run]
  cases hr : runLoop auto (p.actions.drop p.ptr) { p with modifiable := true } with
  | mk p' b =>
    rw [hr] at h
    cases b with
    | false => exact h0.trans h
    | true => exact (h0.trans h).trans (Gf.of_eq rfl rfl)

theorem run_ptr (p : Plan Name Val Ev Mon) (auto : Bool) (hp : p.ptr ≤ p.actions.length) :
    (p.run auto).1.ptr ≤ p.actions.length := by
  have h : ∀ (as : List (Action Name Val Ev Mon)) (p : Plan Name Val Ev Mon),
      (runLoop auto as p).1.ptr ≤ p.ptr + as.length := by
    intro as
    induction as with
    | nil => intro p; exact Nat.le_refl _
    | cons a as ih =>
      intro p
      have hs := runProg_same a.run p
      rw [runLoop]
      cases hr : runProg a.run p with
      | mk p' b =>
        rw [hr] at hs
        simp only at hs
        cases b with
        | false => simp only [hs.ptr]; omega
        | true =>
          simp only
          have h1 := ih (p'.autoCheckpoint auto).advance
          have hc := hs.trans (autoCheckpoint_same p' auto)
          have e : (p'.autoCheckpoint auto).advance.ptr = (p'.autoCheckpoint auto).ptr + 1 := rfl
          rw [e, hc.ptr] at h1
          simp only [List.length_cons]
          omega
  have h1 := h (p.actions.drop p.ptr) { p with modifiable := true }
  have h2 := drop_add_length _ _ hp
  rw [Plan.run]
  cases hr : runLoop auto (p.actions.drop p.ptr) { p with modifiable := true } with
  | mk p' b =>
    rw [hr] at h1
    cases b <;> (simp only at h1 ⊢; omega)

theorem run_fixed (p : Plan Name Val Ev Mon) (auto : Bool) :
    (p.run auto).1.actions = p.actions ∧ (p.run auto).1.save = p.save ∧
    (p.run auto).1.autorun = p.autorun ∧ ((p.run auto).2 = true → (p.run auto).1.modifiable = false) ∧
    ((p.run auto).2 = false → (p.run auto).1.modifiable = true) := by
  have h := runLoop_fixed auto (p.actions.drop p.ptr) { p with modifiable := true }
  rw [Plan.run]
  cases hr : runLoop auto (p.actions.drop p.ptr) { p with modifiable := true } with
  | mk p' b =>
    rw [hr] at h
    cases b with
    | false => exact ⟨h.2.1, h.2.2.1, h.2.2.2, (fun h => nomatch h), fun _ => h.1⟩
    | true => exact ⟨h.2.1, h.2.2.1, h.2.2.2, fun _ => rfl, (fun h => nomatch h)⟩

end Verif.Plan
