import Mathlib.Tactic.Cases
import Verif.Work.ResumeLemmas

/-!
C39: a plan killed between two file writes and restarted with `resume=True`, any number of times, writes the files and ends with the
values of the uninterrupted run. C10, for plans: a resumed run never overwrites a log.

The full claim is false; the theorem is proved for plans that are `Resumable`, and for kills between transformations without the
assumptions about optimizers. The counterexamples at the end show that no assumption can be dropped.
-/
namespace Verif.Work

set_option linter.unusedSectionVars false

variable {Val Mem : Type}

/-- An optimizer that continues alike after a restart: its step depends on the current value only, it makes as many steps as
`maxiter` says, and `maxiter` is given. -/
structure Memoryless (o : Optimizer Val Mem) : Prop where
  step : ∀ e m v, (o.step e m v).map (·.2) = (o.step e (o.setup e v) v).map (·.2)
  bound : ∀ n, o.bound n = n
  maxiter : o.maxiter.isSome

/-- Names of transformations are unique, and every parameter is set by a `parameter_list` when it is first used. -/
structure WellNamed (plan : Plan Val Mem) : Prop where
  names : (plan.transformations.map (·.name)).Nodup
  uses : ∀ l t r, plan.transformations = l ++ t :: r → ∀ p ∈ t.uses, p ∈ (l ++ [t]).flatMap fun u => u.sets.map (·.1)

/-- Besides, transformations that optimize set no parameters, and their optimizers continue alike or are not logged. -/
structure Resumable (plan : Plan Val Mem) : Prop extends WellNamed plan where
  optimizers : ∀ t ∈ plan.transformations, ∀ o, t.action = .optimize o → t.sets = [] ∧ (o.callback = false ∨ Memoryless o)

/-- The files in a folder that was empty, after a run and restarts, each killed after some number of writes (or finished). -/
inductive Interrupted (plan : Plan Val Mem) : List (File Val) → Prop
  | first (s : Proc Val) (written : List (File Val)) (k : Nat) : runPlan plan [] false = some (s, written) →
      Interrupted plan (written.take k)
  | again (files : List (File Val)) (s : Proc Val) (written : List (File Val)) (k : Nat) : Interrupted plan files →
      runPlan plan files true = some (s, written) → Interrupted plan (files ++ written.take k)

theorem WellNamed.uses_done {plan : Plan Val Mem} (h : WellNamed plan) {done rest : List (Transformation Val Mem)}
    (hp : plan.transformations = done ++ rest) (p : Nat) (hu : p ∈ done.flatMap fun t => t.uses ++ t.sets.map (·.1)) :
    p ∈ done.flatMap fun t => t.sets.map (·.1) := by
  rw [List.mem_flatMap] at hu
  obtain ⟨t, ht, hu⟩ := hu
  rcases List.mem_append.mp hu with hu | hu
  · obtain ⟨l, r, rfl⟩ := List.append_of_mem ht
    have := h.uses l t (r ++ rest) (by rw [hp]; simp) p hu
    rw [List.mem_flatMap] at this ⊢
    obtain ⟨u, hu1, hu2⟩ := this
    refine ⟨u, ?_, hu2⟩
    simp only [List.mem_append, List.mem_cons] at hu1 ⊢
    tauto
  · exact List.mem_flatMap.mpr ⟨t, ht, hu⟩

/-- What is restored from the checkpoint of the last finished transformation. -/
theorem restore_done {plan : Plan Val Mem} (h : WellNamed plan) {done rest : List (Transformation Val Mem)}
    (hp : plan.transformations = done ++ rest) (extra : List (File Val)) (hx : chkNames extra = []) :
    restoreWorkspace plan ((runAll plan done none Proc.init).2 ++ extra) =
      match rest with
      | [] => some (⟨(runAll plan done none Proc.init).1.pz, (runAll plan done none Proc.init).1.par, 0⟩, done.length, none)
      | t :: _ => match latestLog ((runAll plan done none Proc.init).2 ++ extra) with
        | none => some (⟨(runAll plan done none Proc.init).1.pz, (runAll plan done none Proc.init).1.par, 0⟩, done.length, none)
        | some (step, tr, ev, v) =>
          if tr = t.name then some (⟨put (runAll plan done none Proc.init).1.pz t.parametrization v,
            (runAll plan done none Proc.init).1.par, step⟩, done.length, some ev)
          else some (⟨(runAll plan done none Proc.init).1.pz, (runAll plan done none Proc.init).1.par, step⟩, done.length, none) := by
  have hchk : chkNames ((runAll plan done none Proc.init).2 ++ extra) = done.map (·.name) := by
    rw [chkNames_append, hx, runAll_chkNames, List.append_nil]
  have hnd : ((done ++ rest).map (·.name)).Nodup := by rw [← hp]; exact h.names
  rw [List.map_append, List.nodup_append] at hnd
  have hidx : transformIndex ((runAll plan done none Proc.init).2 ++ extra) plan.transformations 0 0 = done.length := by
    rw [hp, transformIndex_done]
    · split
      · rename_i hd; rw [hd]; rfl
      · omega
    · intro t ht
      rw [hchk]
      exact List.mem_map_of_mem ht
    · intro t ht
      rw [hchk]
      intro hc
      exact hnd.2.2 _ hc _ (List.mem_map_of_mem ht) rfl
  obtain ⟨kpz, kpar⟩ := runAll_known plan done Proc.init
  have hs : restoreCheckpoint plan ((runAll plan done none Proc.init).2 ++ extra) done.length =
      some ⟨(runAll plan done none Proc.init).1.pz, (runAll plan done none Proc.init).1.par, 0⟩ := by
    unfold restoreCheckpoint
    rcases List.eq_nil_or_concat done with rfl | ⟨init, last, hd⟩
    · rfl
    · rw [List.concat_eq_append] at hd
      obtain ⟨pre, hpre⟩ := runAll_last plan init last Proc.init
      rw [← hd] at hpre
      have hlen : done.length > 0 := by rw [hd]; simp
      have hlast : plan.transformations[done.length - 1]? = some last := by
        rw [hp, hd]; simp
      have hfind : findChkpt ((runAll plan done none Proc.init).2 ++ extra) last.name =
          some ((runAll plan done none Proc.init).1.pz, (runAll plan done none Proc.init).1.par) := by
        rw [findChkpt_append, findChkpt_none extra _ (by rw [hx]; simp), hpre, findChkpt_append]
        simp [findChkpt]
      have htake : plan.transformations.take done.length = done := by rw [hp]; simp
      rw [if_pos hlen, hlast, htake]
      simp only [bind, Option.bind, hfind]
      obtain ⟨par', hr, hpar'⟩ := restoreTransformations_eq plan (runAll plan done none Proc.init).1.pz done (fun _ => none)
        (fun _ => none) (fun t ht => (kpz _).mpr (Or.inr (List.mem_map_of_mem (f := (·.parametrization)) ht)))
      rw [hr]
      simp only []
      have hall : ∀ p, (runAll plan done none Proc.init).1.par p ≠ none →
          p ∈ plan.parameters ∧ par' p ≠ none := by
        intro p hpne
        have hm := (kpar p).mp hpne
        rcases hm with hm | hm
        · exact absurd rfl hm
        · refine ⟨?_, (hpar' p).mpr (Or.inr (h.uses_done hp p hm))⟩
          unfold Plan.parameters
          rw [hp, List.flatMap_append]
          exact List.mem_append_left _ hm
      rw [restoreParameters_eq _ _ _ fun p _ hc => (hall p hc).2]
      simp only [pure, Option.some.injEq, Proc.mk.injEq, and_true]
      constructor
      · funext q
        split
        · rfl
        · rename_i hq
          by_contra hc
          have := (kpz q).mp (Ne.symm hc)
          rcases this with hm | hm
          · exact absurd rfl hm
          · exact hq hm
      · funext p
        by_cases hpne : (runAll plan done none Proc.init).1.par p = none
        · have : par' p = none := by
            by_contra hc
            rcases (hpar' p).mp hc with hm | hm
            · exact absurd rfl hm
            · have := (kpar p).mpr (Or.inr (by
                rw [List.mem_flatMap] at hm ⊢
                obtain ⟨t, ht, hm⟩ := hm
                exact ⟨t, ht, List.mem_append_right _ hm⟩))
              exact this hpne
          simp [hpne, this]
        · rw [if_pos ⟨(hall p hpne).1, hpne⟩]
  unfold restoreWorkspace
  rw [hidx]
  simp only []
  rw [hs]
  cases rest with
  | nil =>
    have hge : done.length ≥ plan.transformations.length := by rw [hp]; simp
    simp only [bind, Option.bind, hge, if_true, pure]
  | cons t rest =>
    have hlt : ¬ done.length ≥ plan.transformations.length := by rw [hp]; simp
    have hget : plan.transformations[done.length]? = some t := by rw [hp]; simp
    simp only [bind, Option.bind, hlt, if_false, hget, pure]
    cases hl : latestLog ((runAll plan done none Proc.init).2 ++ extra) with
    | none => rfl
    | some x =>
      obtain ⟨step, tr, ev, v⟩ := x
      simp only []

/-- **C39, partial.** Between transformations: a plan whose first transformations `done` are finished is resumed with the next, from
the values the uninterrupted run has there, so writes the rest of its files and ends with the same values; whatever the optimizers are
and whatever the parameters are set to. What is missing: kills inside a transformation, plans with parameters that are not set, and
folders with other files. -/
theorem resume_between_partial (plan : Plan Val Mem) (h : WellNamed plan) (done rest : List (Transformation Val Mem))
    (hp : plan.transformations = done ++ rest) (s : Proc Val) (written : List (File Val))
    (hr : runPlan plan [] false = some (s, written)) :
    ∃ (s' : Proc Val) (before after : List (File Val)), runAll plan done none Proc.init = (s', before) ∧ written = before ++ after ∧
      ∃ s'', runPlan plan before true = some (s'', after) ∧ s''.pz = s.pz ∧ s''.par = s.par := by
  simp only [runPlan, Bool.false_eq_true, if_false, Option.some.injEq] at hr
  rw [hp, runAll_append, Prod.mk.injEq] at hr
  obtain ⟨rfl, rfl⟩ := hr
  refine ⟨_, _, _, rfl, rfl, ?_⟩
  have hnum := runAll_numbered plan done none Proc.init
  have hrest := restore_done h hp [] rfl
  rw [List.append_nil] at hrest
  have hnd : ((done ++ rest).map (·.name)).Nodup := by rw [← hp]; exact h.names
  rw [List.map_append, List.nodup_append] at hnd
  have hdrop : plan.transformations.drop done.length = rest := by rw [hp]; simp
  simp only [runPlan, if_true]
  rw [hrest]
  cases rest with
  | nil =>
    simp only [bind, Option.bind, pure, hdrop]
    exact ⟨_, rfl, rfl, rfl⟩
  | cons t rest =>
    rcases latestLog_numbered hnum with ⟨hc, hl⟩ | ⟨tr, ev, v, htr, hl⟩
    · simp only [hl, bind, Option.bind, pure, hdrop]
      have : (⟨(runAll plan done none Proc.init).1.pz, (runAll plan done none Proc.init).1.par, 0⟩ : Proc Val) =
          (runAll plan done none Proc.init).1 := by rw [← hc]
      rw [this]
      exact ⟨_, rfl, rfl, rfl⟩
    · have hne : tr ≠ t.name := fun he => hnd.2.2 _ htr _ (by simp) he
      simp only [hl, hne, if_false, bind, Option.bind, pure, hdrop]
      exact ⟨_, rfl, rfl, rfl⟩

/-- The state of a memoryless optimizer does not matter. -/
theorem iterate_mem {o : Optimizer Val Mem} (ho : Memoryless o) (name : Nat) (par : Nat → Option Val) (e : Nat → Val) :
    ∀ (n : Nat) (m m' : Mem) (v : Val) (i c : Nat), iterate o name par e n m v i c = iterate o name par e n m' v i c
  | 0, m, m', v, i, c => rfl
  | n + 1, m, m', v, i, c => by
    have h1 := ho.step e m v
    have h2 := ho.step e m' v
    rw [← h2] at h1
    unfold iterate
    cases ha : o.step e m v with
    | none =>
      cases hb : o.step e m' v with
      | none => rfl
      | some y => rw [ha, hb] at h1; simp at h1
    | some x =>
      cases hb : o.step e m' v with
      | none => rw [ha, hb] at h1; simp at h1
      | some y =>
        rw [ha, hb] at h1
        simp only [Option.map_some, Option.some.injEq] at h1
        obtain ⟨m1, v1⟩ := x
        obtain ⟨m2, v2⟩ := y
        simp only at h1
        subst h1
        simp only []
        rw [iterate_mem ho name par e n m1 m2 v1 (i + 1) (c + 1), iterate_mem ho name par e n m1 m2 v1 (i + 1) c]

/-- Continuing the optimization loop from one of its logs. -/
theorem iterate_resume {o : Optimizer Val Mem} (ho : Memoryless o) (hcb : o.callback = true) (name : Nat) (par : Nat → Option Val)
    (e : Nat → Val) : ∀ (n : Nat) (m : Mem) (v : Val) (i c j : Nat), j < (iterate o name par e n m v i c).2.2.length →
    ∃ vj, (iterate o name par e n m v i c).2.2[j]? = some (.log (c + j + 1) name (.optimizing (i + j + 1)) vj par) ∧ j + 1 ≤ n ∧
      iterate o name par e (n - (j + 1)) (o.setup e vj) vj (i + j + 1) (c + j + 1) =
        ((iterate o name par e n m v i c).1, (iterate o name par e n m v i c).2.1, (iterate o name par e n m v i c).2.2.drop (j + 1))
  | 0, m, v, i, c, j, hj => by simp [iterate] at hj
  | n + 1, m, v, i, c, j, hj => by
    cases ha : o.step e m v with
    | none =>
      have hI : iterate o name par e (n + 1) m v i c = (v, c, []) := by rw [iterate, ha]
      rw [hI] at hj
      simp at hj
    | some x =>
      obtain ⟨m1, v1⟩ := x
      have hI : iterate o name par e (n + 1) m v i c = ((iterate o name par e n m1 v1 (i + 1) (c + 1)).1,
          (iterate o name par e n m1 v1 (i + 1) (c + 1)).2.1,
          .log (c + 1) name (.optimizing (i + 1)) v1 par :: (iterate o name par e n m1 v1 (i + 1) (c + 1)).2.2) := by
        rw [iterate, ha]
        simp only [hcb, if_true]
      rw [hI] at hj ⊢
      cases j with
      | zero =>
        refine ⟨v1, by simp, by omega, ?_⟩
        simp only [Nat.add_sub_cancel, Nat.zero_add, Nat.add_zero, List.drop_succ_cons, List.drop_zero]
        exact iterate_mem ho name par e n _ _ _ _ _
      | succ j =>
        obtain ⟨vj, h1, h2, h3⟩ := iterate_resume ho hcb name par e n m1 v1 (i + 1) (c + 1) j (by simpa using hj)
        have hi : i + 1 + j + 1 = i + (j + 1) + 1 := by omega
        have hc : c + 1 + j + 1 = c + (j + 1) + 1 := by omega
        rw [hi, hc] at h1 h3
        refine ⟨vj, by simpa using h1, by omega, ?_⟩
        rw [Nat.add_sub_add_right, List.drop_succ_cons]
        exact h3

theorem iterate_quiet {o : Optimizer Val Mem} (hcb : o.callback = false) (name : Nat) (par : Nat → Option Val) (e : Nat → Val) :
    ∀ (n : Nat) (m : Mem) (v : Val) (i c : Nat), (iterate o name par e n m v i c).2 = (c, [])
  | 0, m, v, i, c => rfl
  | n + 1, m, v, i, c => by
    unfold iterate
    cases ha : o.step e m v with
    | none => rfl
    | some x => simp only [hcb]; exact iterate_quiet hcb name par e n _ _ _ _

/-- Continuing an optimizer from one of its logs. -/
theorem optimizerCall_resume {o : Optimizer Val Mem} (ho : o.callback = false ∨ Memoryless o) (name : Nat) (par : Nat → Option Val)
    (e : Nat → Val) (v : Val) (c j : Nat) (hj : j < (optimizerCall o name par e v c none).2.2.length) :
    ∃ ev vj, (optimizerCall o name par e v c none).2.2[j]? = some (.log (c + j + 1) name ev vj par) ∧
      optimizerCall o name par e vj (c + j + 1) (some ev) = ((optimizerCall o name par e v c none).1,
        (optimizerCall o name par e v c none).2.1, (optimizerCall o name par e v c none).2.2.drop (j + 1)) := by
  have hnum := iterate_numbered o name par e (steps o 0) (o.setup e v) v 0 (c + 1)
  have hall : optimizerCall o name par e v c none =
      ((iterate o name par e (steps o 0) (o.setup e v) v 0 (c + 1)).1,
        (iterate o name par e (steps o 0) (o.setup e v) v 0 (c + 1)).2.1 + 1,
        .log (c + 1) name .start v par :: (iterate o name par e (steps o 0) (o.setup e v) v 0 (c + 1)).2.2 ++
          [.log ((iterate o name par e (steps o 0) (o.setup e v) v 0 (c + 1)).2.1 + 1) name .finish
            (iterate o name par e (steps o 0) (o.setup e v) v 0 (c + 1)).1 par]) := by
    simp [optimizerCall]
  have hcount : (iterate o name par e (steps o 0) (o.setup e v) v 0 (c + 1)).2.1 =
      c + 1 + (iterate o name par e (steps o 0) (o.setup e v) v 0 (c + 1)).2.2.length := by
    have : ∀ (n : Nat) (m : Mem) (v : Val) (i c : Nat), (iterate o name par e n m v i c).2.1 =
        c + (iterate o name par e n m v i c).2.2.length := by
      intro n
      induction n with
      | zero => intros; rfl
      | succ n ih =>
        intro m v i c
        unfold iterate
        cases ha : o.step e m v with
        | none => rfl
        | some x =>
          simp only []
          split
          · simp only [ih, List.length_cons]; omega
          · exact ih _ _ _ _
    exact this _ _ _ _ _
  rw [hall] at hj ⊢
  generalize hI : iterate o name par e (steps o 0) (o.setup e v) v 0 (c + 1) = I at *
  obtain ⟨w, c', fs⟩ := I
  simp only [List.cons_append, List.length_cons, List.length_append, List.length_nil] at hj hcount ⊢
  cases j with
  | zero =>
    refine ⟨.start, v, by simp, ?_⟩
    simp [optimizerCall, hI]
  | succ j =>
    simp only [List.getElem?_cons_succ, List.drop_succ_cons]
    by_cases hlt : j < fs.length
    · rcases ho with hcb | ho
      · have := iterate_quiet hcb name par e (steps o 0) (o.setup e v) v 0 (c + 1)
        rw [hI] at this
        simp only [Prod.mk.injEq] at this
        rw [this.2] at hlt
        simp at hlt
      · have hcb : o.callback = true := by
          by_contra hc
          have := iterate_quiet (Bool.not_eq_true _ ▸ hc : o.callback = false) name par e (steps o 0) (o.setup e v) v 0 (c + 1)
          rw [hI] at this
          simp only [Prod.mk.injEq] at this
          rw [this.2] at hlt
          simp at hlt
        obtain ⟨vj, h1, h2, h3⟩ := iterate_resume ho hcb name par e (steps o 0) (o.setup e v) v 0 (c + 1) j (by rw [hI]; exact hlt)
        rw [hI] at h1 h3
        obtain ⟨n, hn⟩ := Option.isSome_iff_exists.mp ho.maxiter
        have hsteps : steps o 0 - (j + 1) = steps o (0 + j + 1) := by
          simp only [steps, hn, ho.bound]; omega
        rw [hsteps] at h3
        have hc : c + 1 + j + 1 = c + (j + 1) + 1 := by omega
        rw [hc] at h1 h3
        simp only [Nat.zero_add] at h1 h3
        refine ⟨.optimizing (j + 1), vj, ?_, ?_⟩
        · rw [List.getElem?_append_left hlt, h1]
        · simp only [optimizerCall, reduceCtorEq, if_false, Option.some.injEq, List.nil_append]
          rw [h3]
          simp only []
          rw [List.drop_append_of_le_length (by omega)]
    · have hj' : j = fs.length := by omega
      subst hj'
      refine ⟨.finish, w, ?_, ?_⟩
      · rw [List.getElem?_append_right (Nat.le_refl _)]
        simp [hcount]
        omega
      · simp [optimizerCall, hcount]
        omega

/-- Continuing a transformation from one of its logs. -/
theorem runTransformation_resume {plan : Plan Val Mem} {t : Transformation Val Mem}
    (ht : ∀ o, t.action = .optimize o → t.sets = [] ∧ (o.callback = false ∨ Memoryless o)) (s : Proc Val) (j : Nat)
    (hj : j < (runTransformation plan t none s).2.length) :
    ∃ ev vj par, (runTransformation plan t none s).2[j]? = some (.log (s.counter + j + 1) t.name ev vj par) ∧
      runTransformation plan t (some ev) ⟨put s.pz t.parametrization vj, s.par, s.counter + j + 1⟩ =
        ((runTransformation plan t none s).1, (runTransformation plan t none s).2.drop (j + 1)) := by
  unfold runTransformation at hj ⊢
  cases ha : t.action with
  | compute f => simp [ha] at hj
  | optimize o =>
    obtain ⟨hsets, ho⟩ := ht o ha
    simp only [ha, hsets, setParameters, if_true, reduceCtorEq, if_false] at hj ⊢
    obtain ⟨ev, vj, h1, h2⟩ := optimizerCall_resume ho t.name _ _ _ _ j hj
    refine ⟨ev, vj, _, h1, ?_⟩
    have hpz : ∀ x, put (know plan.initPz [t.parametrization] (put s.pz t.parametrization vj)) t.parametrization x =
        put (know plan.initPz [t.parametrization] s.pz) t.parametrization x := by
      intro x
      funext q
      by_cases hq : q = t.parametrization <;> simp [put, know, hq]
    have hv : env plan.initPz (know plan.initPz [t.parametrization] (put s.pz t.parametrization vj)) t.parametrization = vj := by
      simp [env, know, put]
    rw [hv, h2, hpz]

theorem take_succ_eq {α : Type} (l : List α) (j : Nat) (x : α) (h : l[j]? = some x) : l.take (j + 1) = l.take j ++ [x] := by
  rw [List.take_add_one, h]
  rfl

theorem Numbered.take {names : List Nat} {l : List (File Val)} {c c' : Nat} (h : Numbered names c l c') (hl : chkNames l = []) (j : Nat)
    (hj : j ≤ l.length) : Numbered names c (l.take j) (c + j) := by
  induction l generalizing c j with
  | nil => simp only [List.length_nil, Nat.le_zero] at hj; subst hj; rfl
  | cons f fs ih =>
    cases f with
    | chkpt n pz par => simp [chkNames] at hl
    | log st tr ev v par =>
      cases j with
      | zero => rfl
      | succ j =>
        obtain ⟨h1, h2, h3⟩ := h
        refine ⟨h1, h2, ?_⟩
        have := ih h3 hl j (by simpa using hj)
        rwa [Nat.add_assoc, Nat.add_comm 1 j] at this

/-- A kill inside a transformation. -/
theorem resume_inside {plan : Plan Val Mem} (h : Resumable plan) {done rest : List (Transformation Val Mem)} {t : Transformation Val Mem}
    (hp : plan.transformations = done ++ t :: rest) (j : Nat)
    (hj : j < (runTransformation plan t none (runAll plan done none Proc.init).1).2.length) :
    runPlan plan ((runAll plan done none Proc.init).2 ++ (runTransformation plan t none (runAll plan done none Proc.init).1).2.take (j + 1))
      true = some ((runAll plan (t :: rest) none (runAll plan done none Proc.init).1).1,
        (runAll plan (t :: rest) none (runAll plan done none Proc.init).1).2.drop (j + 1)) := by
  have htm : t ∈ plan.transformations := by rw [hp]; simp
  obtain ⟨ev, vj, par, h1, h2⟩ := runTransformation_resume (plan := plan) (h.optimizers t htm) (runAll plan done none Proc.init).1 j hj
  have hchk := runTransformation_chkNames plan t none (runAll plan done none Proc.init).1
  have hnum := runTransformation_numbered plan t none (runAll plan done none Proc.init).1
  have hchkt : ∀ n, chkNames ((runTransformation plan t none (runAll plan done none Proc.init).1).2.take n) = [] := by
    intro n
    rw [← List.take_append_drop n (runTransformation plan t none (runAll plan done none Proc.init).1).2, chkNames_append,
      List.append_eq_nil_iff] at hchk
    exact hchk.1
  have hn1 : Numbered ((done ++ [t]).map (·.name)) 0 ((runAll plan done none Proc.init).2 ++
      (runTransformation plan t none (runAll plan done none Proc.init).1).2.take j) ((runAll plan done none Proc.init).1.counter + j) :=
    Numbered.append ((runAll_numbered plan done none Proc.init).mono (fun x hx => by rw [List.map_append]; exact List.mem_append_left _ hx))
      ((hnum.take hchk j (Nat.le_of_lt hj)).mono (by simp))
  have hl := latestLog_last hn1 t.name ev vj par
  have hrest := restore_done h.toWellNamed hp _ (hchkt (j + 1))
  rw [take_succ_eq _ j _ h1] at hrest ⊢
  rw [← List.append_assoc] at hrest ⊢
  rw [hl] at hrest
  simp only [if_true] at hrest
  simp only [runPlan, if_true]
  rw [hrest]
  have hdrop : plan.transformations.drop done.length = t :: rest := by rw [hp]; simp
  simp only [bind, Option.bind, pure, hdrop]
  rw [runAll, h2]
  simp only [runAll]
  rw [List.drop_append_of_le_length (by omega)]

/-- Where a crash point lies in a run. -/
theorem crash_point (plan : Plan Val Mem) : ∀ (ts : List (Transformation Val Mem)) (s : Proc Val) (k : Nat),
    (∃ done rest, ts = done ++ rest ∧ (runAll plan ts none s).2.take k = (runAll plan done none s).2) ∨
    ∃ done t rest j, ts = done ++ t :: rest ∧ j < (runTransformation plan t none (runAll plan done none s).1).2.length ∧
      (runAll plan ts none s).2.take k =
        (runAll plan done none s).2 ++ (runTransformation plan t none (runAll plan done none s).1).2.take (j + 1)
  | [], s, k => Or.inl ⟨[], [], rfl, by simp [runAll]⟩
  | t :: ts, s, k => by
    generalize hA : runTransformation plan t none s = A
    have hrun : (runAll plan (t :: ts) none s).2 = A.2 ++ .chkpt t.name A.1.pz A.1.par :: (runAll plan ts none A.1).2 := by
      simp [runAll, hA]
    rw [hrun]
    by_cases h0 : k = 0
    · subst h0
      exact Or.inl ⟨[], t :: ts, rfl, by simp [runAll]⟩
    · by_cases hk : k ≤ A.2.length
      · right
        refine ⟨[], t, ts, k - 1, rfl, ?_, ?_⟩
        · simp only [runAll, hA]; omega
        · simp only [runAll, hA, List.nil_append]
          rw [List.take_append_of_le_length hk, Nat.sub_add_cancel (by omega)]
      · obtain ⟨n, hn⟩ : ∃ n, k = A.2.length + (n + 1) := ⟨k - A.2.length - 1, by omega⟩
        have htake : (A.2 ++ .chkpt t.name A.1.pz A.1.par :: (runAll plan ts none A.1).2).take k =
            A.2 ++ .chkpt t.name A.1.pz A.1.par :: (runAll plan ts none A.1).2.take n := by
          rw [hn, List.take_length_add_append, List.take_succ_cons]
        rw [htake]
        rcases crash_point plan ts A.1 n with ⟨done, rest, rfl, h⟩ | ⟨done, u, rest, j, rfl, hj, h⟩
        · exact Or.inl ⟨t :: done, rest, rfl, by simp [runAll, hA, h]⟩
        · refine Or.inr ⟨t :: done, u, rest, j, rfl, ?_, ?_⟩
          · simpa [runAll, hA] using hj
          · simp [runAll, hA, h]

/-- **C39, partial.** For a resumable plan and every crash point: the restarted run writes exactly the files that were still to be
written, with the same contents, and ends with the same values. -/
theorem resume_continues_partial (plan : Plan Val Mem) (h : Resumable plan) (s : Proc Val) (written : List (File Val))
    (hr : runPlan plan [] false = some (s, written)) (k : Nat) :
    ∃ s', runPlan plan (written.take k) true = some (s', written.drop k) ∧ s'.pz = s.pz ∧ s'.par = s.par := by
  have hr0 := hr
  simp only [runPlan, Bool.false_eq_true, if_false, Option.some.injEq] at hr
  have hs : s = (runAll plan plan.transformations none Proc.init).1 := by rw [hr]
  have hw : written = (runAll plan plan.transformations none Proc.init).2 := by rw [hr]
  rcases crash_point plan plan.transformations Proc.init k with ⟨done, rest, hp, ht⟩ | ⟨done, t, rest, j, hp, hj, ht⟩
  · obtain ⟨s', before, after, h1, h2, s'', h3, h4, h5⟩ := resume_between_partial plan h.toWellNamed done rest hp s written hr0
    refine ⟨s'', ?_, h4, h5⟩
    rw [← hw, h1] at ht
    have : written.drop k = after := by
      have := List.take_append_drop k written
      rw [ht, h2] at this
      exact List.append_cancel_left (by rw [h2]; exact this)
    rw [ht, this]
    exact h3
  · have hin := resume_inside h hp j hj
    rw [← hw] at ht
    rw [ht, hin]
    refine ⟨(runAll plan (t :: rest) none (runAll plan done none Proc.init).1).1, ?_, ?_⟩
    · congr 2
      have hfull : written = (runAll plan done none Proc.init).2 ++ (runAll plan (t :: rest) none (runAll plan done none Proc.init).1).2 := by
        rw [hw, hp, runAll_append]
      have h1 : (runAll plan (t :: rest) none (runAll plan done none Proc.init).1).2.take (j + 1) =
          (runTransformation plan t none (runAll plan done none Proc.init).1).2.take (j + 1) := by
        simp only [runAll]
        rw [List.take_append_of_le_length (by omega)]
      have h2 := List.take_append_drop k written
      rw [ht] at h2
      have h3 := List.take_append_drop (j + 1) (runAll plan (t :: rest) none (runAll plan done none Proc.init).1).2
      rw [h1] at h3
      have h4 : (runAll plan done none Proc.init).2 ++ ((runTransformation plan t none (runAll plan done none Proc.init).1).2.take (j + 1) ++
          (runAll plan (t :: rest) none (runAll plan done none Proc.init).1).2.drop (j + 1)) = written := by rw [h3, ← hfull]
      rw [← List.append_assoc, ← h2] at h4
      exact List.append_cancel_left h4
    · rw [hs, hp, runAll_append]
      exact ⟨rfl, rfl⟩

/-- **C39, partial.** For a resumable plan, after a run and any number of restarts, each killed at any point, the next restart does not
fail, completes the very list of files an uninterrupted run writes, and ends with its values. -/
theorem resume_any_number_partial (plan : Plan Val Mem) (h : Resumable plan) (s : Proc Val) (written : List (File Val))
    (hr : runPlan plan [] false = some (s, written)) (files : List (File Val)) (hi : Interrupted plan files) :
    ∃ s' more, runPlan plan files true = some (s', more) ∧ files ++ more = written ∧ s'.pz = s.pz ∧ s'.par = s.par := by
  have hex : ∃ k, files = written.take k := by
    induction hi with
    | first s1 w1 k h1 =>
      rw [hr] at h1
      cases h1
      exact ⟨k, rfl⟩
    | again files s1 w1 n h1 h2 ih =>
      obtain ⟨k, rfl⟩ := ih
      obtain ⟨s', h3, _, _⟩ := resume_continues_partial plan h s written hr k
      rw [h3] at h2
      cases h2
      rcases Nat.le_total k written.length with hk | hk
      · refine ⟨k + n, ?_⟩
        rw [List.take_add]
      · refine ⟨k, ?_⟩
        rw [List.drop_eq_nil_of_le hk]
        simp
  obtain ⟨k, rfl⟩ := hex
  obtain ⟨s', h3, h4, h5⟩ := resume_continues_partial plan h s written hr k
  exact ⟨s', _, h3, List.take_append_drop k written, h4, h5⟩

/-- **C10 for plans.** A resumed run writes no log with the number of a log in the folder, nor a smaller one: nothing that was logged
is overwritten. For every plan and every folder. -/
theorem resume_logs_new (plan : Plan Val Mem) (files : List (File Val)) (s : Proc Val) (written : List (File Val))
    (hr : runPlan plan files true = some (s, written)) (old new : Nat × Nat × Event × Val) (ho : old ∈ logs files)
    (hn : new ∈ logs written) : old.1 < new.1 := by
  have hmax : ∀ (l : List (Nat × Nat × Event × Val)) (a : Nat), a ≤ l.foldl (fun a l => max a l.1) a ∧
      ∀ x ∈ l, x.1 ≤ l.foldl (fun a l => max a l.1) a := by
    intro l
    induction l with
    | nil => intro a; simp
    | cons y l ih =>
      intro a
      obtain ⟨h1, h2⟩ := ih (max a y.1)
      rw [List.foldl_cons]
      refine ⟨by omega, ?_⟩
      intro x hx
      rcases List.mem_cons.mp hx with rfl | hx
      · omega
      · exact h2 x hx
  have hle : old.1 ≤ latestStep files := (hmax _ 0).2 old ho
  have hsome : latestStep files ≠ 0 → ∃ tr ev v, latestLog files = some (latestStep files, tr, ev, v) := by
    intro hne
    have hfound : ∀ (l : List (Nat × Nat × Event × Val)) (a : Nat), l.foldl (fun a l => max a l.1) a = a ∨
        ∃ x ∈ l, x.1 = l.foldl (fun a l => max a l.1) a := by
      intro l
      induction l with
      | nil => intro a; simp
      | cons y l ih =>
        intro a
        rw [List.foldl_cons]
        rcases ih (max a y.1) with h | ⟨x, hx, h⟩
        · rw [h]
          rcases Nat.le_total a y.1 with hy | hy
          · exact Or.inr ⟨y, List.mem_cons_self, by omega⟩
          · left; omega
        · exact Or.inr ⟨x, List.mem_cons_of_mem _ hx, h⟩
    have hex : ∃ x ∈ logs files, x.1 = latestStep files := by
      rcases hfound (logs files) 0 with h | h
      · exact absurd h hne
      · exact h
    obtain ⟨x, hx, he⟩ := hex
    unfold latestLog
    rw [if_neg hne]
    have hne' : (logs files).filter (fun l => l.1 = latestStep files) ≠ [] := by
      intro hnil
      have : x ∈ (logs files).filter (fun l => l.1 = latestStep files) := by simp [hx, he]
      rw [hnil] at this
      simp at this
    have hmem := List.getLast_mem hne'
    rw [List.getLast?_eq_some_getLast hne']
    generalize ((logs files).filter (fun l => l.1 = latestStep files)).getLast hne' = y at hmem
    obtain ⟨a, tr, ev, v⟩ := y
    simp only [List.mem_filter, decide_eq_true_eq] at hmem
    exact ⟨tr, ev, v, by rw [hmem.2]⟩
  have hgt : ∀ (names : List Nat) (fs : List (File Val)) (c c' : Nat), Numbered names c fs c' → ∀ x ∈ logs fs, c < x.1 := by
    intro names fs
    induction fs with
    | nil => intro c c' _ x hx; simp [logs] at hx
    | cons f fs ih =>
      intro c c' h x hx
      cases f with
      | log st tr ev v par =>
        have hx' : x = (st, tr, ev, v) ∨ x ∈ logs fs := List.mem_cons.mp hx
        rcases hx' with rfl | hx'
        · exact Nat.lt_of_lt_of_eq (Nat.lt_succ_self c) h.1.symm
        · have := ih (c + 1) c' h.2.2 x hx'
          omega
      | chkpt n pz par => exact ih c c' h x hx
  simp only [runPlan, if_true] at hr
  cases hw : restoreWorkspace plan files with
  | none => rw [hw] at hr; simp at hr
  | some x =>
    obtain ⟨s0, idx, ev⟩ := x
    rw [hw] at hr
    simp only [bind, Option.bind, pure, Option.some.injEq] at hr
    have hwr : written = (runAll plan (plan.transformations.drop idx) ev s0).2 := by rw [hr]
    have hnum := runAll_numbered plan (plan.transformations.drop idx) ev s0
    rw [← hwr] at hnum
    have hnew := hgt _ _ _ _ hnum new hn
    unfold restoreWorkspace at hw
    generalize transformIndex files plan.transformations 0 0 = i at hw
    simp only [] at hw
    cases hc : restoreCheckpoint plan files i with
    | none => rw [hc] at hw; simp at hw
    | some s1 =>
      rw [hc] at hw
      simp only [bind, Option.bind, pure] at hw
      split at hw
      · rename_i hge
        simp only [Option.some.injEq, Prod.mk.injEq] at hw
        obtain ⟨_, rfl, _⟩ := hw
        rw [List.drop_eq_nil_of_le hge] at hwr
        rw [hwr] at hn
        simp [runAll, logs] at hn
      · by_cases h0 : latestStep files = 0
        · omega
        · obtain ⟨tr, ev', v, hl⟩ := hsome h0
          rw [hl] at hw
          cases ht : plan.transformations[i]? with
          | none => simp [ht] at hw
          | some t =>
            simp only [ht] at hw
            have : s0.counter = latestStep files := by
              split at hw <;> (simp only [Option.some.injEq, Prod.mk.injEq] at hw; rw [← hw.1])
            omega

/-! ### A plan that is resumable -/

/-- An optimizer that adds a parameter to the value, at most three times. -/
def adder : Optimizer Nat Nat where
  setup := fun _ _ => 0
  step := fun e _ v => some (0, v + e 5)
  bound := fun n => n
  maxiter := some 3
  default := 0
  callback := true

/-- First a transformation that sets parameter 5 to 7, then two optimizations. -/
def samplePlan : Plan Nat Nat where
  initPz := fun _ => 0
  initPar := fun _ => 1
  transformations := [⟨0, 0, [], [(5, fun _ _ => 7)], .compute fun pz _ => pz 0⟩, ⟨1, 0, [5], [], .optimize adder⟩,
    ⟨2, 1, [5], [], .optimize { adder with callback := false }⟩]

theorem adder_memoryless : Memoryless adder := ⟨fun _ _ _ => rfl, fun _ => rfl, rfl⟩

theorem samplePlan_resumable : Resumable samplePlan := by
  have hmem : ∀ l (t : Transformation Nat Nat) r, samplePlan.transformations = l ++ t :: r → t.uses ≠ [] →
      5 ∈ l.flatMap (fun u => u.sets.map (·.1)) ∧ t.uses = [5] := by
    intro l t r h hne
    rcases l with _ | ⟨a, l⟩
    · simp only [samplePlan, List.nil_append, List.cons.injEq] at h
      rw [← h.1] at hne
      simp at hne
    · simp only [samplePlan, List.cons_append, List.cons.injEq] at h
      refine ⟨by rw [← h.1]; simp, ?_⟩
      have ht : t ∈ [(⟨1, 0, [5], [], .optimize adder⟩ : Transformation Nat Nat),
          ⟨2, 1, [5], [], .optimize { adder with callback := false }⟩] := by rw [h.2]; simp
      simp only [List.mem_cons, List.not_mem_nil, or_false] at ht
      rcases ht with rfl | rfl <;> rfl
  refine ⟨⟨by decide, ?_⟩, ?_⟩
  · intro l t r h p hp
    obtain ⟨h5, hu⟩ := hmem l t r h (by intro hn; rw [hn] at hp; simp at hp)
    rw [hu] at hp
    simp only [List.mem_cons, List.not_mem_nil, or_false] at hp
    subst hp
    rw [List.flatMap_append]
    exact List.mem_append_left _ h5
  · intro t ht o ho
    simp only [samplePlan, List.mem_cons, List.not_mem_nil, or_false] at ht
    rcases ht with rfl | rfl | rfl
    · simp at ho
    · cases ho; exact ⟨rfl, Or.inr adder_memoryless⟩
    · cases ho; exact ⟨rfl, Or.inl rfl⟩

/-- The uninterrupted run: ten files, and 21 in both parametrizations. -/
example : (runPlan samplePlan [] false).map (fun r => (r.2.length, r.1.pz 0, r.1.pz 1, r.1.par 5)) =
    some (10, some 21, some 21, some 7) := by decide

/-- Killed after four files, in the middle of the second transformation, and again after three more. -/
example : (runPlan samplePlan (((runPlan samplePlan [] false).map (·.2)).getD [] |>.take 4) true).map
    (fun r => (r.2.length, r.1.pz 0, r.1.pz 1, r.1.par 5)) = some (6, some 21, some 21, some 7) := by decide

/-! ### What fails without the assumptions -/

/-- The claim for one plan. -/
def Continues (plan : Plan Nat Nat) : Prop :=
  ∀ s written, runPlan plan [] false = some (s, written) → ∀ k,
    ∃ s', runPlan plan (written.take k) true = some (s', written.drop k) ∧ s'.pz = s.pz ∧ s'.par = s.par

/-- The value of parametrization 0 after a kill at `k` and a restart. -/
theorem Continues.value {plan : Plan Nat Nat} (h : Continues plan) (k : Nat) :
    (runPlan plan ((((runPlan plan [] false).map (·.2)).getD []).take k) true).map (fun r => r.1.pz 0) =
      (runPlan plan [] false).map (fun r => r.1.pz 0) := by
  cases hr : runPlan plan [] false with
  | none => simp [runPlan] at hr
  | some x =>
    obtain ⟨s, written⟩ := x
    obtain ⟨s', h1, h2, _⟩ := h s written hr k
    simp only [Option.map_some, Option.getD_some]
    rw [h1]
    simp only [Option.map_some, h2]

/-- A plan of one optimization. -/
def single (uses : List Nat) (sets : List (Nat × ((Nat → Nat) → (Nat → Nat) → Nat))) (o : Optimizer Nat Nat) : Plan Nat Nat where
  initPz := fun _ => 0
  initPar := fun _ => 1
  transformations := [⟨1, 0, uses, sets, .optimize o⟩]

theorem single_names (uses : List Nat) (sets : List (Nat × ((Nat → Nat) → (Nat → Nat) → Nat))) (o : Optimizer Nat Nat)
    (h : ∀ p ∈ uses, p ∈ sets.map (·.1)) : WellNamed (single uses sets o) := by
  refine ⟨by simp [single], ?_⟩
  intro l t r hl p hp
  rcases l with _ | ⟨a, l⟩
  · simp only [single, List.nil_append, List.cons.injEq] at hl
    rw [← hl.1] at hp ⊢
    simpa using h p hp
  · simp [single] at hl

/-- **C39, violated (F27).** A transformation with a `parameter_list` that is resumed in the middle runs with the old values of the
parameters: `_set_parameters` is skipped, and the values in the log are not restored. Here parameter 5 is set to 7, and 1 again
after the restart. -/
theorem resume_parameters_false : ¬ ∀ plan : Plan Nat Nat, WellNamed plan →
    (∀ t ∈ plan.transformations, ∀ o, t.action = .optimize o → Memoryless o) → Continues plan := by
  intro h
  have := (h (single [5] [(5, fun _ _ => 7)] adder) (single_names _ _ _ (by simp)) (by
    intro t ht o ho
    simp only [single, List.mem_singleton] at ht
    subst ht
    cases ho
    exact adder_memoryless)).value 2
  revert this
  decide

/-- **C39, violated.** An optimizer with a state of its own (L-BFGS, momentum) starts anew after a restart. Here the step grows by one
each time. -/
theorem resume_stateful_false : ¬ ∀ plan : Plan Nat Nat, WellNamed plan →
    (∀ t ∈ plan.transformations, ∀ o, t.action = .optimize o → t.sets = [] ∧ (∀ n, o.bound n = n) ∧ o.maxiter.isSome) →
    Continues plan := by
  intro h
  have := (h (single [] [] { adder with step := fun _ m v => some (m + 1, v + m) }) (single_names _ _ _ (by simp)) (by
    intro t ht o ho
    simp only [single, List.mem_singleton] at ht
    subst ht
    cases ho
    exact ⟨rfl, fun _ => rfl, rfl⟩)).value 3
  revert this
  decide

/-- **C39, violated.** If the library makes at least one step whatever `maxiter` is (as scipy's L-BFGS-B does), a restart after the last
logged step makes one step too many. -/
theorem resume_extra_step_false : ¬ ∀ plan : Plan Nat Nat, WellNamed plan →
    (∀ t ∈ plan.transformations, ∀ o, t.action = .optimize o → t.sets = [] ∧ o.maxiter.isSome ∧
      ∀ e m v, (o.step e m v).map (·.2) = (o.step e (o.setup e v) v).map (·.2)) → Continues plan := by
  intro h
  have := (h (single [] [] { adder with bound := fun n => max n 1, step := fun _ _ v => some (0, v + 1) })
    (single_names _ _ _ (by simp)) (by
    intro t ht o ho
    simp only [single, List.mem_singleton] at ht
    subst ht
    cases ho
    exact ⟨rfl, rfl, fun _ _ _ => rfl⟩)).value 4
  revert this
  decide

/-- **C39, violated.** Without `maxiter` the library's default limit counts from the restart again. -/
theorem resume_default_limit_false : ¬ ∀ plan : Plan Nat Nat, WellNamed plan →
    (∀ t ∈ plan.transformations, ∀ o, t.action = .optimize o → t.sets = [] ∧ (∀ n, o.bound n = n) ∧
      ∀ e m v, (o.step e m v).map (·.2) = (o.step e (o.setup e v) v).map (·.2)) → Continues plan := by
  intro h
  have := (h (single [] [] { adder with maxiter := none, default := 2, step := fun _ _ v => some (0, v + 1) })
    (single_names _ _ _ (by simp)) (by
    intro t ht o ho
    simp only [single, List.mem_singleton] at ht
    subst ht
    cases ho
    exact ⟨rfl, fun _ => rfl, fun _ _ _ => rfl⟩)).value 2
  revert this
  decide

/-- **C39, violated.** A parameter that is used but not set by the finished transformations is in the checkpoint, but not in the
workspace when it is restored: `resume` fails with a `KeyError`, here between two transformations. -/
theorem resume_unset_parameter_false : ¬ ∀ plan : Plan Nat Nat, (plan.transformations.map (·.name)).Nodup →
    (∀ t ∈ plan.transformations, ∀ o, t.action = .optimize o → t.sets = [] ∧ Memoryless o) → Continues plan := by
  intro h
  have := (h ⟨fun _ => 0, fun _ => 1, [⟨1, 0, [5], [], .optimize adder⟩, ⟨2, 0, [5], [], .optimize adder⟩]⟩ (by decide) (by
    intro t ht o ho
    simp only [List.mem_cons, List.not_mem_nil, or_false] at ht
    rcases ht with rfl | rfl <;> (cases ho; exact ⟨rfl, adder_memoryless⟩))).value 6
  revert this
  decide

/-- **C39, violated.** Of two transformations with the same name the second is taken to be finished when the first is. -/
theorem resume_same_name_false : ¬ ∀ plan : Plan Nat Nat,
    (∀ t ∈ plan.transformations, t.uses = [] ∧ ∀ o, t.action = .optimize o → t.sets = [] ∧ Memoryless o) → Continues plan := by
  intro h
  have hm : Memoryless { adder with step := fun _ _ v => some (0, v + 1) } := ⟨fun _ _ _ => rfl, fun _ => rfl, rfl⟩
  have := (h ⟨fun _ => 0, fun _ => 1, [⟨1, 0, [], [], .optimize { adder with step := fun _ _ v => some (0, v + 1) }⟩,
    ⟨1, 0, [], [], .optimize { adder with step := fun _ _ v => some (0, v + 1) }⟩]⟩ (by
    intro t ht
    simp only [List.mem_cons, List.not_mem_nil, or_false] at ht
    rcases ht with rfl | rfl <;> exact ⟨rfl, fun o ho => by cases ho; exact ⟨rfl, hm⟩⟩)).value 6
  revert this
  decide

/-- **C39, violated.** A run without `resume` leaves the files of an earlier run in the folder, and a restart after a kill takes them
for its own: here the folder has the files of the same plan with another starting value, and the plan is taken to be finished. -/
theorem resume_old_files_false : ¬ ∀ (plan : Plan Nat Nat), Resumable plan → ∀ (old : List (File Nat)) s written,
    runPlan plan old false = some (s, written) → ∀ k s' more, runPlan plan (old ++ written.take k) true = some (s', more) →
      s'.pz = s.pz := by
  intro h
  have h1 := h samplePlan samplePlan_resumable (((runPlan { samplePlan with initPz := fun _ => 100 } [] false).map (·.2)).getD [])
    _ _ rfl 0 _ _ rfl
  have := congrFun h1 0
  revert this
  decide

/-- **C10, violated for runs without `resume`**: they number their logs from 1, so overwrite those of an earlier run in the folder. -/
theorem fresh_run_overwrites_false : ¬ ∀ (plan : Plan Nat Nat), Resumable plan → ∀ (files : List (File Nat)) s written,
    runPlan plan files false = some (s, written) → ∀ old ∈ logs files, ∀ new ∈ logs written, old.1 < new.1 := by
  intro h
  have h1 := h samplePlan samplePlan_resumable [.log 1 1 .start 0 fun _ => none] _ _ rfl (1, 1, .start, 0) (by decide)
    (1, 1, .start, 0) (by decide)
  simp at h1

end Verif.Work
