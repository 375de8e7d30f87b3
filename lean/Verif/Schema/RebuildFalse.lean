import Verif.Schema.RebuildSave
/-
C101: a small library of node classes, a plan that is saved and loaded, and plans that are not made
again as they were.
-/
set_option linter.unusedVariables false
set_option linter.unusedSectionVars false
set_option linter.unusedSimpArgs false
namespace Verif.Schema.Rebuild

/-- A plain argument. -/
def plainOf (pl : Plain Nat) (k : Str) : Option Nat :=
  (pl.find? (fun e => decide (e.1 = k))).bind Prod.snd

/-- All nodes among the arguments. -/
def allIds (args : List (Str × Arg Nat)) : List Nat := args.flatMap fun e => match e.2 with
  | .val _ => []
  | .node y => [y]
  | .nodes ys => ys
  | .tuple ys => ys

/-- Constants (`goos.constant`): one plain argument. -/
def constCls : Cls Nat := ⟨[⟨['v'], none⟩], fun _ => [], fun _ => [], fun _ => true⟩

/-- Shapes (`goos.shape.cuboid`): position, and a rotation; without rotation (0) the constructor makes
the constant 7. -/
def shapeCls : Cls Nat :=
  ⟨[⟨['p'], none⟩, ⟨['r'], some 0⟩],
    fun pl => if plainOf pl ['r'] = some 0 then [(['c'], [(['v'], 7)])] else [], allIds, fun _ => true⟩

/-- Casts (`goos.cast`): the target 1 stands for `goos.cast` itself, any other for a class. -/
def castCls : Cls Nat :=
  ⟨[⟨['n'], none⟩, ⟨['t'], none⟩], fun _ => [], allIds, fun pl => decide (plainOf pl ['t'] ≠ some 1)⟩

/-- Sums (`goos.sum`) of a list of nodes. -/
def sumCls : Cls Nat := ⟨[⟨['o'], none⟩], fun _ => [], allIds, fun _ => true⟩

/-- The classes. -/
def exLib : Lib Nat := fun t =>
  if t = ['c'] then some constCls
  else if t = ['s'] then some shapeCls
  else if t = ['k'] then some castCls
  else if t = ['u'] then some sumCls
  else none

theorem exLib_cases (t : Str) (c : Cls Nat) (h : exLib t = some c) :
    c = constCls ∨ c = shapeCls ∨ c = castCls ∨ c = sumCls := by
  unfold exLib at h
  split at h
  · exact Or.inl (Option.some.inj h).symm
  · split at h
    · exact Or.inr (Or.inl (Option.some.inj h).symm)
    · split at h
      · exact Or.inr (Or.inr (Or.inl (Option.some.inj h).symm))
      · split at h
        · exact Or.inr (Or.inr (Or.inr (Option.some.inj h).symm))
        · cases h

theorem exLib_sound : Sound exLib := by
  refine ⟨?_, ?_, ?_⟩
  · intro t c h
    rcases exLib_cases t c h with rfl | rfl | rfl | rfl <;> decide
  · intro t c h args x hx
    have hall : x ∈ allIds args := by
      rcases exLib_cases t c h with rfl | rfl | rfl | rfl
      · cases hx
      · exact hx
      · exact hx
      · exact hx
    obtain ⟨e, he, hxe⟩ := List.mem_flatMap.1 hall
    refine ⟨e, he, ?_⟩
    revert hxe
    cases e.2 <;> exact id
  · intro t c h pl a ha
    rcases exLib_cases t c h with rfl | rfl | rfl | rfl
    · cases ha
    · have : a = (['c'], [(['v'], 7)]) := by
        simp only [shapeCls] at ha
        split at ha
        · simpa using ha
        · cases ha
      rw [this]
      exact ⟨constCls, if_pos rfl, by decide, by decide, by decide⟩
    · cases ha
    · cases ha

/-- The hypotheses of `call_records` and `call_again` are met: a default is filled in. -/
example : callArgs shapeCls.params [.node 3] [] = some [(['p'], .node 3), (['r'], .val 0)] ∧
    callArgs shapeCls.params [] [(['r'], .val 2), (['p'], .node 3)] =
      some [(['p'], .node 3), (['r'], .val 2)] ∧
    callArgs shapeCls.params [.node 3] [(['p'], .node 3)] = none := by decide

/-- No counter. -/
def noCounters : Counters := fun _ => none

/-- The empty plan in a new process. -/
def empty : St Nat := ⟨[], [], noCounters, [], fun _ => []⟩

/-- Calls one after the other. -/
def runOps (lib : Lib Nat) : List (Op Nat) → St Nat → Option (St Nat)
  | [], st => some st
  | op :: ops, st => (runOp lib st op).bind (runOps lib ops)

/-- The conditions on a call that `History` asks for, as a test. -/
def okOp (st : St Nat) (op : Op Nat) : Bool :=
  (op.pos ++ op.kw.map Prod.snd).all (fun a => match a with
    | .val _ => true
    | .node x => decide (x < st.objs.length)
    | .nodes xs => xs.all fun x => decide (x < st.objs.length)
    | .tuple _ => false) &&
  match op.name with
  | none => true
  | some n => decide (n ≠ []) && decide ('.' ∉ n) && st.objs.all fun o => decide (o.name ≠ n)

def okOps (lib : Lib Nat) : List (Op Nat) → St Nat → Bool
  | [], _ => true
  | op :: ops, st => okOp st op && match runOp lib st op with
    | none => false
    | some st' => okOps lib ops st'

theorem history_of (lib : Lib Nat) (ops : List (Op Nat)) (st st' : St Nat) (c0 : Counters)
    (h : History lib c0 st) (hok : okOps lib ops st = true) (hrun : runOps lib ops st = some st') :
    History lib c0 st' := by
  induction ops generalizing st with
  | nil => cases Option.some.inj hrun; exact h
  | cons op ops ih =>
    unfold runOps at hrun
    obtain ⟨s1, h1, h2⟩ := Option.bind_eq_some_iff.1 hrun
    unfold okOps at hok
    rw [h1, Bool.and_eq_true] at hok
    refine ih s1 (History.step st s1 op h h1 ?_ ?_) hok.2 h2
    · intro a ha
      have hk := hok.1
      unfold okOp at hk
      rw [Bool.and_eq_true, List.all_eq_true] at hk
      have hka := hk.1 a (by
        rcases ha with ha | ⟨k, ha⟩
        · exact List.mem_append_left _ ha
        · exact List.mem_append_right _ (List.mem_map.2 ⟨_, ha, rfl⟩))
      refine ⟨?_, ?_, ?_⟩
      · rintro x rfl; simpa using hka
      · rintro xs rfl x hx
        simp only [List.all_eq_true, decide_eq_true_eq] at hka
        exact hka x hx
      · rintro xs rfl; simp at hka
    · intro n hn
      have hk := hok.1
      unfold okOp at hk
      rw [Bool.and_eq_true, hn] at hk
      simpa [and_assoc] using hk.2

/-- Two constants, a shape without rotation between them. -/
def plan1 : List (Op Nat) :=
  [⟨['c'], none, [.val 1], []⟩, ⟨['s'], none, [.node 0], []⟩, ⟨['c'], none, [], [(['v'], .val 2)]⟩]

/-- The file of this plan. -/
def file1 : List (SNode Nat) :=
  [⟨['c'], ['c', '.', '0'], [(['v'], .val 1)]⟩,
   ⟨['c'], ['c', '.', '1'], [(['v'], .val 7)]⟩,
   ⟨['s'], ['s', '.', '0'], [(['p'], .ref ['c', '.', '0']), (['r'], .val 0)]⟩,
   ⟨['c'], ['c', '.', '2'], [(['v'], .val 2)]⟩]

theorem file1_saved : (runOps exLib plan1 empty).bind save = some file1 := by decide +kernel

theorem plan1_history : ∃ st, runOps exLib plan1 empty = some st ∧ History exLib noCounters st := by
  have h : (runOps exLib plan1 empty).isSome = true := by decide +kernel
  obtain ⟨st, hst⟩ := Option.isSome_iff_exists.1 h
  exact ⟨st, hst, history_of exLib plan1 empty st noCounters (History.start _) (by decide +kernel) hst⟩

/-- The hypotheses of `save_load` are met. -/
example : ∃ file st st', History exLib noCounters st ∧ save st = some file ∧ file.length = 4 ∧
    load exLib true (fun _ => none) 3 file = some st' ∧ SameNodes st st' := by
  obtain ⟨st, hst, hh⟩ := plan1_history
  obtain ⟨file, st', h1, h2, h3⟩ := save_load exLib exLib_sound noCounters st hh (by
    have hall : ∀ o ∈ ((runOps exLib plan1 empty).getD empty).objs, o.type ≠ ['k'] := by
      decide +kernel
    rw [hst] at hall
    intro o ho c hc
    have hk := hall o ho
    unfold exLib at hc
    rw [if_neg hk] at hc
    split at hc
    · cases Option.some.inj hc; rfl
    · split at hc
      · cases Option.some.inj hc; rfl
      · split at hc
        · cases Option.some.inj hc; rfl
        · cases hc) true 3 (Nat.le_refl _)
  have hf : some file = some file1 := by
    have := file1_saved
    rw [hst, Option.bind_some, h1] at this
    exact this
  cases Option.some.inj hf
  exact ⟨file1, st, st', hh, h1, rfl, h2, h3⟩

/-- C101 (names): in a process in which two constants have been made before, loading this plan while it
is the current one does not give the plan back: the constant 7 that the constructor of the shape
makes takes the name of the user's last constant, and stands in its place. -/
theorem load_names_false : ∃ (st : St Nat) (file : List (SNode Nat)) (counters : Counters) (st' : St Nat),
    History exLib noCounters st ∧ save st = some file ∧
      load exLib true counters 3 file = some st' ∧ ¬ SameNodes st st' ∧ ¬ Rebuilt file st' := by
  obtain ⟨st, hst, hh⟩ := plan1_history
  have hs : save st = some file1 := by
    have := file1_saved
    rwa [hst] at this
  have hl : ((load exLib true (fun t => if t = ['c'] then some 2 else none) 3 file1).map
      (fun s => (get s.map ['c', '.', '2']).bind fun x => (s.objs[x]?).map Obj.args)) =
        some (some [(['v'], .val 7)]) := by decide +kernel
  obtain ⟨st', hst', hval⟩ := Option.map_eq_some_iff.1 hl
  refine ⟨st, file1, _, st', hh, hs, hst', ?_, ?_⟩
  · intro hsame
    have ho : (((runOps exLib plan1 empty).getD empty).objs[3]?) =
        some ⟨['c'], ['c', '.', '2'], [(['v'], .val 2)], []⟩ := by decide +kernel
    rw [hst] at ho
    obtain ⟨x', o', h1, h2, -, -, h5⟩ := hsame 3 _ ho
    rw [h1] at hval
    change (st'.objs[x']?).map Obj.args = _ at hval
    rw [h2] at hval
    have := Option.some.inj hval
    rw [this] at h5
    cases h5 with
    | cons h6 _ => have h7 : (7 : Nat) = 2 := h6.2; omega
  · intro hre
    obtain ⟨x', o', h1, h2, h3⟩ := hre ⟨['c'], ['c', '.', '2'], [(['v'], .val 2)]⟩ (by decide)
    rw [h1] at hval
    change (st'.objs[x']?).map Obj.args = _ at hval
    rw [h2] at hval
    have := Option.some.inj hval
    have h5 := h3.args
    rw [this] at h5
    cases h5 with
    | cons h6 _ => have h7 : (7 : Nat) = 2 := h6.2; omega

/-- A sum of two casts of the same constant, the sum first: the order in which `add_node` adds a node
that was made while no plan, or another plan, was the current one (482-508). -/
def file2 : List (SNode Nat) :=
  [⟨['u'], ['t'], [(['o'], .refs [['a'], ['b']])]⟩,
   ⟨['k'], ['a'], [(['n'], .ref ['x']), (['t'], .val 0)]⟩,
   ⟨['k'], ['b'], [(['n'], .ref ['x']), (['t'], .val 0)]⟩,
   ⟨['c'], ['x'], [(['v'], .val 5)]⟩]

/-- The arguments of the node with a name. -/
def argsAt (s : St Nat) (n : Str) : Option (List (Str × Arg Nat)) :=
  (get s.map n).bind fun x => (s.objs[x]?).map Obj.args

/-- C101 (sharing): into a plan that is not the current one, a file in which a node comes before the
nodes it uses is loaded without an error, but the node that is used twice is made again for each use:
the nodes are no longer connected to the one node of that name. In the current plan they are. -/
theorem load_default_false :
    (∃ st', load exLib false noCounters 9 file2 = some st' ∧
      argsAt st' ['a'] = some [(['n'], .node 0), (['t'], .val 0)] ∧
      argsAt st' ['b'] = some [(['n'], .node 1), (['t'], .val 0)] ∧ ¬ Rebuilt file2 st') ∧
    ∃ st', load exLib true noCounters 9 file2 = some st' ∧
      argsAt st' ['a'] = some [(['n'], .node 0), (['t'], .val 0)] ∧
      argsAt st' ['b'] = some [(['n'], .node 0), (['t'], .val 0)] := by
  have h0 : ∀ d, (load exLib d noCounters 9 file2).isSome = true := by decide +kernel
  have h1 : ∀ d, ((load exLib d noCounters 9 file2).bind fun s => argsAt s ['a']) =
      some [(['n'], .node 0), (['t'], .val 0)] := by decide +kernel
  have h2 : ((load exLib false noCounters 9 file2).bind fun s => argsAt s ['b']) =
      some [(['n'], .node 1), (['t'], .val 0)] := by decide +kernel
  have h3 : ((load exLib true noCounters 9 file2).bind fun s => argsAt s ['b']) =
      some [(['n'], .node 0), (['t'], .val 0)] := by decide +kernel
  constructor
  · obtain ⟨st', hst'⟩ := Option.isSome_iff_exists.1 (h0 false)
    have h1' := h1 false
    rw [hst', Option.bind_some] at h1' h2
    refine ⟨st', hst', h1', h2, fun hre => ?_⟩
    have key : ∀ n : Str, ∀ y : Nat,
        (⟨['k'], n, [(['n'], .ref ['x']), (['t'], .val 0)]⟩ : SNode Nat) ∈ file2 →
        argsAt st' n = some [(['n'], .node y), (['t'], .val 0)] → get st'.map ['x'] = some y := by
      intro n y hm hy
      obtain ⟨x', o', q1, q2, q3⟩ := hre _ hm
      unfold argsAt at hy
      rw [q1, Option.bind_some, q2] at hy
      have h5 := q3.args
      rw [Option.some.inj hy] at h5
      cases h5 with
      | cons h6 _ => exact h6.2
    have ha := key ['a'] 0 (by decide) h1'
    have hb := key ['b'] 1 (by decide) h2
    rw [ha] at hb
    cases hb
  · obtain ⟨st', hst'⟩ := Option.isSome_iff_exists.1 (h0 true)
    have h1' := h1 true
    rw [hst', Option.bind_some] at h1' h3
    exact ⟨st', hst', h1', h3⟩

/-- A constant that is renamed twice: the second cast has the target type `goos.cast`. -/
def plan3 : List (Op Nat) :=
  [⟨['c'], none, [.val 1], []⟩, ⟨['k'], some ['a'], [.node 0, .val 0], []⟩,
   ⟨['k'], some ['b'], [.node 1, .val 1], []⟩]

/-- C101 (renaming twice): a plan in which a node has been renamed twice can be made and saved, but it
cannot be loaded. -/
theorem rename_twice_false : ∃ st file, runOps exLib plan3 empty = some st ∧
    History exLib noCounters st ∧ save st = some file ∧
    ∀ isDef, load exLib isDef (fun _ => none) 9 file = none := by
  have h : (runOps exLib plan3 empty).isSome = true := by decide +kernel
  obtain ⟨st, hst⟩ := Option.isSome_iff_exists.1 h
  have hs : ((runOps exLib plan3 empty).bind save).isSome = true := by decide +kernel
  have hl : ∀ isDef, (((runOps exLib plan3 empty).bind save).map fun f =>
      (load exLib isDef (fun _ => none) 9 f).isSome) = some false := by decide +kernel
  rw [hst, Option.bind_some] at hs
  obtain ⟨file, hf⟩ := Option.isSome_iff_exists.1 hs
  refine ⟨st, file, hst, history_of exLib plan3 empty st noCounters (History.start _)
    (by decide +kernel) hst, hf, fun isDef => ?_⟩
  have := hl isDef
  rw [hst, Option.bind_some, hf] at this
  simpa using this

/-- C101 (tuples): a sum of a tuple of nodes can be made, but the plan cannot be saved. -/
theorem tuple_args_false : ∃ st, runOps exLib
    [⟨['c'], none, [.val 1], []⟩, ⟨['c'], none, [.val 2], []⟩, ⟨['u'], none, [.tuple [0, 1]], []⟩] empty =
      some st ∧ st.objs.length = 3 ∧ save st = none := by
  have h : ((runOps exLib
    [⟨['c'], none, [.val 1], []⟩, ⟨['c'], none, [.val 2], []⟩, ⟨['u'], none, [.tuple [0, 1]], []⟩]
      empty).map fun s => (s.objs.length, (save s).isSome)) = some (3, false) := by decide +kernel
  obtain ⟨st, h1, h2⟩ := Option.map_eq_some_iff.1 h
  refine ⟨st, h1, congrArg Prod.fst h2, ?_⟩
  have := congrArg Prod.snd h2
  simpa using this

end Verif.Schema.Rebuild
