import Verif.Flow.Cast
import Mathlib.Tactic.Tauto
import Mathlib.Tactic.ByContra
/-
C79: `goos.rename` and `goos.cast` do not change what a node computes. C07 for array flows and
shapes.
-/
namespace Verif.Flow
variable {φ V : Type}

/-! ### Flags -/

theorem all_setFalse (fs : List String) (b : Bool) (h : fs ≠ []) :
    ((fs.map fun f => (f, false)).map fun p : String × Bool => (p.1, b)).all Prod.snd = b := by
  cases fs with
  | nil => exact absurd rfl h
  | cons f fs =>
    cases b
    · simp
    · simp

/-- The default rule for a record of flags: the flags are set exactly when all inputs' flags are. -/
theorem record_flags_default (c : Nat) (hc : varying goosEnv c ≠ []) (ins : List Flags) :
    ∃ fl, evalFlags none (.cls c) ins = .ok fl ∧
      (fl.truthy = true ↔ ∀ i ∈ ins, i.truthy = true) := by
  refine ⟨_, rfl, ?_⟩
  show ((((varying goosEnv c).map fun f => (f, false)).map
    fun p : String × Bool => (p.1, ins.all Flags.truthy)).all Prod.snd) = true ↔ _
  rw [all_setFalse _ _ hc, List.all_eq_true]

/-- Non-vacuity: all flow classes of the library except `Flow` itself have varying fields. -/
example : ∀ c ∈ [1, 2, 3, 4, 5, 6], varying goosEnv c ≠ [] := by decide +kernel

/-- C07 fails for array flows: a node without its own flag rule whose output is an array flow (every
simulation) is flagged as constant and as frozen, whatever its inputs are. -/
theorem array_flags_false (lib : Lib φ V) (frozen : Bool) (p : PlanVars V) (f : φ)
    (ins : List (Node φ V)) (v : V) (fl : Flags) (hk : lib.kind f = .plain)
    (h : evalNode lib frozen p (.op f ins) = .ok (v, fl)) (ht : lib.flowType v = .array) :
    fl.truthy = true := by
  unfold evalNode at h
  split at h
  · cases h
  · split at h
    · cases h
    · rename_i w hw
      rw [hk] at h
      simp only [ownFlags, evalFlags] at h
      cases h
      rw [ht]
      rfl

/-- And so is everything computed from such an array flow alone: an output of a simulation is always
flagged as constant and frozen. -/
theorem array_flags_spread_false (lib : Lib φ V) (frozen : Bool) (p : PlanVars V) (f g : φ)
    (ins : List (Node φ V)) (v w : V) (fl fl' : Flags) (hf : lib.kind f = .plain)
    (hg : lib.kind g = .plain) (h : evalNode lib frozen p (.op f ins) = .ok (v, fl))
    (ht : lib.flowType v = .array)
    (h' : evalNode lib frozen p (.op g [.op f ins]) = .ok (w, fl')) : fl'.truthy = true := by
  have h1 := array_flags_false lib frozen p f ins v fl hf h ht
  unfold evalNode at h'
  simp only [evalNodes, h, Except.map, List.map_cons, List.map_nil] at h'
  split at h'
  · cases h'
  · rename_i u hu
    rw [hg] at h'
    simp only [ownFlags, evalFlags, List.all_cons, h1, List.all_nil, Bool.and_self] at h'
    cases h'
    cases lib.flowType w with
    | array => rfl
    | cls c =>
      simp only [newFlags, Flags.setAll, Flags.truthy]
      by_cases hc : varying goosEnv c = []
      · rw [hc]; rfl
      · exact all_setFalse _ _ hc

/-- Values for the example: a number or an array of numbers. -/
inductive DemoVal where
  | num (x : Int)
  | arr (xs : List Int)

/-- A simulation with two outputs and the selection of the first. -/
def demoLib : Lib Bool DemoVal where
  kind _ := .plain
  sem f vs :=
    match f, vs with
    | true, [.num x] => .ok (.arr [x * x, x + 1])
    | false, [.arr (x :: _)] => .ok (.num x)
    | _, _ => .error .typeError
  flowType v :=
    match v with
    | .num _ => .cls 1
    | .arr _ => .array

/-- Non-vacuity: the first output of a simulation of an unfrozen variable is `x * x`, so it changes
with the variable, yet it is flagged as constant and as frozen. -/
example (x : Int) : ∃ fl fl', evalNode demoLib false [("x", .num x, false)]
      (.op false [.op true [.var "x" (.num 0)]]) = .ok (.num (x * x), fl) ∧ fl.truthy = true ∧
    evalNode demoLib true [("x", .num x, false)]
      (.op false [.op true [.var "x" (.num 0)]]) = .ok (.num (x * x), fl') ∧
      fl'.truthy = true := ⟨_, _, rfl, rfl, rfl, rfl⟩

theorem flagArgs_length {ins : List Flags} : ∀ {l : List (String × Nat)}
    {r : List (String × Bool)}, flagArgs ins l = .ok r → r.map Prod.fst = l.map Prod.fst
  | [], r, h => by cases h; rfl
  | (f, i) :: l, r, h => by
    unfold flagArgs at h
    split at h
    · cases h
    · cases hr : flagArgs ins l with
      | error e => rw [hr] at h; cases h
      | ok r' =>
        rw [hr] at h
        cases h
        simp [flagArgs_length hr]

/-- Cylinders, spheres and pixelated shapes are never flagged as constant or frozen, not even when
all their inputs are constants: `num_points` and the extents keep the default `False`. -/
theorem shape_never_flagged (k : Kind) (hk : k = .cylinder ∨ k = .sphere ∨ k = .pixelated)
    (ins : List Flags) (t : FlowType) (fl : Flags)
    (h : evalFlags (ownFlags k) t ins = .ok fl) : fl.truthy = false := by
  have key : ∀ (c : Nat) (args : List (String × Bool)) (f : String), f ∈ varying goosEnv c →
      f ∉ args.map Prod.fst → (recordFlags c args).truthy = false := by
    intro c args f hf hn
    unfold recordFlags Flags.truthy
    rw [Bool.eq_false_iff]
    intro hall
    rw [List.all_eq_true] at hall
    have := hall _ (List.mem_map.2 ⟨f, hf, rfl⟩)
    have hnone : args.find? (fun p => p.1 = f) = none := by
      rw [List.find?_eq_none]
      intro x hx
      simp only [decide_eq_true_eq]
      rintro rfl
      exact hn (List.mem_map.2 ⟨x, hx, rfl⟩)
    simp [hnone] at this
  rcases hk with rfl | rfl | rfl <;> simp only [ownFlags, evalFlags] at h
  · cases hr : flagArgs ins [("pos", 0), ("radius", 1), ("height", 2), ("rot", 3)] with
    | error e => rw [hr] at h; cases h
    | ok r =>
      rw [hr] at h
      cases h
      exact key 4 r "num_points" (by decide +kernel) (by rw [flagArgs_length hr]; decide)
  · cases hr : flagArgs ins [("pos", 0), ("radius", 1), ("rot", 2)] with
    | error e => rw [hr] at h; cases h
    | ok r =>
      rw [hr] at h
      cases h
      exact key 5 r "num_points" (by decide +kernel) (by rw [flagArgs_length hr]; decide)
  · cases hr : flagArgs ins [("pos", 0), ("rot", 1), ("array", 2)] with
    | error e => rw [hr] at h; cases h
    | ok r =>
      rw [hr] at h
      cases h
      exact key 6 r "extents" (by decide +kernel) (by rw [flagArgs_length hr]; decide)

/-- Non-vacuity: a sphere with three constant inputs. -/
example : ∃ fl, evalFlags (ownFlags .sphere) (.cls 5)
    (List.replicate 3 (.record [("array", true)])) = .ok fl ∧ fl.truthy = false :=
  ⟨_, rfl, by decide +kernel⟩

/-- A cuboid is flagged exactly when its three inputs are. -/
theorem cuboid_flagged (a b c : Bool) (t : FlowType) :
    ∃ fl, evalFlags (ownFlags .cuboid) t [.record [("array", a)], .record [("array", b)],
      .record [("array", c)]] = .ok fl ∧ fl.truthy = (a && b && c) := by
  have hv : varying goosEnv 3 = ["pos", "rot", "extents"] := by decide +kernel
  refine ⟨_, rfl, ?_⟩
  unfold recordFlags
  rw [hv]
  cases a <;> cases b <;> cases c <;> rfl

/-! ### C79: casts to shape classes -/

/-- The four shape classes whose flag rule reads several inputs. -/
def isShape (k : Kind) : Prop := k = .cuboid ∨ k = .cylinder ∨ k = .sphere ∨ k = .pixelated

theorem shapeRule_one {k : Kind} (hk : isShape k) (fl : Flags) (m : List Flags → Except Err Flags)
    (hm : ownFlags k = some m) : ∃ e, m [fl] = .error e := by
  have key : ∀ (f g : String) (rest : List (String × Nat)) (c : Nat),
      ∃ e, (flagArgs [fl] ((f, 0) :: (g, 1) :: rest)).map (recordFlags c) = .error e := by
    intro f g rest c
    unfold flagArgs
    cases hi : inputArray [fl] 0 with
    | error e => exact ⟨e, rfl⟩
    | ok b =>
      refine ⟨.indexError, ?_⟩
      simp only [flagArgs, inputArray, List.getElem?_cons_succ, List.getElem?_nil]
      rfl
  rcases hk with rfl | rfl | rfl | rfl <;> cases hm
  · exact key _ _ _ _
  · exact key _ _ _ _
  · exact key _ _ _ _
  · exact key _ _ _ _

/-- C79 fails for shapes: evaluating a cast to `Cuboid`, `Cylinder`, `Sphere` or
`PixelatedContShape` raises, whatever the underlying node. So a renamed shape, and an indexed entry
of a group of shapes (`group[i]` is a cast to the shape's class), cannot be evaluated. -/
theorem cast_shape_false (lib : Lib φ V) (frozen : Bool) (p : PlanVars V) (name : String)
    (k : Kind) (hk : isShape k) (inner : Node φ V) :
    ∃ e, evalNode lib frozen p (.cast name k inner) = .error e := by
  unfold evalNode
  split
  · exact ⟨_, rfl⟩
  · rename_i v fl hv
    have hkv : k ≠ .var := by rintro rfl; rcases hk with h | h | h | h <;> cases h
    rw [if_neg hkv]
    obtain ⟨m, hm⟩ : ∃ m, ownFlags k = some m := by
      rcases hk with rfl | rfl | rfl | rfl <;> exact ⟨_, rfl⟩
    obtain ⟨e, he⟩ := shapeRule_one hk fl m hm
    refine ⟨e, ?_⟩
    unfold flagMethod
    rw [hm]
    simp only [evalFlags, he]

/-- Renamed shapes cannot be evaluated. -/
theorem rename_shape_false (lib : Lib φ V) (frozen : Bool) (p : PlanVars V) (n : Node φ V)
    (hn : isShape (kindOf lib n)) (name : String) :
    ∃ e, evalNode lib frozen p (rename lib n name) = .error e :=
  cast_shape_false lib frozen p name _ hn n

/-- A library with one cuboid operation, for the example. -/
def cuboidLib : Lib Unit Int where
  kind _ := .cuboid
  sem _ vs := .ok (vs.sum)
  flowType v := if v = 0 then .cls 3 else .cls 1

/-- Non-vacuity: a cuboid that can be evaluated, and its renamed version, which cannot. -/
example : (∃ r, evalNode cuboidLib false [("x", 0, false)]
      (.op () [.var "x" 0, .var "x" 0, .var "x" 0]) = .ok r) ∧
    isShape (kindOf cuboidLib (.op () [.var "x" 0, .var "x" 0, .var "x" 0])) ∧
    evalNode cuboidLib false [("x", 0, false)]
      (rename cuboidLib (.op () [.var "x" 0, .var "x" 0, .var "x" 0]) "y") =
      .error .attributeError := by
  refine ⟨⟨_, rfl⟩, Or.inl rfl, ?_⟩
  have hv : varying goosEnv 3 = ["pos", "rot", "extents"] := by decide +kernel
  have h1 : evalNode cuboidLib false [("x", 0, false)]
      (.op () [.var "x" 0, .var "x" 0, .var "x" 0]) =
      .ok (0, .record [("pos", false), ("rot", false), ("extents", false)]) := by
    have : evalNode cuboidLib false [("x", 0, false)]
      (.op () [.var "x" 0, .var "x" 0, .var "x" 0]) =
      .ok (0, recordFlags 3 [("extents", false), ("pos", false), ("rot", false)]) := rfl
    rw [this]
    unfold recordFlags
    rw [hv]
    rfl
  unfold rename evalNode
  rw [h1]
  rfl

/-! ### C79: what holds -/

theorem flagMethod_own (lib : Lib φ V) : ∀ n : Node φ V,
    flagMethod lib n = none ∨ ∃ k, flagMethod lib n = ownFlags k
  | .var _ _ => Or.inl rfl
  | .op f _ => Or.inr ⟨lib.kind f, rfl⟩
  | .cast _ k inner => by
    unfold flagMethod
    cases h : ownFlags k with
    | some m => exact Or.inr ⟨k, h.symm⟩
    | none => exact flagMethod_own lib inner

theorem setAll_again (t : FlowType) (b : Bool) :
    (newFlags t).setAll ((newFlags t).setAll b).truthy = (newFlags t).setAll b := by
  cases t with
  | array => rfl
  | cls c =>
    simp only [newFlags, Flags.setAll, Flags.truthy]
    by_cases hc : varying goosEnv c = []
    · rw [hc]; rfl
    · rw [all_setFalse _ _ hc]

theorem evalFlags_again {m : Option (List Flags → Except Err Flags)} {k : Kind}
    (hm : m = none ∨ (m = ownFlags k ∧ ¬ isShape k)) {t : FlowType} {ins : List Flags} {fl : Flags}
    (h : evalFlags m t ins = .ok fl) :
    ∃ fl', evalFlags m t [fl] = .ok fl' ∧ fl'.truthy = fl.truthy := by
  rcases hm with rfl | ⟨rfl, hk⟩
  · simp only [evalFlags, Except.ok.injEq] at h ⊢
    refine ⟨_, rfl, ?_⟩
    subst h
    simp only [List.all_cons, List.all_nil, Bool.and_true, setAll_again]
  · cases k with
    | plain =>
      simp only [ownFlags, evalFlags, Except.ok.injEq] at h ⊢
      refine ⟨_, rfl, ?_⟩
      subst h
      simp only [List.all_cons, List.all_nil, Bool.and_true, setAll_again]
    | var =>
      simp only [ownFlags, evalFlags, Except.ok.injEq] at h ⊢
      refine ⟨_, rfl, ?_⟩
      subst h
      simp only [List.all_cons, List.all_nil, Bool.and_true, setAll_again]
    | constant =>
      simp only [ownFlags, evalFlags, Except.ok.injEq] at h ⊢
      exact ⟨_, rfl, by rw [h]⟩
    | cuboid => exact absurd (Or.inl rfl) hk
    | cylinder => exact absurd (Or.inr (Or.inl rfl)) hk
    | sphere => exact absurd (Or.inr (Or.inr (Or.inl rfl))) hk
    | pixelated => exact absurd (Or.inr (Or.inr (Or.inr rfl))) hk
    | group =>
      simp only [ownFlags, evalFlags, Except.ok.injEq] at h ⊢
      exact ⟨_, rfl, by simp [Flags.truthy, Flags.truthyAll]⟩
    | translate =>
      exact ⟨fl, rfl, rfl⟩

/-- C79, what holds: renaming a node that is neither a variable nor one of the four shapes gives a
node with the same value and with flags that say the same, in every plan state. Missing: variables
(`rename_variable_false`) and shapes (`rename_shape_false`). -/
theorem rename_transparent_partial (lib : Lib φ V) (frozen : Bool) (p : PlanVars V) (n : Node φ V)
    (hv : kindOf lib n ≠ .var) (hs : ¬ isShape (kindOf lib n)) (name : String) (v : V) (fl : Flags)
    (h : evalNode lib frozen p n = .ok (v, fl)) :
    ∃ fl', evalNode lib frozen p (rename lib n name) = .ok (v, fl') ∧ fl'.truthy = fl.truthy := by
  -- the method used for the renamed node is the one used for the node itself
  have hmeth : flagMethod lib (rename lib n name) = flagMethod lib n := by
    unfold rename
    cases n with
    | var a b => rfl
    | op f ins =>
      show (match ownFlags (lib.kind f) with
        | some m => some m
        | none => ownFlags (lib.kind f)) = ownFlags (lib.kind f)
      cases ownFlags (lib.kind f) <;> rfl
    | cast a k inner =>
      show (match ownFlags k with
        | some m => some m
        | none => flagMethod lib (.cast a k inner)) = flagMethod lib (.cast a k inner)
      cases hk : ownFlags k with
      | none => rfl
      | some m => simp only [flagMethod, hk]
  -- the flags of the node were computed by that method
  have hfl : ∃ k, (flagMethod lib n = none ∨ (flagMethod lib n = ownFlags k ∧ ¬ isShape k)) ∧
      ∃ ins, evalFlags (flagMethod lib n) (lib.flowType v) ins = .ok fl := by
    cases n with
    | var a b => exact absurd rfl hv
    | op f ins =>
      refine ⟨lib.kind f, Or.inr ⟨rfl, hs⟩, ?_⟩
      unfold evalNode at h
      split at h
      · cases h
      · split at h
        · cases h
        · split at h
          · cases h
          · rename_i hf
            cases h
            exact ⟨_, hf⟩
    | cast a k inner =>
      unfold evalNode at h
      split at h
      · cases h
      · rename_i w flw hw
        have hv' : ¬ k = .var := hv
        rw [if_neg hv'] at h
        split at h
        · cases h
        · rename_i fl2 hf
          cases h
          rcases flagMethod_own lib (.cast a k inner) with h0 | ⟨k', hk'⟩
          · exact ⟨.plain, Or.inl h0, _, hf⟩
          · refine ⟨k', Or.inr ⟨hk', fun hsh => ?_⟩, _, hf⟩
            obtain ⟨m, hm⟩ : ∃ m, ownFlags k' = some m := by
              rcases hsh with rfl | rfl | rfl | rfl <;> exact ⟨_, rfl⟩
            obtain ⟨e, he⟩ := shapeRule_one hsh flw m hm
            rw [hk', hm] at hf
            simp only [evalFlags, he] at hf
            cases hf
  obtain ⟨k, hk, ins, hins⟩ := hfl
  obtain ⟨fl', h1, h2⟩ := evalFlags_again hk hins
  refine ⟨fl', ?_, h2⟩
  show evalNode lib frozen p (.cast name (kindOf lib n) n) = _
  unfold evalNode
  rw [h]
  simp only
  rw [if_neg hv]
  have hmeth' : flagMethod lib (.cast name (kindOf lib n) n) = flagMethod lib n := hmeth
  rw [hmeth', h1]

/-- Non-vacuity: renaming the output of a simulation. -/
example : kindOf demoLib (.op false [.op true [.var "x" (.num 0)]]) ≠ .var ∧
    ¬ isShape (kindOf demoLib (.op false [.op true [.var "x" (.num 0)]])) ∧
    ∃ fl, evalNode demoLib false [("x", .num 3, false)]
      (.op false [.op true [.var "x" (.num 0)]]) = .ok (.num 9, fl) := by
  refine ⟨by decide, ?_, _, rfl⟩
  rintro (h | h | h | h) <;> cases h

/-! ### C79: variables -/

theorem get_append_of_some {p : PlanVars V} {n : String} {e : V × Bool} (h : p.get n = some e)
    (q : PlanVars V) : PlanVars.get (p ++ q) n = some e := by
  unfold PlanVars.get at h ⊢
  rw [Option.map_eq_some_iff] at h ⊢
  obtain ⟨x, hx, rfl⟩ := h
  exact ⟨x, by rw [List.find?_append, hx]; rfl, rfl⟩

theorem get_append_new {p : PlanVars V} {n : String} (h : (p.get n).isSome = false) (v : V) :
    PlanVars.get (p ++ [(n, v, false)]) n = some (v, false) := by
  unfold PlanVars.get at h ⊢
  have hn : p.find? (fun e => e.1 = n) = none := by
    cases hf : p.find? (fun e => e.1 = n) with
    | none => rfl
    | some x => rw [hf] at h; simp at h
  rw [List.find?_append, hn]
  simp

mutual
/-- Adding nodes never changes a registered variable. -/
theorem addNode_get (lib : Lib φ V) : ∀ (n : Node φ V) (p q : PlanVars V) (m : String)
    (e : V × Bool), addNode lib p n = .ok q → p.get m = some e → q.get m = some e
  | .var n v, p, q, m, e, h, hm => by
    unfold addNode at h
    cases h
    split
    · exact hm
    · exact get_append_of_some hm _
  | .op f ins, p, q, m, e, h, hm => by
    unfold addNode at h
    exact addNodes_get lib ins p q m e h hm
  | .cast n k inner, p, q, m, e, h, hm => by
    unfold addNode at h
    split at h
    · split at h
      · cases h; exact hm
      · split at h
        · cases h
        · exact addNode_get lib inner _ q m e h (get_append_of_some hm _)
    · exact addNode_get lib inner p q m e h hm
theorem addNodes_get (lib : Lib φ V) : ∀ (ns : List (Node φ V)) (p q : PlanVars V) (m : String)
    (e : V × Bool), addNodes lib p ns = .ok q → p.get m = some e → q.get m = some e
  | [], p, q, m, e, h, hm => by unfold addNodes at h; cases h; exact hm
  | n :: ns, p, q, m, e, h, hm => by
    unfold addNodes at h
    split at h
    · cases h
    · rename_i r hr
      exact addNodes_get lib ns r q m e h (addNode_get lib n p r m e hr hm)
end

theorem get_setVar (p : PlanVars V) (n m : String) (v : V) :
    (setVar p n v).get m =
      if m = n then (p.get m).map fun e => (v, e.2) else p.get m := by
  induction p with
  | nil => simp [setVar, PlanVars.get]
  | cons a p ih =>
    obtain ⟨an, av, ab⟩ := a
    unfold setVar PlanVars.get at ih ⊢
    simp only [List.map_cons]
    by_cases han : an = m
    · subst han
      by_cases hmn : an = n
      · simp [hmn]
      · simp [hmn]
    · have h1 : (if an = n then (an, v, ab) else (an, av, ab)).1 = an := by split <;> rfl
      rw [List.find?_cons_of_neg (by simp only [h1]; simpa using han), ih,
        List.find?_cons_of_neg (by simpa using han)]

/-- In every history that does not set `y`, a registered `y` keeps its value. -/
theorem runOps_get (lib : Lib φ V) (y : String) (e : V × Bool) : ∀ (os : List (PlanOp φ V))
    (p q : PlanVars V), (∀ v, PlanOp.set y v ∉ os) → runOps lib os p = .ok q →
    p.get y = some e → q.get y = some e
  | [], p, q, _, h, hp => by cases h; exact hp
  | .create n :: os, p, q, hno, h, hp => by
    unfold runOps at h
    split at h
    · cases h
    · rename_i r hr
      exact runOps_get lib y e os r q (fun v hv => hno v (List.mem_cons_of_mem _ hv)) h
        (addNode_get lib n p r y e hr hp)
  | .set n v :: os, p, q, hno, h, hp => by
    unfold runOps at h
    refine runOps_get lib y e os _ q (fun w hw => hno w (List.mem_cons_of_mem _ hw)) h ?_
    rw [get_setVar]
    have hne : y ≠ n := by
      rintro rfl
      exact hno v (by simp)
    rw [if_neg hne]
    exact hp

/-- A registered variable stays registered. -/
theorem runOps_isSome (lib : Lib φ V) (x : String) : ∀ (os : List (PlanOp φ V))
    (p q : PlanVars V), runOps lib os p = .ok q → (p.get x).isSome → (q.get x).isSome
  | [], p, q, h, hp => by cases h; exact hp
  | .create n :: os, p, q, h, hp => by
    unfold runOps at h
    split at h
    · cases h
    · rename_i r hr
      obtain ⟨e, he⟩ := Option.isSome_iff_exists.1 hp
      exact runOps_isSome lib x os r q h (by rw [addNode_get lib n p r x e hr he]; rfl)
  | .set n v :: os, p, q, h, hp => by
    unfold runOps at h
    refine runOps_isSome lib x os _ q h ?_
    rw [get_setVar]
    split
    · simpa using hp
    · exact hp

/-- A chain of renamings of a variable. -/
def renames (lib : Lib φ V) (x : String) (v₀ : V) : List String → Node φ V
  | [] => .var x v₀
  | y :: ys => rename lib (renames lib x v₀ ys) y

/-- C79, the same for a variable that is renamed any number of times: the last name is registered
with the value the variable was created with. -/
theorem rename_chain_registers (lib : Lib φ V) (x y : String) (v₀ : V) (ys : List String)
    (p p' : PlanVars V) (hy : (p.get y).isSome = false)
    (hadd : addNode lib p (renames lib x v₀ (y :: ys)) = .ok p') :
    p'.get y = some (v₀, false) := by
  have hk : ∀ l, kindOf lib (renames lib x v₀ l) = .var := by
    intro l
    induction l with
    | nil => rfl
    | cons z l ih => simpa [renames, rename, kindOf] using ih
  have hi : ∀ l, initValue (renames lib x v₀ l) = .ok v₀ := by
    intro l
    induction l with
    | nil => rfl
    | cons z l ih => simpa [renames, rename, initValue] using ih
  unfold renames rename at hadd
  unfold addNode at hadd
  rw [if_pos (hk ys), hy] at hadd
  simp only [hi ys] at hadd
  exact addNode_get lib _ _ _ y _ hadd (get_append_new hy v₀)

/-- Non-vacuity: `x` renamed to `y` and then to `z`. -/
example : ∃ p', addNode demoLib [] (renames demoLib "x" (.num 3) ["z", "y"]) = .ok p' ∧
    p'.get "z" = some (.num 3, false) ∧ p'.get "y" = some (.num 3, false) :=
  ⟨_, rfl, rfl, rfl⟩

/-- C79 fails for variables: `y = goos.rename(x, "y")` registers an independent variable. In every
history after its creation that does not set `y` itself, the renamed variable evaluates to the value
`x` was created with, no matter what `x` was or is set to. -/
theorem rename_variable_value (lib : Lib φ V) (frozen : Bool) (x y : String) (v₀ : V)
    (p p' q : PlanVars V) (os : List (PlanOp φ V)) (hy : (p.get y).isSome = false)
    (hx : (p.get x).isSome) (hadd : addNode lib p (rename lib (.var x v₀) y) = .ok p')
    (hno : ∀ v, PlanOp.set y v ∉ os) (hrun : runOps lib os p' = .ok q) :
    ∃ fl, evalNode lib frozen q (rename lib (.var x v₀) y) = .ok (v₀, fl) := by
  have h1 : p'.get y = some (v₀, false) ∧ (p'.get x).isSome := by
    unfold rename kindOf at hadd
    unfold addNode at hadd
    rw [if_pos rfl, hy] at hadd
    simp only [initValue] at hadd
    have h2 := get_append_new hy v₀
    refine ⟨addNode_get lib _ _ _ y _ hadd h2, ?_⟩
    obtain ⟨e, he⟩ := Option.isSome_iff_exists.1 hx
    rw [addNode_get lib _ _ _ x e hadd (get_append_of_some he _)]
    rfl
  have h3 := runOps_get lib y _ os p' q hno hrun h1.1
  obtain ⟨e, he⟩ := Option.isSome_iff_exists.1 (runOps_isSome lib x os p' q hrun h1.2)
  unfold rename kindOf evalNode
  have hin : evalNode lib frozen q (.var x v₀) = .ok (e.1, .record [("array", frozen && e.2)]) := by
    unfold evalNode
    rw [he]
  rw [hin]
  simp only [if_true, h3]
  exact ⟨_, rfl⟩

/-- So a variable that is set after being renamed and its renamed version disagree. -/
theorem rename_variable_false (lib : Lib φ V) (frozen : Bool) (x y : String) (hxy : x ≠ y)
    (v₀ v : V) (hv : v ≠ v₀) :
    ∃ q fl fl', runOps lib [.create (.var x v₀), .create (rename lib (.var x v₀) y), .set x v]
        ([] : PlanVars V) = .ok q ∧
      evalNode lib frozen q (.var x v₀) = .ok (v, fl) ∧
      evalNode lib frozen q (rename lib (.var x v₀) y) = .ok (v₀, fl') ∧ v ≠ v₀ := by
  have h1 : runOps lib [.create (.var x v₀), .create (rename lib (.var x v₀) y), .set x v]
      ([] : PlanVars V) = .ok [(x, v, false), (y, v₀, false)] := by
    have hyx : ¬ y = x := fun e => hxy e.symm
    simp [runOps, rename, kindOf, addNode, PlanVars.get, initValue, setVar, hxy, hyx]
  have hyx : ¬ y = x := fun e => hxy e.symm
  refine ⟨_, .record [("array", frozen && false)], .record [("array", frozen && false)], h1, ?_, ?_,
    hv⟩
  · simp only [evalNode, PlanVars.get]
    simp
  · simp only [evalNode, PlanVars.get, rename, kindOf]
    simp [hxy]

/-- Non-vacuity: the names and values of an actual history. -/
example : ∃ q fl fl', runOps demoLib [.create (.var "x" (.num 0)),
      .create (rename demoLib (.var "x" (.num 0)) "y"), .set "x" (.num 5)] [] = .ok q ∧
    evalNode demoLib false q (.var "x" (.num 0)) = .ok (.num 5, fl) ∧
    evalNode demoLib false q (rename demoLib (.var "x" (.num 0)) "y") = .ok (.num 0, fl') :=
  ⟨_, _, _, rfl, rfl, rfl⟩

end Verif.Flow
