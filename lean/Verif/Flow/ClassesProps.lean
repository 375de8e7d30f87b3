import Verif.Flow.ClassesLemmas
import Mathlib.Tactic.NormNum
import Mathlib.Tactic.LinearCombination
import Mathlib.Algebra.Field.Rat
import Mathlib.Data.Rat.Cast.CharZero
/-
C77: gradients that reach a flow from several consumers add up, field by field.
-/
namespace Verif.Flow
variable {K : Type}

/-! ### Specification -/

/-- The field-by-field sum of two gradient objects, on the fields `fs`. -/
def IsSum [Add K] (fs : List String) (o v r : Obj K) : Prop :=
  ∀ f ∈ fs, ∀ a b, o f = some a → v f = some b → r f = some (a.add b)

/-- The fields of class `c` that can vary. -/
def varying (env : List FlowClass) (c : Nat) : List String :=
  nonconst ((env[c]?.map FlowClass.fields).getD [])

/-- The resolution order of class `c`. -/
def mroOf (env : List FlowClass) (c : Nat) : List Nat := (env[c]?.map FlowClass.mro).getD []

/-- Whether the `Grad` of class `k` adds the field `f` itself. -/
def handles (env : List FlowClass) (f : String) (k : Nat) : Bool :=
  decide (f ∈ (env[k]?.map FlowClass.adds).getD [])

/-- How many classes in the resolution order of `c` add the field `f`. -/
def handlers (env : List FlowClass) (c : Nat) (f : String) : Nat :=
  (mroOf env c).countP (handles env f)

/-- Two gradient objects of class `c` with matching shapes. -/
def Matching (env : List FlowClass) (c : Nat) (o v : Obj K) : Prop :=
  FieldsMatch (chain env (mroOf env c)) o v

/-- The classes that exist after running the class statements `ss`; hand-written `__iadd__` methods
mention each field once. -/
def Program (ss : List ClassStmt) (env : List FlowClass) : Prop :=
  defineAll ss [] = some env ∧ ∀ s ∈ ss, ∀ fs, s.grad = some fs → fs.Nodup

/-! ### What the metaclass guarantees -/

/-- Invariant of the class table. -/
def EnvOk (env : List FlowClass) : Prop :=
  ∀ (k : Nat) (cl : FlowClass), env[k]? = some cl → cl.adds.Nodup ∧ cl.mro.Nodup ∧ k ∈ cl.mro ∧ ∀ j ∈ cl.mro, j ≤ k

theorem define_eq {env env' : List FlowClass} {s : ClassStmt} (h : define env s = some env') :
    (∀ b ∈ s.bases, b < env.length) ∧
    ∃ tl n, c3Merge n (s.bases.map (fun b => (env[b]?.map FlowClass.mro).getD []) ++ [s.bases]) =
        some tl ∧
      env' = env ++ [⟨s.name, env.length :: tl, fieldsOf env tl s.own,
        s.grad.getD (nonconst (fieldsOf env tl s.own))⟩] := by
  unfold define at h
  split at h
  · rename_i hb
    rw [List.all_eq_true] at hb
    refine ⟨fun b hbm => by simpa using hb b hbm, ?_⟩
    simp only at h
    split at h
    · cases h
    · rename_i tl htl
      cases h
      exact ⟨tl, _, htl, rfl⟩
  · cases h

theorem define_ok {env env' : List FlowClass} {s : ClassStmt} (h : define env s = some env')
    (hok : EnvOk env) (hs : ∀ fs, s.grad = some fs → fs.Nodup) : EnvOk env' := by
  obtain ⟨hb, tl, n, htl, rfl⟩ := define_eq h
  have hlt : ∀ j ∈ tl, j < env.length := by
    intro j hj
    obtain ⟨l, hl, hjl⟩ := (c3Merge_mem _ _ _ htl j).1 hj
    rw [List.mem_append, List.mem_map, List.mem_singleton] at hl
    rcases hl with ⟨b, hbm, rfl⟩ | rfl
    · have hbl := hb b hbm
      have he : env[b]? = some env[b] := List.getElem?_eq_getElem hbl
      rw [he] at hjl
      exact lt_of_le_of_lt ((hok b _ he).2.2.2 j hjl) hbl
    · exact hb j hjl
  intro k cl hk
  rw [List.getElem?_append] at hk
  split at hk
  · exact hok k cl hk
  · rename_i hkl
    have hk0 : k = env.length := by
      rcases Nat.lt_or_ge (k - env.length) 1 with h1 | h1
      · omega
      · rw [List.getElem?_eq_none (by simpa using h1)] at hk
        cases hk
    subst hk0
    rw [Nat.sub_self] at hk
    simp only [List.getElem?_cons_zero, Option.some.injEq] at hk
    subst hk
    refine ⟨?_, ?_, by simp, ?_⟩
    · cases hg : s.grad with
      | none => exact nonconst_nodup _ (fieldsOf_nodup _ _ _)
      | some fs => exact hs fs hg
    · rw [List.nodup_cons]
      exact ⟨fun hm => lt_irrefl _ (hlt _ hm), c3Merge_nodup _ _ _ htl⟩
    · intro j hj
      rcases List.mem_cons.1 hj with rfl | hj
      · exact le_refl _
      · exact le_of_lt (hlt j hj)

theorem defineAll_ok : ∀ (ss : List ClassStmt) (env env' : List FlowClass),
    defineAll ss env = some env' → EnvOk env →
    (∀ s ∈ ss, ∀ fs, s.grad = some fs → fs.Nodup) → EnvOk env'
  | [], env, env', h, hok, _ => by cases h; exact hok
  | s :: ss, env, env', h, hok, hs => by
    unfold defineAll at h
    rw [Option.bind_eq_some_iff] at h
    obtain ⟨e1, h1, h2⟩ := h
    exact defineAll_ok ss e1 env' h2 (define_ok h1 hok (hs s (by simp)))
      (fun t ht => hs t (List.mem_cons_of_mem _ ht))

theorem program_ok {ss : List ClassStmt} {env : List FlowClass} (h : Program ss env) :
    EnvOk env :=
  defineAll_ok ss [] env h.1 (fun k cl hk => by simp at hk) h.2

theorem count_chain {env : List FlowClass} (hok : EnvOk env) (f : String) :
    ∀ ks : List Nat, (chain env ks).count f = ks.countP (handles env f)
  | [] => rfl
  | k :: ks => by
    unfold chain
    rw [List.flatMap_cons, List.count_append, List.countP_cons]
    have ih := count_chain hok f ks
    unfold chain at ih
    rw [ih, Nat.add_comm]
    congr 1
    unfold handles
    cases hk : env[k]? with
    | none => simp
    | some cl =>
      have hn := (hok k cl hk).1
      by_cases hf : f ∈ cl.adds
      · simp [hf, List.count_eq_one_of_mem hn hf]
      · simp [hf, List.count_eq_zero_of_not_mem hf]

/-! ### C77 -/

/-- `g += value`, in general: for every program and every flow class, a field is added as many times
as there are classes in the resolution order whose `Grad` adds it; other attributes are left
alone. -/
theorem grad_iadd_times [AddCommMagma K] {ss : List ClassStmt} {env : List FlowClass}
    (h : Program ss env) (c : Nat) (o v : Obj K) (hm : Matching env c o v) :
    ∃ r, gradIadd env c o v = .ok r ∧
      (∀ f a b, o f = some a → v f = some b → r f = some (a.addTimes (handlers env c f) b)) ∧
      ∀ f, handlers env c f = 0 → r f = o f := by
  obtain ⟨r, hr, h1, h2⟩ := iaddFields_closed v _ o hm
  refine ⟨r, ?_, ?_, ?_⟩
  · unfold gradIadd
    rw [iaddMro_eq]
    exact hr
  · intro f a b ha hb
    rw [h1 f a b ha hb, count_chain (program_ok h)]
    rfl
  · intro f hf
    apply h2
    rw [← List.count_eq_zero, count_chain (program_ok h)]
    exact hf

/-- Adding is the sum exactly when each varying field is added by exactly one class of the
resolution order. -/
theorem grad_iadd_sum_iff {ss : List ClassStmt} {env : List FlowClass} (h : Program ss env)
    (c : Nat) :
    (∀ o v r : Obj ℚ, Matching env c o v → gradIadd env c o v = .ok r →
      IsSum (varying env c) o v r) ↔
    ∀ f ∈ varying env c, handlers env c f = 1 := by
  constructor
  · intro hall f hf
    obtain ⟨r, hr, h1, -⟩ := grad_iadd_times h c (fun _ => some (.num (0 : ℚ)))
      (fun _ => some (.num 1)) (fun g _ => ⟨.num 0, .num 1, rfl, rfl, trivial⟩)
    have e1 := hall _ _ r (fun g _ => ⟨.num 0, .num 1, rfl, rfl, trivial⟩) hr f hf _ _ rfl rfl
    have e2 := h1 f _ _ rfl rfl
    rw [e1] at e2
    have key : ∀ n : Nat, (Val.num (0 : ℚ)).addTimes n (.num 1) = .num (n : ℚ) := by
      intro n
      induction n with
      | zero => simp [Val.addTimes]
      | succ n ih => simp [Val.addTimes, ih, Val.add]
    rw [key] at e2
    simp only [Val.add, Option.some.injEq, Val.num.injEq, zero_add] at e2
    exact_mod_cast e2.symm
  · intro hone o v r hm hr f hf a b ha hb
    obtain ⟨r', hr', h1, -⟩ := grad_iadd_times h c o v hm
    rw [hr] at hr'
    cases hr'
    rw [h1 f a b ha hb, hone f hf]
    rfl

/-- C77, what holds: for a class whose varying fields are exactly the ones its own `Grad` adds and
whose bases add nothing, `+=` is the sum of the gradients. Missing: classes that inherit a varying
field, see `grad_iadd_inherited_false`. -/
theorem grad_iadd_sum_partial [AddCommMagma K] {ss : List ClassStmt} {env : List FlowClass}
    (h : Program ss env) (c : Nat) (hc : c < env.length)
    (hown : ∀ f ∈ varying env c, handles env f c = true)
    (hbase : ∀ k ∈ mroOf env c, k ≠ c → ∀ f ∈ varying env c, handles env f k = false)
    (o v : Obj K) (hm : Matching env c o v) :
    ∃ r, gradIadd env c o v = .ok r ∧ IsSum (varying env c) o v r := by
  obtain ⟨r, hr, h1, -⟩ := grad_iadd_times h c o v hm
  refine ⟨r, hr, fun f hf a b ha hb => ?_⟩
  rw [h1 f a b ha hb]
  have hone : handlers env c f = 1 := by
    have he : env[c]? = some env[c] := List.getElem?_eq_getElem hc
    have hok := program_ok h c _ he
    have hmro : mroOf env c = env[c].mro := by unfold mroOf; rw [he]; rfl
    unfold handlers
    have hcount : (mroOf env c).countP (handles env f) = (mroOf env c).countP (· == c) := by
      apply List.countP_congr
      intro k hk
      by_cases e : k = c
      · subst e
        simp [hown f hf]
      · simp [hbase k hk e f hf, e]
    rw [hcount, hmro]
    show (env[c].mro).count c = 1
    exact List.count_eq_one_of_mem hok.2.1 hok.2.2.1
  rw [hone]
  rfl

theorem getElem?_append_last {α : Type} (l : List α) (a : α) : (l ++ [a])[l.length]? = some a := by
  simp

theorem handles_append {env : List FlowClass} {x : FlowClass} {f : String} {k : Nat}
    (hk : k < env.length) : handles (env ++ [x]) f k = handles env f k := by
  unfold handles
  rw [List.getElem?_append_left hk]

/-- C77 fails for every class that inherits a varying field: whenever a flow class is defined
without its own `Grad`, from a base whose `Grad` adds `f`, and `f` still varies in the new class,
then `+=` adds `f` at least twice; so the result is not the sum, whatever the number already
accumulated and the (nonzero) number that is added. -/
theorem grad_iadd_inherited_false [_root_.Field K] [CharZero K] {ss : List ClassStmt}
    {env env' : List FlowClass} (h : Program ss env) (s : ClassStmt)
    (hd : define env s = some env') (hg : s.grad = none) (b : Nat) (hb : b ∈ s.bases)
    (f : String) (hbf : handles env f b = true) (hf : f ∈ varying env' env.length) :
    2 ≤ handlers env' env.length f ∧
    ∀ (o v : Obj K) (x y : K), Matching env' env.length o v → o f = some (.num x) →
      v f = some (.num y) → y ≠ 0 →
      ∃ r z, gradIadd env' env.length o v = .ok r ∧ r f = some (.num z) ∧ z ≠ x + y := by
  have hprog : Program (ss ++ [s]) env' := by
    refine ⟨?_, ?_⟩
    · have key : ∀ (l : List ClassStmt) (e : List FlowClass), defineAll l e = some env →
          defineAll (l ++ [s]) e = some env' := by
        intro l
        induction l with
        | nil =>
          intro e he
          cases he
          show (define env s).bind (defineAll []) = some env'
          rw [hd]
          rfl
        | cons t l ih =>
          intro e he
          unfold defineAll at he
          rw [Option.bind_eq_some_iff] at he
          obtain ⟨e1, h1, h2⟩ := he
          show (define e t).bind (defineAll (l ++ [s])) = some env'
          rw [h1]
          exact ih e1 h2
      exact key ss [] h.1
    · intro t ht fs hfs
      rcases List.mem_append.1 ht with ht | ht
      · exact h.2 t ht fs hfs
      · rw [List.mem_singleton] at ht
        subst ht
        rw [hg] at hfs
        cases hfs
  have htwo : 2 ≤ handlers env' env.length f := by
    obtain ⟨hbl, tl, n, htl, rfl⟩ := define_eq hd
    have hbt : b ∈ tl := (c3Merge_mem _ _ _ htl b).2 ⟨s.bases, by simp, hb⟩
    unfold handlers mroOf
    rw [getElem?_append_last]
    simp only [Option.map_some, Option.getD_some]
    rw [List.countP_cons]
    have h1 : handles (env ++ [⟨s.name, env.length :: tl, fieldsOf env tl s.own,
        s.grad.getD (nonconst (fieldsOf env tl s.own))⟩]) f env.length = true := by
      unfold varying at hf
      rw [getElem?_append_last] at hf
      unfold handles
      rw [getElem?_append_last, hg]
      simpa using hf
    rw [if_pos h1]
    have h2 : 0 < tl.countP (handles (env ++ [⟨s.name, env.length :: tl, fieldsOf env tl s.own,
        s.grad.getD (nonconst (fieldsOf env tl s.own))⟩]) f) := by
      rw [List.countP_pos_iff]
      exact ⟨b, hbt, by rw [handles_append (hbl b hb)]; exact hbf⟩
    omega
  refine ⟨htwo, fun o v x y hm hx hy hy0 => ?_⟩
  obtain ⟨r, hr, h1, -⟩ := grad_iadd_times hprog env.length o v hm
  have key : ∀ n : Nat, (Val.num x).addTimes n (.num y) = .num (x + n * y) := by
    intro n
    induction n with
    | zero => simp [Val.addTimes]
    | succ n ih =>
      simp only [Val.addTimes, ih, Val.add, Val.num.injEq]
      push_cast
      ring
  refine ⟨r, _, hr, by rw [h1 f _ _ hx hy, key], ?_⟩
  intro e
  have h3 : ((handlers env' env.length f : K) - 1) * y = 0 := by linear_combination e
  rcases mul_eq_zero.1 h3 with h4 | h4
  · have h5 : (handlers env' env.length f : K) = ((1 : ℕ) : K) := by
      rw [Nat.cast_one]; exact sub_eq_zero.1 h4
    have h6 := Nat.cast_injective h5
    omega
  · exact hy0 h4

/-! ### The flows of the library -/

theorem goos_program : Program goosStmts goosEnv := by
  refine ⟨by decide +kernel, ?_⟩
  decide +kernel

/-- Non-vacuity of the general theorem: `CuboidFlow` is defined from `ShapeFlow`, which adds
`pos`. -/
example : (defineAll (goosStmts.take 3) []).isSome ∧
    (define (goosEnv.take 3) goosStmts[3]).isSome ∧ goosStmts[3].grad = none ∧
    2 ∈ goosStmts[3].bases ∧ handles (goosEnv.take 3) "pos" 2 = true ∧
    "pos" ∈ varying goosEnv 3 := by decide +kernel

/-- `NumericFlow` (class 1) and `ShapeFlow` (class 2) satisfy the hypotheses of
`grad_iadd_sum_partial`. -/
example : ∀ c ∈ [1, 2], c < goosEnv.length ∧ varying goosEnv c ≠ [] ∧
    (∀ f ∈ varying goosEnv c, handles goosEnv f c = true) ∧
    (∀ k ∈ mroOf goosEnv c, k ≠ c → ∀ f ∈ varying goosEnv c, handles goosEnv f k = false) := by
  decide +kernel

/-- How often each varying field is added, for every flow class of the library. -/
theorem goos_handlers :
    (List.range 7).map (fun c => (varying goosEnv c).map fun f => (f, handlers goosEnv c f)) =
    [ [], [("array", 1)], [("pos", 1), ("rot", 1)],
      [("pos", 2), ("rot", 2), ("extents", 1)],
      [("pos", 2), ("rot", 2), ("radius", 1), ("height", 1), ("num_points", 1)],
      [("pos", 2), ("rot", 2), ("radius", 1), ("num_points", 1)],
      [("array", 2), ("pos", 2), ("rot", 2), ("extents", 1)] ] := by
  decide +kernel

/-- C77 for the shapes of the library (`CuboidFlow`, `CylinderFlow`, `SphereFlow` and
`PixelatedContShapeFlow`): after `g += value` the position and rotation gradients are
`g + value + value`, and so is the gradient of the pixel values of a pixelated shape. -/
theorem shape_grad_doubled [AddCommMagma K] (c : Nat) (hc : c ∈ [3, 4, 5, 6]) (f : String)
    (hf : f = "pos" ∨ f = "rot" ∨ (c = 6 ∧ f = "array")) (o v : Obj K)
    (hm : Matching goosEnv c o v) (a b : Val K) (ha : o f = some a) (hb : v f = some b) :
    ∃ r, gradIadd goosEnv c o v = .ok r ∧ r f = some ((a.add b).add b) := by
  obtain ⟨r, hr, h1, -⟩ := grad_iadd_times goos_program c o v hm
  refine ⟨r, hr, ?_⟩
  have h2 : handlers goosEnv c f = 2 := by
    have hall : ∀ c ∈ [3, 4, 5, 6], handlers goosEnv c "pos" = 2 ∧ handlers goosEnv c "rot" = 2 ∧
        (c = 6 → handlers goosEnv c "array" = 2) := by decide +kernel
    rcases hf with rfl | rfl | ⟨h6, rfl⟩
    · exact (hall c hc).1
    · exact (hall c hc).2.1
    · exact (hall c hc).2.2 h6
  rw [h1 f a b ha hb, h2]
  rfl

/-- Non-vacuity: two gradients of a pixelated shape with three pixels. -/
example : Matching goosEnv 6 (fun _ => some (.arr [1, 2, (3 : ℚ)]))
    (fun _ => some (.arr [4, 5, 6])) ∧
    ∃ r, gradIadd goosEnv 6 (fun _ => some (.arr [1, 2, (3 : ℚ)]))
      (fun _ => some (.arr [4, 5, 6])) = .ok r ∧ r "array" = some (.arr [9, 12, 15]) := by
  have hm : Matching goosEnv 6 (fun _ => some (.arr [1, 2, (3 : ℚ)]))
      (fun _ => some (.arr [4, 5, 6])) := fun f _ => ⟨_, _, rfl, rfl, rfl⟩
  refine ⟨hm, ?_⟩
  obtain ⟨r, hr, h⟩ := shape_grad_doubled 6 (by simp) "array" (by simp) _ _ hm _ _ rfl rfl
  refine ⟨r, hr, ?_⟩
  rw [h]
  norm_num [Val.add]

/-- A node with several consumers (`graph_executor`): every gradient after the first is added once
per class that handles the field. For a pixelated design region in `n` simulations the result is
`g₁ + 2 (g₂ + ⋯ + gₙ)` instead of the sum. -/
theorem accumulate_times [AddCommMagma K] {ss : List ClassStmt} {env : List FlowClass}
    (h : Program ss env) (c : Nat) : ∀ (vs : List (Obj K)) (o : Obj K),
    (∀ v ∈ vs, Matching env c o v) →
    ∃ r, accumulate env c o vs = .ok r ∧
      ∀ f a (bs : List (Val K)), o f = some a → vs.map (fun v => v f) = bs.map some →
        r f = some (bs.foldl (fun acc b => acc.addTimes (handlers env c f) b) a)
  | [], o, _ => ⟨o, rfl, fun f a bs ha hbs => by
      have : bs = [] := by simpa using hbs.symm
      subst this
      exact ha⟩
  | v :: vs, o, hm => by
    obtain ⟨r, hr, h1, h2⟩ := grad_iadd_times h c o v (hm v (by simp))
    have hm' : ∀ w ∈ vs, Matching env c r w := by
      intro w hw f hf
      obtain ⟨a, b, ha, hb, hs⟩ := hm w (List.mem_cons_of_mem _ hw) f hf
      obtain ⟨a', b', ha', hb', hs'⟩ := hm v (by simp) f hf
      rw [ha] at ha'
      cases ha'
      refine ⟨_, b, h1 f a b' ha hb', hb, ?_⟩
      have h3 := sameShape_addTimes a b' hs' (handlers env c f)
      generalize a.addTimes (handlers env c f) b' = t at *
      cases a <;> cases b <;> cases b' <;> cases t <;> simp_all [SameShape]
    obtain ⟨r', hr', h3⟩ := accumulate_times h c vs r hm'
    refine ⟨r', ?_, ?_⟩
    · unfold accumulate
      rw [hr]
      exact hr'
    · intro f a bs ha hbs
      cases bs with
      | nil => simp at hbs
      | cons b bs =>
        simp only [List.map_cons, List.cons.injEq] at hbs
        rw [List.foldl_cons]
        exact h3 f _ bs (h1 f a b ha hbs.1) hbs.2

/-- The gradient of a pixelated design region used by two simulations depends on the order in which
the simulations are met, and is not the sum in either order. -/
theorem two_consumers_false :
    ∃ (g₁ g₂ r₁ r₂ : Obj ℚ), Matching goosEnv 6 g₁ g₂ ∧ Matching goosEnv 6 g₂ g₁ ∧
      accumulate goosEnv 6 g₁ [g₂] = .ok r₁ ∧ accumulate goosEnv 6 g₂ [g₁] = .ok r₂ ∧
      g₁ "array" = some (.arr [1]) ∧ g₂ "array" = some (.arr [10]) ∧
      r₁ "array" = some (.arr [21]) ∧ r₂ "array" = some (.arr [12]) := by
  have h12 : Matching goosEnv 6 (fun _ => some (.arr [(1 : ℚ)])) (fun _ => some (.arr [10])) :=
    fun f _ => ⟨_, _, rfl, rfl, rfl⟩
  have h21 : Matching goosEnv 6 (fun _ => some (.arr [(10 : ℚ)])) (fun _ => some (.arr [1])) :=
    fun f _ => ⟨_, _, rfl, rfl, rfl⟩
  obtain ⟨r₁, hr₁, h₁⟩ := accumulate_times goos_program 6 [fun _ => some (.arr [(10 : ℚ)])]
    (fun _ => some (.arr [1])) (by simpa using h12)
  obtain ⟨r₂, hr₂, h₂⟩ := accumulate_times goos_program 6 [fun _ => some (.arr [(1 : ℚ)])]
    (fun _ => some (.arr [10])) (by simpa using h21)
  have hh : handlers goosEnv 6 "array" = 2 := by decide +kernel
  refine ⟨_, _, r₁, r₂, h12, h21, hr₁, hr₂, rfl, rfl, ?_, ?_⟩
  · rw [h₁ "array" _ [.arr [10]] rfl rfl, hh]
    norm_num [Val.add, Val.addTimes]
  · rw [h₂ "array" _ [.arr [1]] rfl rfl, hh]
    norm_num [Val.add, Val.addTimes]

/-! ### The empty gradient object -/

theorem iaddVal_one_length [Add K] {x : K} {b v : Val K} (h : iaddVal (.arr [x]) b = .ok v) :
    (∃ y, v = .arr [y]) ∧ ∀ bs, b = .arr bs → bs.length = 1 := by
  cases b with
  | num b =>
    cases h
    exact ⟨⟨_, rfl⟩, fun bs h => by cases h⟩
  | arr bs =>
    simp only [iaddVal] at h
    split at h
    · rename_i hl
      have hl' : bs.length = 1 := hl.symm
      obtain ⟨b, rfl⟩ := List.length_eq_one_iff.1 hl'
      cases h
      exact ⟨⟨_, rfl⟩, fun bs h => by cases h; rfl⟩
    · split at h
      · rename_i hl
        simp at hl
      · cases h

/-- When a node returns `None` for an input, the executor stores an empty gradient `C.Grad()`
(`graph_executor.py` 303-305). If that happens first, adding a later gradient fails for every class
as soon as one of the added fields is an array with a number of elements other than one. -/
theorem empty_grad_first_false [Add K] [Zero K] (env : List FlowClass) (c : Nat) (v : Obj K)
    (f : String) (hf : f ∈ chain env (mroOf env c)) (bs : List K) (hv : v f = some (.arr bs))
    (hbs : bs.length ≠ 1) : ∃ e, gradIadd env c (defaultGrad env c) v = .error e := by
  unfold gradIadd
  rw [iaddMro_eq]
  have key : ∀ (fs : List String) (o : Obj K), f ∈ fs →
      (∀ g a, o g = some a → ∃ y, a = .arr [y]) → ∃ e, iaddFields v fs o = .error e := by
    intro fs
    induction fs with
    | nil => intro o hm; cases hm
    | cons g fs ih =>
      intro o hm ho
      unfold iaddFields
      split
      · rename_i a b ha hb
        obtain ⟨y, rfl⟩ := ho g a ha
        split
        · rename_i w hw
          obtain ⟨⟨z, rfl⟩, hlen⟩ := iaddVal_one_length hw
          rcases List.mem_cons.1 hm with rfl | hm
          · rw [hv] at hb
            cases hb
            exact absurd (hlen bs rfl) hbs
          · apply ih _ hm
            intro g' a' ha'
            unfold setField at ha'
            split at ha'
            · cases ha'
              exact ⟨z, rfl⟩
            · exact ho g' a' ha'
        · exact ⟨_, rfl⟩
      · exact ⟨_, rfl⟩
  refine key _ _ hf ?_
  intro g a ha
  unfold defaultGrad at ha
  split at ha
  · cases ha
    exact ⟨0, rfl⟩
  · cases ha

/-- Non-vacuity: a variable with two entries. -/
example : "array" ∈ chain goosEnv (mroOf goosEnv 1) ∧ [1, (2 : ℚ)].length ≠ 1 := by
  decide +kernel

/-! ### Fields declared again in a subclass -/

theorem putField_self (f : Field) : ∀ fs : List Field, f ∈ putField f fs
  | [] => List.mem_singleton.2 rfl
  | g :: gs => by
    unfold putField
    split
    · exact List.mem_cons_self
    · exact List.mem_cons_of_mem _ (putField_self f gs)

theorem putField_keeps {f g : Field} (h : g.name ≠ f.name) : ∀ fs : List Field, g ∈ fs →
    g ∈ putField f fs
  | [], hm => absurd hm (List.not_mem_nil)
  | a :: gs, hm => by
    unfold putField
    rcases List.mem_cons.1 hm with rfl | hm
    · rw [if_neg h]
      exact List.mem_cons_self
    · split
      · exact List.mem_cons_of_mem _ hm
      · exact List.mem_cons_of_mem _ (putField_keeps h gs hm)

/-- C77: the declaration in the class body wins over inherited ones. A class that declares a field
again as constant (or as varying) has that field, whatever its bases declare. -/
theorem own_field_wins (env : List FlowClass) (tl : List Nat) (own : List Field)
    (hn : (own.map Field.name).Nodup) (f : Field) (hf : f ∈ own) : f ∈ fieldsOf env tl own := by
  unfold fieldsOf
  generalize tl.reverse.foldl
    (fun acc b => putFields ((env[b]?.map FlowClass.fields).getD []) acc) [] = acc
  unfold putFields
  induction own generalizing acc with
  | nil => exact absurd hf List.not_mem_nil
  | cons g own ih =>
    rw [List.map_cons, List.nodup_cons] at hn
    rw [List.foldl_cons]
    rcases List.mem_cons.1 hf with rfl | hf
    · have keep : ∀ (l : List Field) (acc : List Field), (∀ g ∈ l, g.name ≠ f.name) → f ∈ acc →
          f ∈ l.foldl (fun a f => putField f a) acc := by
        intro l
        induction l with
        | nil => intro acc _ h; exact h
        | cons b l ihl =>
          intro acc hb h
          rw [List.foldl_cons]
          exact ihl _ (fun g hg => hb g (List.mem_cons_of_mem _ hg))
            (putField_keeps (Ne.symm (hb b List.mem_cons_self)) _ h)
      refine keep own _ ?_ (putField_self f acc)
      intro g hg hgf
      exact hn.1 (List.mem_map.2 ⟨g, hg, hgf⟩)
    · exact ih hn.2 hf _

/-- Non-vacuity: a field that is varying in the base and constant in the subclass. -/
example : fieldsOf [⟨"Base", [0], [⟨"a", false⟩], ["a"]⟩] [0] [⟨"a", true⟩] = [⟨"a", true⟩] := by
  decide +kernel

end Verif.Flow
