import Verif.Plan.ScipyInv
import Verif.Plan.ScipySpec
import Verif.Plan.ScipyProps
import Mathlib.Data.List.Basic
import Mathlib.Order.Basic
/-
C121: the optimizer of `spins.invdes` hands scipy the problem that was stated.
-/
namespace Verif.Plan.Inv
variable {P R F : Type}
open Verif.Plan
set_option linter.unusedSectionVars false
set_option linter.unusedVariables false

/-! Specification: the problem as a mathematician states it. -/

/-- Setting a vector forgets the vector that was set before. Holds for parametrizations whose state
is determined by the vector (and by fields that `from_vector` does not touch). -/
def Overwrites (w : World P R F) : Prop :=
  ∀ x y p p', w.fromVec p y = some p' → w.fromVec p' x = w.fromVec p x

/-- The stated problem, for scipy's sign convention (`g ≥ 0` instead of `g ≤ 0`): objective and
gradient at `x`, then the equality constraints, then the negated inequality constraints. -/
def stated [Neg R] (w : World P R F) (pr : Problem F) (p0 : P) (q : Query) (x : List R) :
    Option (List R) :=
  match q with
  | .fun_ => (w.fromVec p0 x).bind (w.val pr.obj)
  | .jac => (w.fromVec p0 x).bind (w.grd pr.obj)
  | .con i =>
    if h : i < pr.consEq.length then (w.fromVec p0 x).bind (w.val pr.consEq[i])
    else if h : i - pr.consEq.length < pr.consIneq.length then
      ((w.fromVec p0 x).bind (w.val pr.consIneq[i - pr.consEq.length])).map (List.map (fun r => -r))
    else none
  | .conJac i =>
    if h : i < pr.consEq.length then (w.fromVec p0 x).bind (w.grd pr.consEq[i])
    else if h : i - pr.consEq.length < pr.consIneq.length then
      ((w.fromVec p0 x).bind (w.grd pr.consIneq[i - pr.consEq.length])).map (List.map (fun r => -r))
    else none

/-- The client only uses functions it was given: a Jacobian only if the method needs it, constraints
only if the method accepts them. -/
def UsesGiven (m : String) : Client R → Prop
  | .raise => True
  | .finish _ => True
  | .callback _ k => UsesGiven m k
  | .call q _ k =>
    (match q with
      | .fun_ => True
      | .jac => needsJacobian m = true
      | .con _ => acceptsConstraints m = true
      | .conJac _ => acceptsConstraints m = true) ∧ ∀ r, UsesGiven m (k r)

/-- The client running against a mathematical problem `f`: the iterates passed to the callback, and
the vector it ends with (`none`: an exception). -/
def ideal (f : Query → List R → Option (List R)) : Client R → List (List R) × Option (List R)
  | .raise => ([], none)
  | .finish x => ([], some x)
  | .call q x k =>
    match f q x with
    | none => ([], none)
    | some r => ideal f (k r)
  | .callback x k => (x :: (ideal f k).1, (ideal f k).2)

/-- Every callback of the run against `f` is at the vector of the last query before it (`last`). -/
def CallbackAtLast (f : Query → List R → Option (List R)) : Client R → Option (List R) → Prop
  | .raise, _ => True
  | .finish _, _ => True
  | .call q x k, _ =>
    match f q x with
    | none => True
    | some r => CallbackAtLast f (k r) (some x)
  | .callback x k, last => last = some x ∧ CallbackAtLast f k last

/-- Numbering of log entries from `it + 1`. -/
def numbered : Nat → List P → List (Nat × P)
  | _, [] => []
  | it, p :: ps => (it + 1, p) :: numbered (it + 1) ps

/-! Answers. -/

theorem answer_stated [Neg R] (w : World P R F) (s : Settings R) (pr : Problem F) (p0 : P)
    (h1 : pr.consEq.length ≤ 1) (h2 : pr.consIneq.length ≤ 1) (q : Query) (x : List R)
    (hq : match q with
      | .fun_ => True
      | .jac => needsJacobian s.method = true
      | .con _ => acceptsConstraints s.method = true
      | .conJac _ => acceptsConstraints s.method = true) :
    (w.fromVec p0 x).bind (answer w s pr q) = stated w pr p0 q x := by
  have hc : ∀ i, (buildConstraints pr.consEq pr.consIneq).2[i]?.bind
      (Closure.target (buildConstraints pr.consEq pr.consIneq).1) =
      (intended pr.consEq pr.consIneq)[i]? :=
    fun i => constraint_callbacks_correct_partial pr.consEq pr.consIneq h1 h2 i
  have hi : ∀ i, (intended pr.consEq pr.consIneq)[i]? =
      if h : i < pr.consEq.length then some (pr.consEq[i], false)
      else if h : i - pr.consEq.length < pr.consIneq.length then
        some (pr.consIneq[i - pr.consEq.length], true) else none := by
    intro i
    unfold intended
    by_cases h : i < pr.consEq.length
    · simp [List.getElem?_append, h]
    · by_cases h' : i - pr.consEq.length < pr.consIneq.length
      · simp [List.getElem?_append, h, h']
      · simp [List.getElem?_append, h, h']
  cases hp : w.fromVec p0 x with
  | none =>
    cases q with
    | fun_ => simp [stated, hp]
    | jac => simp [stated, hp]
    | con i => simp only [stated, hp, Option.bind_none, Option.map_none]; split <;> simp
    | conJac i => simp only [stated, hp, Option.bind_none, Option.map_none]; split <;> simp
  | some p =>
  have hid : negIf (R := R) false = id := by funext l; simp [negIf]
  cases q with
  | fun_ => simp only [stated, hp, Option.bind_some]; rfl
  | jac => simp only [answer, stated, hp, Option.bind_some]; rw [if_pos hq]
  | con i =>
    simp only [answer, stated, hp, Option.bind_some]
    rw [if_pos hq, hc i, hi i]
    by_cases h : i < pr.consEq.length
    · simp only [h, dif_pos]
      rw [hid]; simp
    · by_cases h' : i - pr.consEq.length < pr.consIneq.length
      · simp only [h, h', dif_pos, dif_neg, not_false_eq_true]
        congr 1
      · simp only [h, h', dif_neg, not_false_eq_true]
  | conJac i =>
    simp only [answer, stated, hp, Option.bind_some]
    rw [if_pos hq, hc i, hi i]
    by_cases h : i < pr.consEq.length
    · simp only [h, dif_pos]
      rw [hid]; simp
    · by_cases h' : i - pr.consEq.length < pr.consIneq.length
      · simp only [h, h', dif_pos, dif_neg, not_false_eq_true]
        congr 1
      · simp only [h, h', dif_neg, not_false_eq_true]

/-- The state between two steps of the client: the initial parametrization or the initial one with
the last vector set. -/
def At (w : World P R F) (p0 : P) (last : Option (List R)) (p : P) : Prop :=
  match last with
  | none => p = p0
  | some x => w.fromVec p0 x = some p

theorem At.set {w : World P R F} (ho : Overwrites w) {p0 p : P} {last : Option (List R)}
    (h : At w p0 last p) (x : List R) : w.fromVec p x = w.fromVec p0 x := by
  cases last with
  | none => simp only [At] at h; rw [h]
  | some y => exact ho x y p0 p h

theorem stated_none [Neg R] (w : World P R F) (pr : Problem F) (p0 : P) (q : Query) (x : List R)
    (h : w.fromVec p0 x = none) : stated w pr p0 q x = none := by
  cases q <;> simp only [stated, h, Option.bind_none, Option.map_none] <;> split <;> simp

theorem serve_ends [Neg R] (w : World P R F) (s : Settings R) (pr : Problem F) (cb : Bool) (p0 : P)
    (ho : Overwrites w) (h1 : pr.consEq.length ≤ 1) (h2 : pr.consIneq.length ≤ 1) :
    ∀ (c : Client R), UsesGiven s.method c → ∀ (it : Nat) (p : P) (last : Option (List R))
      (lg : List (Nat × P)), At w p0 last p →
      ((serve w s pr cb c it p lg).raised = true ↔
        (ideal (stated w pr p0) c).2.bind (w.fromVec p0) = none) ∧
      (∀ p', (ideal (stated w pr p0) c).2.bind (w.fromVec p0) = some p' →
        (serve w s pr cb c it p lg).param = p') ∧
      (serve w s pr cb c it p lg).log.map Prod.fst =
        lg.map Prod.fst ++ (if cb then (List.range (ideal (stated w pr p0) c).1.length).map
          (fun i => it + 1 + i) else []) := by
  intro c
  induction c with
  | raise => intro _ it p last lg hp; simp [serve, ideal]
  | finish x =>
    intro _ it p last lg hp
    simp only [serve, ideal, hp.set ho x, Option.bind_some]
    cases hx : w.fromVec p0 x with
    | none => simp
    | some p' => simp
  | call q x k ih =>
    intro hu it p last lg hp
    simp only [UsesGiven] at hu
    have ha := answer_stated w s pr p0 h1 h2 q x hu.1
    simp only [serve, ideal, hp.set ho x]
    cases hx : w.fromVec p0 x with
    | none => simp [stated_none w pr p0 q x hx]
    | some p' =>
      rw [hx, Option.bind_some] at ha
      simp only [ha]
      cases hs : stated w pr p0 q x with
      | none => simp
      | some r => exact ih r (hu.2 r) it p' (some x) lg hx
  | callback x k ih =>
    intro hu it p last lg hp
    cases cb with
    | false =>
      simp only [serve, ideal]
      exact ih hu it p last lg hp
    | true =>
      simp only [serve, ideal, if_true]
      obtain ⟨a, b, d⟩ := ih hu (it + 1) p last (lg ++ [(it + 1, p)]) hp
      refine ⟨a, b, ?_⟩
      rw [d]
      simp only [List.map_append, List.map_cons, List.map_nil, if_true, List.append_assoc,
        List.length_cons, List.range_succ_eq_map, List.map_map]
      simp only [List.cons_append, List.nil_append, Nat.add_zero]
      congr 2
      apply List.map_congr_left
      intro i _
      simp only [Function.comp]
      omega

/-- **C121, the run.** With at most one constraint of each kind, whatever the library does: it sees
exactly the stated problem. The run raises iff the library, working on the stated problem, raises,
or ends with a vector that cannot be set. If it ends with `x`, the parametrization afterwards is the
initial one with `x` set. The log entries are numbered consecutively from the iteration that was
resumed, one for each callback.
Missing: more than one constraint of a kind (`stated_problem_false`). -/
theorem runs_stated_problem_partial [Neg R] (w : World P R F) (s : Settings R) (pr : Problem F)
    (cb : Bool) (scipy : Handed R → Client R) (it : Nat) (p0 : P) (ho : Overwrites w)
    (h1 : pr.consEq.length ≤ 1) (h2 : pr.consIneq.length ≤ 1)
    (hu : ∀ h, UsesGiven s.method (scipy h)) :
    let run := ideal (stated w pr p0) (scipy (handed w s pr p0))
    let r := optimize w s pr cb scipy it p0
    (r.raised = true ↔ run.2 = none ∨ ∃ x, run.2 = some x ∧ w.fromVec p0 x = none) ∧
    (∀ x p', run.2 = some x → w.fromVec p0 x = some p' → r.param = p') ∧
    (cb = true → r.log.map Prod.fst = (List.range run.1.length).map (fun i => it + 1 + i)) := by
  obtain ⟨a, b, d⟩ := serve_ends w s pr cb p0 ho h1 h2 (scipy (handed w s pr p0)) (hu _) it p0 none
    [] rfl
  refine ⟨?_, fun x p' hx hp => ?_, ?_⟩
  · unfold optimize
    rw [a]
    cases (ideal (stated w pr p0) (scipy (handed w s pr p0))).2 <;> simp
  · unfold optimize
    exact b p' (by rw [hx, Option.bind_some, hp])
  · intro hcb
    unfold optimize
    rw [d, hcb]
    simp

/-- Without callback monitors nothing is logged. -/
theorem no_callback_no_log [Neg R] (w : World P R F) (s : Settings R) (pr : Problem F)
    (scipy : Handed R → Client R) (it : Nat) (p0 : P) :
    (optimize w s pr false scipy it p0).log = [] := by
  have : ∀ (c : Client R) (it : Nat) (p : P) (lg : List (Nat × P)),
      (serve w s pr false c it p lg).log = lg := by
    intro c
    induction c with
    | raise => intros; rfl
    | finish x => intro it p lg; simp only [serve]; split <;> rfl
    | call q x k ih =>
      intro it p lg
      simp only [serve]
      split
      · rfl
      · split
        · rfl
        · exact ih _ _ _ _
    | callback x k ih => intro it p lg; simp only [serve]; exact ih _ _ _
  exact this _ _ _ _

theorem serve_log [Neg R] (w : World P R F) (s : Settings R) (pr : Problem F) (p0 : P)
    (ho : Overwrites w) (h1 : pr.consEq.length ≤ 1) (h2 : pr.consIneq.length ≤ 1) :
    ∀ (c : Client R), UsesGiven s.method c → ∀ (it : Nat) (p : P) (last : Option (List R))
      (lg : List (Nat × P)), At w p0 last p → CallbackAtLast (stated w pr p0) c last →
      (serve w s pr true c it p lg).log =
        lg ++ numbered it ((ideal (stated w pr p0) c).1.filterMap (w.fromVec p0)) := by
  intro c
  induction c with
  | raise => intro _ it p last lg hp hc; simp [serve, ideal, numbered]
  | finish x =>
    intro _ it p last lg hp hc
    simp only [serve, ideal]
    split <;> simp [numbered]
  | call q x k ih =>
    intro hu it p last lg hp hc
    simp only [UsesGiven] at hu
    have ha := answer_stated w s pr p0 h1 h2 q x hu.1
    simp only [CallbackAtLast] at hc
    simp only [serve, ideal, hp.set ho x]
    cases hx : w.fromVec p0 x with
    | none => simp [stated_none w pr p0 q x hx, numbered]
    | some p' =>
      rw [hx, Option.bind_some] at ha
      simp only [ha]
      cases hs : stated w pr p0 q x with
      | none => simp [numbered]
      | some r =>
        rw [hs] at hc
        exact ih r (hu.2 r) it p' (some x) lg hx hc
  | callback x k ih =>
    intro hu it p last lg hp hc
    obtain ⟨hl, hc⟩ := hc
    have hpx : w.fromVec p0 x = some p := by rw [hl] at hp; exact hp
    simp only [serve, ideal, if_true, List.filterMap_cons, hpx, numbered]
    rw [ih hu (it + 1) p last (lg ++ [(it + 1, p)]) hp hc]
    simp

theorem callbacks_settable [Neg R] (w : World P R F) (pr : Problem F) (p0 : P) :
    ∀ (c : Client R) (last : Option (List R)),
      (∀ x, last = some x → ∃ p, w.fromVec p0 x = some p) →
      CallbackAtLast (stated w pr p0) c last →
      ∀ x ∈ (ideal (stated w pr p0) c).1, ∃ p, w.fromVec p0 x = some p := by
  intro c
  induction c with
  | raise => intro last _ _ x hx; simp [ideal] at hx
  | finish y => intro last _ _ x hx; simp [ideal] at hx
  | call q y k ih =>
    intro last hl hc x hx
    simp only [CallbackAtLast] at hc
    simp only [ideal] at hx
    cases hs : stated w pr p0 q y with
    | none => rw [hs] at hx; simp at hx
    | some r =>
      rw [hs] at hc hx
      refine ih r (some y) (fun z hz => ?_) hc x hx
      cases hz
      cases hy : w.fromVec p0 y with
      | none => rw [stated_none w pr p0 q y hy] at hs; cases hs
      | some p => exact ⟨p, rfl⟩
  | callback y k ih =>
    intro last hl hc x hx
    obtain ⟨ha, hc⟩ := hc
    simp only [ideal, List.mem_cons] at hx
    rcases hx with rfl | hx
    · exact hl _ ha
    · exact ih last hl hc x hx

/-- **C121, the log.** The logged parametrizations are the iterates that scipy reported, all of which
can be set, if scipy reports an iterate only right after asking for a value or gradient there.
Missing: other methods (`logged_iterate_false`). -/
theorem logged_iterates_partial [Neg R] (w : World P R F) (s : Settings R) (pr : Problem F)
    (scipy : Handed R → Client R) (it : Nat) (p0 : P) (ho : Overwrites w)
    (h1 : pr.consEq.length ≤ 1) (h2 : pr.consIneq.length ≤ 1)
    (hu : ∀ h, UsesGiven s.method (scipy h))
    (hc : CallbackAtLast (stated w pr p0) (scipy (handed w s pr p0)) none) :
    let iterates := (ideal (stated w pr p0) (scipy (handed w s pr p0))).1
    (optimize w s pr true scipy it p0).log = numbered it (iterates.filterMap (w.fromVec p0)) ∧
    ∀ x ∈ iterates, ∃ p, w.fromVec p0 x = some p := by
  have := serve_log w s pr p0 ho h1 h2 (scipy (handed w s pr p0)) (hu _) it p0 none [] rfl hc
  rw [List.nil_append] at this
  exact ⟨this, callbacks_settable w pr p0 _ none (fun x hx => by cases hx) hc⟩

/-! What scipy is given. -/

/-- A Jacobian is given exactly for the seven methods that use one. -/
theorem jacobian_given [Neg R] (w : World P R F) (s : Settings R) (pr : Problem F) (p : P) :
    (handed w s pr p).jac = true ↔ s.method = "CG" ∨ s.method = "BFGS" ∨ s.method = "L-BFGS-B" ∨
      s.method = "TNC" ∨ s.method = "SLSQP" ∨ s.method = "dogleg" ∨ s.method = "trust-ncg" := by
  simp [handed, needsJacobian]

/-- The bounds: none unless the method is one of three; the bounds of the optimizer if it has any;
otherwise those of the parametrization, entry by entry. -/
theorem bounds_given [Neg R] (w : World P R F) (s : Settings R) (pr : Problem F) (p : P) :
    (¬ (s.method = "L-BFGS-B" ∨ s.method = "TNC" ∨ s.method = "SLSQP") →
      (handed w s pr p).bounds = none) ∧
    ((s.method = "L-BFGS-B" ∨ s.method = "TNC" ∨ s.method = "SLSQP") →
      (∀ b, s.bounds = some b → (handed w s pr p).bounds = some b) ∧
      (s.bounds = none → w.bounds p = none → (handed w s pr p).bounds = none) ∧
      (∀ lo hi, s.bounds = none → w.bounds p = some (lo, hi) → lo.length = hi.length →
        ∃ b, (handed w s pr p).bounds = some b ∧ b.length = lo.length ∧
          ∀ i (h : i < lo.length) (h' : i < hi.length), b[i]? = some (lo[i], hi[i]))) := by
  have ha : acceptsBounds s.method = true ↔
      (s.method = "L-BFGS-B" ∨ s.method = "TNC" ∨ s.method = "SLSQP") := by
    simp [acceptsBounds]
  refine ⟨fun h => ?_, fun h => ⟨fun b hb => ?_, fun hb hw => ?_, fun lo hi hb hw hl => ?_⟩⟩
  · have : acceptsBounds s.method = false := by
      rw [← Bool.not_eq_true, ha]; exact h
    simp [handed, boundsFor, this]
  · simp [handed, boundsFor, ha.2 h, hb]
  · simp [handed, boundsFor, ha.2 h, hb, hw]
  · refine ⟨lo.zip hi, ?_, by simp [hl], fun i h1 h2 => ?_⟩
    · simp [handed, boundsFor, ha.2 h, hb, hw]
    · simp [List.getElem?_zip_eq_some, h1, h2]

/-- Constraints are given exactly for the two methods that accept them: as many as were stated,
first the equalities, then the inequalities. For other methods the constraints are dropped. -/
theorem constraints_given [Neg R] (w : World P R F) (s : Settings R) (pr : Problem F) (p : P) :
    (s.method ≠ "SLSQP" → s.method ≠ "COBYLA" → (handed w s pr p).cons = none) ∧
    ((s.method = "SLSQP" ∨ s.method = "COBYLA") → (handed w s pr p).cons =
      some (List.replicate pr.consEq.length .eq ++ List.replicate pr.consIneq.length .ineq)) := by
  refine ⟨fun a b => ?_, fun h => ?_⟩
  · simp [handed, acceptsConstraints, a, b]
  · have : acceptsConstraints s.method = true := by
      rcases h with h | h <;> rw [h] <;> decide
    simp only [handed, this, if_true, buildConstraints_spec]

/-- The start vector is the vector of the parametrization; method, tolerance and options are those of the optimizer. -/
theorem start_vector [Neg R] (w : World P R F) (s : Settings R) (pr : Problem F) (p : P) :
    (handed w s pr p).x0 = w.toVec p ∧ (handed w s pr p).method = s.method ∧ (handed w s pr p).tol = s.tol ∧
    (handed w s pr p).options = s.options := ⟨rfl, rfl, rfl, rfl⟩

/-- A tolerance among the options is handed over as the tolerance and not as an option; the other
options are kept in order. -/
theorem tol_moved (m : String) (tol : Option R) (options : List (String × R))
    (b : Option (List (Option R × Option R))) :
    (∀ pre v post, options = pre ++ ("tol", v) :: post → (∀ e ∈ pre, e.1 ≠ "tol") →
      (Settings.init m tol options b).tol = some v) ∧
    ((∀ e ∈ options, e.1 ≠ "tol") → (Settings.init m tol options b).tol = tol) ∧
    (Settings.init m tol options b).options = options.filter (fun e => e.1 ≠ "tol") ∧
    (Settings.init m tol options b).method = m ∧ (Settings.init m tol options b).bounds = b := by
  have hnone : options.find? (fun e => e.1 = "tol") = none → ∀ e ∈ options, e.1 ≠ "tol" := by
    intro h e he
    have := List.find?_eq_none.1 h e he
    simpa using this
  refine ⟨fun pre v post ho hp => ?_, fun h => ?_, ?_, ?_, ?_⟩
  · have : options.find? (fun e => e.1 = "tol") = some ("tol", v) := by
      rw [ho, List.find?_append]
      have : pre.find? (fun e => e.1 = "tol") = none := by
        rw [List.find?_eq_none]
        intro e he
        simpa using hp e he
      rw [this]
      simp
    simp [Settings.init, this]
  · have : options.find? (fun e => e.1 = "tol") = none := by
      rw [List.find?_eq_none]
      intro e he
      simpa using h e he
    simp [Settings.init, this]
  · unfold Settings.init
    split
    · rfl
    · rename_i h
      exact (List.filter_eq_self.2 (fun e he => by simpa using hnone h e he)).symm
  · unfold Settings.init; split <;> rfl
  · unfold Settings.init; split <;> rfl

/-! Concrete cases. -/

/-- One number as parametrization, functions `x ↦ c · x` with gradient `c`. -/
def world1 : World Int Int Int where
  fromVec _ x := x.head?
  toVec p := [p]
  bounds _ := some ([some 0], [some 9])
  val c p := some [c * p]
  grd c _ := some [c]

/-- A method in the manner of BFGS or SLSQP: value and gradient at the start, a trial step too far,
a second trial step, a callback at the accepted point. -/
def goodClient (h : Handed Int) : Client Int :=
  .call .fun_ h.x0 fun _ => .call .jac h.x0 fun g =>
    .call .fun_ [h.x0.headD 0 - 2 * g.headD 0] fun _ =>
      .call .fun_ [h.x0.headD 0 - g.headD 0] fun _ =>
        .callback [h.x0.headD 0 - g.headD 0] (.finish [h.x0.headD 0 - g.headD 0])

/-- A method in the manner of Nelder-Mead or COBYLA: it tries a point, rejects it, and reports the
best point so far. -/
def simplexClient (h : Handed Int) : Client Int :=
  .call .fun_ h.x0 fun _ => .call .fun_ [h.x0.headD 0 + 5] fun _ =>
    .callback h.x0 (.finish h.x0)

example : Overwrites world1 := fun _ _ _ _ _ => rfl
example : ∀ h, UsesGiven "BFGS" (goodClient h) := by
  intro h
  refine ⟨trivial, fun _ => ⟨by decide, fun _ => ⟨trivial, fun _ => ⟨trivial, fun _ => ?_⟩⟩⟩⟩
  exact trivial
example : ∀ h, UsesGiven "Nelder-Mead" (simplexClient h) := by
  intro h
  exact ⟨trivial, fun _ => ⟨trivial, fun _ => trivial⟩⟩
example : CallbackAtLast (stated world1 ⟨3, [], []⟩ 7)
    (goodClient (handed world1 ⟨"BFGS", [], none, none⟩ ⟨3, [], []⟩ 7)) none := by
  refine ⟨?_, trivial⟩
  rfl
example : optimize world1 ⟨"BFGS", [], none, none⟩ ⟨3, [], []⟩ true goodClient 0 7 =
    ⟨4, [(1, 4)], false⟩ := by decide
example : (handed world1 ⟨"SLSQP", [], none, none⟩ ⟨3, [], []⟩ 7).bounds =
    some [(some 0, some 9)] := by decide
example : (Settings.init "BFGS" none [("maxiter", 5), ("tol", 2)] none : Settings Int).options =
    [("maxiter", 5)] := by decide

/-- The full claim about the log: whatever method is used, the logged parametrizations are the
iterates. -/
def logged_iterates_full : Prop :=
  ∀ (w : World Int Int Int) (s : Settings Int) (pr : Problem Int)
    (scipy : Handed Int → Client Int) (it : Nat) (p0 : Int), Overwrites w →
    pr.consEq = [] → pr.consIneq = [] → (∀ h, UsesGiven s.method (scipy h)) →
    (optimize w s pr true scipy it p0).log =
      numbered it ((ideal (stated w pr p0) (scipy (handed w s pr p0))).1.filterMap (w.fromVec p0))

/-- A method that reports an iterate other than the last point tried gets the wrong
parametrization logged: the callback does not set the iterate it is given. (The action of `goos`
does: `Verif.Plan.serve`.) -/
theorem logged_iterate_false : ¬ logged_iterates_full := by
  intro h
  have := h world1 ⟨"Nelder-Mead", [], none, none⟩ ⟨3, [], []⟩ simplexClient 0 7
    (fun _ _ _ _ _ => rfl) rfl rfl
    (fun _ => ⟨trivial, fun _ => ⟨trivial, fun _ => trivial⟩⟩)
  revert this
  decide

/-- The full claim about the run, without a limit on the number of constraints. -/
def stated_problem_full : Prop :=
  ∀ (w : World Int Int Int) (s : Settings Int) (pr : Problem Int)
    (scipy : Handed Int → Client Int) (it : Nat) (p0 : Int), Overwrites w →
    (∀ h, UsesGiven s.method (scipy h)) →
    ∀ x p', (ideal (stated w pr p0) (scipy (handed w s pr p0))).2 = some x →
      w.fromVec p0 x = some p' → (optimize w s pr true scipy it p0).param = p'

/-- With two equality constraints, a library that ends with the value of the first one ends with
the value of the second. -/
theorem stated_problem_false : ¬ stated_problem_full := by
  intro h
  have := h world1 ⟨"SLSQP", [], none, none⟩ ⟨3, [10, 20], []⟩
    (fun _ => .call (.con 0) [1] fun r => .finish r) 0 7
    (fun _ _ _ _ _ => rfl) (fun _ => ⟨by show acceptsConstraints "SLSQP" = true; decide, fun _ => trivial⟩)
    [10] 10 (by decide) (by decide)
  revert this
  decide

/-- With a method that does not accept constraints the answer may violate them: what the library is
given does not depend on the constraints. -/
theorem constraints_ignored [Neg R] (w : World P R F) (s : Settings R) (obj : F)
    (es is es' is' : List F) (cb : Bool) (scipy : Handed R → Client R) (it : Nat) (p : P)
    (h : s.method ≠ "SLSQP") (h' : s.method ≠ "COBYLA") :
    optimize w s ⟨obj, es, is⟩ cb scipy it p = optimize w s ⟨obj, es', is'⟩ cb scipy it p := by
  have ha : acceptsConstraints s.method = false := by simp [acceptsConstraints, h, h']
  have hq : ∀ q p, answer w s ⟨obj, es, is⟩ q p = answer w s ⟨obj, es', is'⟩ q p := by
    intro q p
    cases q <;> simp [answer, ha]
  have hh : handed w s ⟨obj, es, is⟩ p = handed w s ⟨obj, es', is'⟩ p := by
    simp [handed, ha]
  have : ∀ (c : Client R) (it : Nat) (p : P) (lg : List (Nat × P)),
      serve w s ⟨obj, es, is⟩ cb c it p lg = serve w s ⟨obj, es', is'⟩ cb c it p lg := by
    intro c
    induction c with
    | raise => intros; rfl
    | finish x => intros; rfl
    | call q x k ih =>
      intro it p lg
      simp only [serve, hq]
      split
      · rfl
      · split
        · rfl
        · exact ih _ _ _ _
    | callback x k ih => intro it p lg; simp only [serve, ih]
  unfold optimize
  rw [hh]
  exact this _ _ _ _

end Verif.Plan.Inv
