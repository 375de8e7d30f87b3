import Verif.Plan.ScipyInvProps
import Verif.Opt.Param
import Verif.Cubic.Param
import Verif.Cubic.Hermite
import Verif.Grating.Param
/-
C121: the hypothesis `Overwrites` for the parametrizations of the library. Setting a vector leaves
nothing of the vector that was set before.
-/
namespace Verif.Plan.Inv
open Verif.Plan Verif.Opt Verif.Cubic Verif.Grating

variable {P F : Type}

/-- The world of a class of parametrizations (parametrization.py 58-97) and of functions with these
values and gradients. `to_vector` is only called on objects on which it does not raise. -/
def worldOf (m : Methods P) (val grd : F → P → Option (List ℝ)) : World P ℝ F where
  fromVec := m.fromVector
  toVec p := (m.toVector p).getD []
  bounds p := (m.getBounds p).map fun b => (b.1.entries, b.2.entries)
  val := val
  grd := grd

theorem direct_overwrites (val grd : F → Direct → Option (List ℝ)) :
    Overwrites (worldOf directMethods val grd) := by
  intro x y p p' h
  simp only [worldOf, Methods.fromVector, directMethods, Option.bind_some, Direct.project] at h ⊢
  split at h
  · cases h
    rfl
  · cases h

theorem direct_project_twice (p p' : Direct) (h : p.project = some p') : p'.project = some p' := by
  simp only [Direct.project] at h ⊢
  split at h
  · rename_i hl
    obtain ⟨h1, h2⟩ := hl
    cases h
    simp only [List.length_zipWith, List.length_zip, h1, h2, min_self, if_true,
      Option.some.injEq, Direct.mk.injEq, and_true]
    apply List.ext_getElem
    · simp [h1, h2]
    · intro i hi hj
      simp only [List.getElem_zipWith, List.getElem_zip]
      generalize p.vector[i]'_ = a
      generalize p.lower.entries[i]'_ = l
      generalize p.upper.entries[i]'_ = u
      cases l <;> cases u <;> simp only [clip1]
      · rw [min_assoc, min_self]
      · rw [max_assoc, max_self]
      · rename_i l u
        rcases le_total (max a l) u with hu | hu
        · rw [min_eq_left hu, max_eq_left (le_max_right a l), min_eq_left hu]
        · rw [min_eq_right hu]
          exact min_eq_right (le_max_left u l)
  · cases h

theorem forAll_append {α β : Type} (f : α → Option β) (a b : List α) :
    forAll f (a ++ b) = (forAll f a).bind fun s => (forAll f b).map (s ++ ·) := by
  induction a with
  | nil => cases h : forAll f b <;> simp [forAll, h]
  | cons x l ih =>
    simp only [List.cons_append, forAll, ih]
    cases f x <;> cases forAll f l <;> cases forAll f b <;> simp

theorem forAll_length {α β : Type} (f : α → Option β) (a : List α) (b : List β)
    (h : forAll f a = some b) : b.length = a.length := by
  induction a generalizing b with
  | nil => simp [forAll] at h; subst h; rfl
  | cons x l ih =>
    simp only [forAll] at h
    cases hx : f x with
    | none => simp [hx] at h
    | some y =>
      cases hl : forAll f l with
      | none => simp [hx, hl] at h
      | some bs =>
        simp only [hx, hl, Option.bind_some, Option.map_some, Option.some.injEq] at h
        subst h
        simp [ih bs hl]

/-- Decoding and then projecting every component is setting every component. -/
theorem forAll_decode_project (m : Methods P) (l : List (P × List ℝ)) :
    ((forAll (fun q : P × List ℝ => m.decode q.1 q.2) l).bind (forAll m.project)) =
      forAll (fun q : P × List ℝ => m.fromVector q.1 q.2) l := by
  induction l with
  | nil => simp [forAll]
  | cons q l ih =>
    simp only [forAll, Methods.fromVector]
    cases hd : m.decode q.1 q.2 with
    | none => simp
    | some p =>
      simp only [Option.bind_some]
      rw [show (fun q : P × List ℝ => (m.decode q.1 q.2).bind m.project) =
        fun q : P × List ℝ => m.fromVector q.1 q.2 from rfl, ← ih]
      cases forAll (fun q : P × List ℝ => m.decode q.1 q.2) l with
      | none => cases m.project p <;> simp
      | some ps => simp [forAll]

theorem composite_fromVector (m : Methods P) (c : Composite P) (v : List ℝ) :
    (compositeMethods m).fromVector c v =
      (forAll (fun q : P × List ℝ => m.fromVector q.1 q.2)
        (c.params.zip (splitVector v c.sizes))).bind fun ps =>
      (forAll m.project (c.params.drop (splitVector v c.sizes).length)).map fun rs =>
        ⟨ps ++ rs, c.sizes⟩ := by
  rw [← forAll_decode_project]
  simp only [Methods.fromVector, compositeMethods, Composite.decode, Composite.project]
  have hd : c.params.drop (c.params.zip (splitVector v c.sizes)).length =
      c.params.drop (splitVector v c.sizes).length := by
    rw [List.length_zip]
    rcases le_total c.params.length (splitVector v c.sizes).length with h | h
    · rw [min_eq_left h, List.drop_length, List.drop_of_length_le h]
    · rw [min_eq_right h]
  rw [hd]
  cases forAll (fun q : P × List ℝ => m.decode q.1 q.2)
    (c.params.zip (splitVector v c.sizes)) with
  | none => simp
  | some ps =>
    simp only [Option.map_some, Option.bind_some]
    have : Composite.project m ⟨ps ++ c.params.drop (splitVector v c.sizes).length, c.sizes⟩ =
        (forAll m.project (ps ++ c.params.drop (splitVector v c.sizes).length)).map
          fun qs => ⟨qs, c.sizes⟩ := rfl
    rw [this, forAll_append]
    cases forAll m.project ps with
    | none => simp
    | some s =>
      cases forAll m.project (c.params.drop (splitVector v c.sizes).length) <;> simp

theorem npSplit_length {α : Type} (v : List α) (s : Nat) (l : List Nat) :
    (npSplit v s l).length = l.length + 1 := by
  induction l generalizing s with
  | nil => simp [npSplit]
  | cons i l ih => simp [npSplit, ih]

theorem split_length {α β : Type} (v : List α) (u : List β) (sizes : List Nat) :
    (splitVector v sizes).length = (splitVector u sizes).length := by
  simp [splitVector, npSplit_length]

theorem forAll_overwrites (m : Methods P)
    (hm : ∀ x y p p', m.fromVector p y = some p' → m.fromVector p' x = m.fromVector p x) :
    ∀ (ps : List P) (ys xs : List (List ℝ)) (ps' : List P), ys.length = xs.length →
      forAll (fun q : P × List ℝ => m.fromVector q.1 q.2) (ps.zip ys) = some ps' →
      forAll (fun q : P × List ℝ => m.fromVector q.1 q.2) (ps'.zip xs) =
        forAll (fun q : P × List ℝ => m.fromVector q.1 q.2) (ps.zip xs) := by
  intro ps
  induction ps with
  | nil => intro ys xs ps' _ h; simp [forAll] at h; subst h; simp
  | cons p ps ih =>
    intro ys xs ps' hl h
    cases ys with
    | nil =>
      cases xs with
      | nil => simp
      | cons x xs => simp at hl
    | cons y ys =>
      cases xs with
      | nil => simp at hl
      | cons x xs =>
        simp only [List.zip_cons_cons, forAll] at h ⊢
        cases hy : m.fromVector p y with
        | none => simp [hy] at h
        | some p' =>
          cases hr : forAll (fun q : P × List ℝ => m.fromVector q.1 q.2) (ps.zip ys) with
          | none => simp [hy, hr] at h
          | some qs =>
            simp only [hy, hr, Option.bind_some, Option.map_some, Option.some.injEq] at h
            subst h
            simp only [List.zip_cons_cons, forAll]
            rw [hm x y p p' hy, ih ys xs qs (by simpa using hl) hr]

theorem forAll_project_twice (m : Methods P)
    (hp : ∀ p p', m.project p = some p' → m.project p' = some p') :
    ∀ (l r : List P), forAll m.project l = some r → forAll m.project r = some r := by
  intro l
  induction l with
  | nil => intro r h; simp [forAll] at h; subst h; simp [forAll]
  | cons p l ih =>
    intro r h
    simp only [forAll] at h
    cases hq : m.project p with
    | none => simp [hq] at h
    | some q =>
      cases hl : forAll m.project l with
      | none => simp [hq, hl] at h
      | some s =>
        simp only [hq, hl, Option.bind_some, Option.map_some, Option.some.injEq] at h
        subst h
        simp [forAll, hp p q hq, ih s hl]

/-- A composite overwrites if its components do. -/
theorem composite_overwrites (m : Methods P)
    (hm : ∀ x y p p', m.fromVector p y = some p' → m.fromVector p' x = m.fromVector p x)
    (hp : ∀ p p', m.project p = some p' → m.project p' = some p')
    (val grd : F → Composite P → Option (List ℝ)) :
    Overwrites (worldOf (compositeMethods m) val grd) := by
  intro x y c c' h
  simp only [worldOf] at h ⊢
  rw [composite_fromVector] at h
  cases h1 : forAll (fun q : P × List ℝ => m.fromVector q.1 q.2)
      (c.params.zip (splitVector y c.sizes)) with
  | none => simp [h1] at h
  | some ps =>
    cases h2 : forAll m.project (c.params.drop (splitVector y c.sizes).length) with
    | none => simp [h1, h2] at h
    | some rs =>
      simp only [h1, h2, Option.bind_some, Option.map_some, Option.some.injEq] at h
      subst h
      have hl := split_length y x c.sizes
      have hps := forAll_length _ _ _ h1
      rw [List.length_zip, hl] at hps
      rw [composite_fromVector, composite_fromVector]
      simp only
      rw [hl] at h2
      have hrs := forAll_length _ _ _ h2
      rw [List.length_drop] at hrs
      rcases le_total c.params.length (splitVector x c.sizes).length with hle | hle
      · have : rs = [] := List.eq_nil_of_length_eq_zero (by omega)
        subst this
        rw [List.append_nil, forAll_overwrites m hm c.params _ _ ps hl h1,
          List.drop_of_length_le hle, List.drop_of_length_le (by rw [hps]; exact min_le_right _ _)]
      · have hk : ps.length = (splitVector x c.sizes).length := by rw [hps, min_eq_right hle]
        have hz : (ps ++ rs).zip (splitVector x c.sizes) = ps.zip (splitVector x c.sizes) := by
          have := List.zip_append (l₁ := ps) (r₁ := rs) (l₂ := splitVector x c.sizes) (r₂ := [])
            hk
          rw [List.append_nil] at this
          rw [this]
          simp
        rw [hz, forAll_overwrites m hm c.params _ _ ps hl h1, ← hk,
          List.drop_left, hk, h2, forAll_project_twice m hp _ _ h2]

/-- Slack variables are overwritten with the rest. -/
theorem slack_overwrites (m : Methods P)
    (hm : ∀ x y p p', m.fromVector p y = some p' → m.fromVector p' x = m.fromVector p x)
    (val grd : F → Slack P → Option (List ℝ)) :
    Overwrites (worldOf (slackMethods m) val grd) := by
  have key : ∀ (s : Slack P) (v : List ℝ), (slackMethods m).fromVector s v =
      if 0 < s.num then (m.fromVector s.param (v.take (v.length - s.num))).map fun p =>
        { s with param := p, slack := v.drop (v.length - s.num) }
      else (m.fromVector s.param v).map fun p => { s with param := p } := by
    intro s v
    simp only [Methods.fromVector, slackMethods, Slack.decode, Slack.project]
    split
    · cases m.decode s.param (v.take (v.length - s.num)) <;> rfl
    · cases m.decode s.param v <;> rfl
  intro x y s s' h
  simp only [worldOf] at h ⊢
  rw [key] at h
  rw [key, key]
  split at h
  · rename_i hn
    cases hy : m.fromVector s.param (y.take (y.length - s.num)) with
    | none => simp [hy] at h
    | some p =>
      simp only [hy, Option.map_some, Option.some.injEq] at h
      subst h
      simp only [hn, if_true]
      rw [hm _ _ _ _ hy]
  · rename_i hn
    cases hy : m.fromVector s.param y with
    | none => simp [hy] at h
    | some p =>
      simp only [hy, Option.map_some, Option.some.injEq] at h
      subst h
      simp only [hn, if_false]
      rw [hm _ _ _ _ hy]

/-- `CubicParam`, parametrization.py 256-267. -/
noncomputable def cubicMethods : Methods CubicParam where
  encode p := some p.toVector
  decode p v := some (p.decode v)
  project p := some p.project
  getBounds p := some (.tuple (p.getBounds.1.map some), .tuple (p.getBounds.2.map some))

theorem cubic_overwrites (val grd : F → CubicParam → Option (List ℝ)) :
    Overwrites (worldOf cubicMethods val grd) := by
  intro x y p p' h
  simp only [worldOf, Methods.fromVector, cubicMethods, Option.bind_some, Option.some.injEq] at h ⊢
  subst h
  rfl

/-- C121: the bounds scipy is given for a `CubicParam`, with a method that takes bounds: its lower and upper bound for every entry. -/
theorem cubic_bounds_given (val grd : F → CubicParam → Option (List ℝ)) (s : Settings ℝ) (pr : Problem F) (p : CubicParam)
    (hs : s.bounds = none) (hm : s.method = "L-BFGS-B" ∨ s.method = "TNC" ∨ s.method = "SLSQP") :
    (handed (worldOf cubicMethods val grd) s pr p).bounds =
      some (List.replicate p.vector.length (some p.lower, some p.upper)) := by
  have ha : acceptsBounds s.method = true := by rcases hm with h | h | h <;> rw [h] <;> decide
  simp [handed, boundsFor, ha, hs, worldOf, cubicMethods, CubicParam.getBounds, Side.entries]

/-- `HermiteParam`, parametrization.py 443-462; `get_bounds` is that of `Parametrization`, 58-65. -/
noncomputable def hermiteMethods : Methods HermiteParam where
  encode p := some p.toVector
  decode p v := (p.decode (.array v)).toOption
  project p := some p.project
  getBounds _ := none

theorem hermite_overwrites (val grd : F → HermiteParam → Option (List ℝ)) :
    Overwrites (worldOf hermiteMethods val grd) := by
  have key : ∀ (p q : HermiteParam) (y x : List ℝ) (u : List ℝ), q = { p with vector := u } →
      (q.decode (.array x)).toOption.bind (fun r => some r.project) =
      (p.decode (.array x)).toOption.bind (fun r => some r.project) := by
    intro p q y x u hq
    subst hq
    simp only [HermiteParam.decode]
  intro x y p p' h
  simp only [worldOf, Methods.fromVector, hermiteMethods] at h ⊢
  have hu : ∃ u, p' = { p with vector := u } := by
    simp only [HermiteParam.decode] at h
    split at h
    · simp only [Except.toOption, Option.bind_some, Option.some.injEq] at h
      exact ⟨_, h.symm⟩
    · split at h
      · cases hv : matVec p.reverse y with
        | error e => simp [hv, Except.toOption] at h
        | ok v =>
          simp only [hv, Except.toOption, Option.bind_some, Option.some.injEq] at h
          exact ⟨_, h.symm⟩
      · simp [Except.toOption] at h
  obtain ⟨u, hu⟩ := hu
  exact key p p' y x u hu

/-- C121: scipy is not given the bounds of a `HermiteParam`, with any method, although its vector is
clipped to them. Only bounds given to the optimizer are handed over. -/
theorem hermite_bounds_not_given (val grd : F → HermiteParam → Option (List ℝ)) (s : Settings ℝ)
    (pr : Problem F) (p : HermiteParam) (hs : s.bounds = none) :
    (handed (worldOf hermiteMethods val grd) s pr p).bounds = none := by
  simp [handed, boundsFor, worldOf, hermiteMethods, hs]

/-- A clipped vector: bounds 0 and 1, vector 2. -/
example (g r d v : SpMat ℝ) : (HermiteParam.project ⟨g, r, d, v, [2], 4, 0, 1⟩).vector = [1] := by
  simp [HermiteParam.project]

/-- `GratingParam`, grating_parametrization.py 179-194; it does not project and has no bounds
(parametrization.py 58-75). -/
noncomputable def gratingMethods : Methods GratingParam where
  encode p := some p.encode
  decode p v := some (p.decode v)
  project := some
  getBounds _ := none

theorem grating_overwrites (val grd : F → GratingParam → Option (List ℝ)) :
    Overwrites (worldOf gratingMethods val grd) := by
  intro x y p p' h
  simp only [worldOf, Methods.fromVector, gratingMethods, Option.bind_some, Option.some.injEq] at h ⊢
  subst h
  rfl

/-- **C121 for `GratingParam`**: at most one constraint of each kind; the grating ends with the edges that scipy, working on the stated
problem, ends with, in increasing order. They are not clipped. -/
theorem grating_result_partial (val grd : F → GratingParam → Option (List ℝ)) (s : Settings ℝ) (pr : Problem F) (cb : Bool)
    (scipy : Handed ℝ → Client ℝ) (it : Nat) (p0 : GratingParam) (h1 : pr.consEq.length ≤ 1) (h2 : pr.consIneq.length ≤ 1)
    (hu : ∀ h, UsesGiven s.method (scipy h)) (x : List ℝ)
    (hx : (ideal (stated (worldOf gratingMethods val grd) pr p0)
      (scipy (handed (worldOf gratingMethods val grd) s pr p0))).2 = some x) :
    let r := optimize (worldOf gratingMethods val grd) s pr cb scipy it p0
    r.raised = false ∧ r.param.edges.Perm x ∧ r.param.edges.Pairwise (· ≤ ·) ∧ r.param.numPixels = p0.numPixels ∧
      r.param.inverted = p0.inverted := by
  obtain ⟨a, b, -⟩ := runs_stated_problem_partial (worldOf gratingMethods val grd) s pr cb scipy it p0
    (grating_overwrites val grd) h1 h2 hu
  intro r
  have hr : r.param = p0.decode x := b x _ hx rfl
  refine ⟨?_, by rw [hr]; exact List.mergeSort_perm _ _, ?_, by rw [hr]; rfl, by rw [hr]; rfl⟩
  swap
  · rw [hr]
    have := List.pairwise_mergeSort (le := fun a b : ℝ => decide (a ≤ b)) (by intro a b c h1 h2; simp at *; linarith)
      (by intro a b; simp; exact le_total a b) x
    refine List.Pairwise.imp ?_ this
    intro a b h
    simpa using h
  cases hc : r.raised with
  | false => rfl
  | true =>
    rcases a.1 hc with hn | ⟨z, hz, hn⟩
    · rw [hx] at hn; cases hn
    · cases hn

/-- **C121 for `DirectParam`.** Bounds of the right lengths, at most one constraint of each kind: if
scipy, working on the stated problem, ends with `x` of the length of the initial vector, then the
run does not raise, the bounds are as before and the vector is `x` clipped to them. -/
theorem direct_result_partial (val grd : F → Direct → Option (List ℝ)) (s : Settings ℝ)
    (pr : Problem F) (cb : Bool) (scipy : Handed ℝ → Client ℝ) (it : Nat) (p0 : Direct)
    (h1 : pr.consEq.length ≤ 1) (h2 : pr.consIneq.length ≤ 1)
    (hu : ∀ h, UsesGiven s.method (scipy h))
    (hlo : p0.lower.entries.length = p0.vector.length)
    (hup : p0.upper.entries.length = p0.vector.length) (x : List ℝ)
    (hx : (ideal (stated (worldOf directMethods val grd) pr p0)
      (scipy (handed (worldOf directMethods val grd) s pr p0))).2 = some x)
    (hl : x.length = p0.vector.length) :
    let r := optimize (worldOf directMethods val grd) s pr cb scipy it p0
    r.raised = false ∧ r.param.lower = p0.lower ∧ r.param.upper = p0.upper ∧
    r.param.vector.length = p0.vector.length ∧
    ∀ i (hi : i < p0.vector.length), r.param.vector[i]? =
      some (clip1 (x[i]'(by omega)) (p0.lower.entries[i]'(by omega))
        (p0.upper.entries[i]'(by omega))) := by
  obtain ⟨a, b, -⟩ := runs_stated_problem_partial (worldOf directMethods val grd) s pr cb scipy it p0
    (direct_overwrites val grd) h1 h2 hu
  have hf : (worldOf directMethods val grd).fromVec p0 x = some
      ⟨List.zipWith (fun (x : ℝ) (b : Option ℝ × Option ℝ) => clip1 x b.1 b.2) x
        (p0.lower.entries.zip p0.upper.entries), p0.lower, p0.upper⟩ := by
    simp only [worldOf, Methods.fromVector, directMethods, Option.bind_some, Direct.project]
    rw [if_pos ⟨by omega, by omega⟩]
  have hp := b x _ hx hf
  intro r
  have hr : r.param = _ := hp
  refine ⟨?_, by rw [hr], by rw [hr], by rw [hr]; simp [hlo, hup, hl], fun i hi => ?_⟩
  · cases hc : r.raised with
    | false => rfl
    | true =>
      rcases a.1 hc with hn | ⟨z, hz, hn⟩
      · rw [hx] at hn; cases hn
      · rw [hx] at hz; cases hz; rw [hf] at hn; cases hn
  · rw [hr]
    rw [List.getElem?_eq_getElem (by simp [hlo, hup, hl, hi])]
    simp

/-- The hypotheses hold for a parametrization with bounds and an optimizer that asks once and ends
outside the bounds. -/
example : let p0 := mkDirect [0, 0] (some (.number 0, .number 1))
    let scipy : Handed ℝ → Client ℝ := fun _ => .call .fun_ [3, -1] fun _ => .finish [3, -1]
    p0.lower.entries.length = p0.vector.length ∧ p0.upper.entries.length = p0.vector.length ∧
    (∀ h, UsesGiven "L-BFGS-B" (scipy h)) ∧
    (ideal (stated (worldOf directMethods (fun (_ : Unit) p => some p.vector) fun _ p => some p.vector)
      ⟨(), [], []⟩ p0) (scipy ⟨[], true, none, "", [], none, none⟩)).2 = some [3, -1] := by
  refine ⟨rfl, rfl, fun h => ⟨trivial, fun _ => trivial⟩, ?_⟩
  simp [ideal, stated, worldOf, Methods.fromVector, directMethods, Direct.project, mkDirect,
    expandBound, Side.entries]

/-- A composite of direct parametrizations overwrites. -/
example (val grd : F → Composite Direct → Option (List ℝ)) :
    Overwrites (worldOf (compositeMethods directMethods) val grd) :=
  composite_overwrites directMethods (direct_overwrites (F := Unit) (fun _ _ => none) fun _ _ => none)
    direct_project_twice val grd

example (val grd : F → Slack CubicParam → Option (List ℝ)) :
    Overwrites (worldOf (slackMethods cubicMethods) val grd) :=
  slack_overwrites cubicMethods (cubic_overwrites (F := Unit) (fun _ _ => none) fun _ _ => none) val grd

end Verif.Plan.Inv
