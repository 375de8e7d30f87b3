import Verif.Sim.Threads
import Mathlib.Data.List.Nodup
import Mathlib.Data.List.Induction
import Mathlib.Data.List.Perm.Subperm
import Mathlib.Tactic.ByContra
import Mathlib.Algebra.Order.Group.Nat
/-
Property C120: threads may share a simulation.
-/
namespace Verif.Sim.Threads

variable {Z V : Type} [DecidableEq Z]

/-! ### Specification -/

/-- How a call has to end. -/
def outcome (solve : Z → Option V) (z : Z) : Out V :=
  match solve z with
  | some f => .value f
  | none => .solverError

/-- How the calls of a thread have to end: one after the other, until the solver fails. -/
def expected (solve : Z → Option V) : List Z → List (Z × Out V)
  | [] => []
  | z :: zs =>
    match solve z with
    | some f => (z, .value f) :: expected solve zs
    | none => [(z, .solverError)]

/-- The thread has nothing more to do. -/
def Th.finished (th : Th Z V) : Prop := th.pc = .idle ∧ (th.todo = [] ∨ ∃ o ∈ th.outs, o.2.isValue = false)

/-- The number of turns that are not lost. -/
def turns (locked : Bool) (solve : Z → Option V) (s : Sys Z V) : List Nat → Nat
  | [] => 0
  | t :: ts =>
    match step locked solve s t with
    | none => turns locked solve s ts
    | some s' => turns locked solve s' ts + 1

/-- What a function of the problem is, without threads. -/
def ObjFn.direct {R : Type} (solve : Z → Option V) (o : ObjFn Z V R) : Option R := (o.sims.mapM solve).map o.post

/-! ### Calls one after the other -/

/-- The first entry for `z`, and the cache without it. -/
def takeHit (z : Z) : Store Z V → Option (V × Store Z V)
  | [] => none
  | none :: t => (takeHit z t).map fun p => (p.1, none :: p.2)
  | some e :: t => if z = e.1 then some (e.2, t) else (takeHit z t).map fun p => (p.1, some e :: p.2)

def callSeq (solve : Z → Option V) (c : Store Z V) (sv : List Z) (z : Z) : Store Z V × List Z × Out V :=
  match takeHit z c with
  | some (f, c') => (c' ++ [some (z, f)], sv, .value f)
  | none =>
    match solve z with
    | none => (c, sv, .solverError)
    | some f =>
      match c with
      | [] => (c, sv ++ [z], .indexError)
      | _ :: t => (t ++ [some (z, f)], sv ++ [z], .value f)

abbrev Ser (Z V : Type) := Store Z V × List Z × List (Nat × Z × Out V)

def serStep (solve : Z → Option V) (r : Ser Z V) (x : Nat × Z) : Ser Z V :=
  ((callSeq solve r.1 r.2.1 x.2).1, (callSeq solve r.1 r.2.1 x.2).2.1,
    r.2.2 ++ [(x.1, x.2, (callSeq solve r.1 r.2.1 x.2).2.2)])

/-- The calls `lin`, each with its thread, one after the other. -/
def serial (solve : Z → Option V) (size : Nat) (lin : List (Nat × Z)) : Ser Z V :=
  lin.foldl (serStep solve) (List.replicate size none, [], [])

theorem serial_snoc (solve : Z → Option V) (size : Nat) (lin : List (Nat × Z)) (x : Nat × Z) :
    serial solve size (lin ++ [x]) = serStep solve (serial solve size lin) x := by
  simp [serial, List.foldl_append]

/-- The entries of thread `t`. -/
def outsOf (l : List (Nat × Z × Out V)) (t : Nat) : List (Z × Out V) := (l.filter (fun x => decide (x.1 = t))).map (·.2)

omit [DecidableEq Z] in
theorem outsOf_snoc (l : List (Nat × Z × Out V)) (t t' : Nat) (z : Z) (o : Out V) :
    outsOf (l ++ [(t', z, o)]) t = outsOf l t ++ if t' = t then [(z, o)] else [] := by
  unfold outsOf
  rw [List.filter_append, List.map_append]
  by_cases h : t' = t <;> simp [h]

theorem takeHit_entry {z : Z} {c : Store Z V} {f : V} {c' : Store Z V} (h : takeHit z c = some (f, c')) :
    some (z, f) ∈ c ∧ c'.length + 1 = c.length ∧ c.Perm (some (z, f) :: c') := by
  induction c generalizing f c' with
  | nil => cases h
  | cons e t ih =>
    cases e with
    | none =>
      simp only [takeHit] at h
      cases ht : takeHit z t with
      | none => rw [ht] at h; cases h
      | some p =>
        rw [ht] at h
        simp only [Option.map_some, Option.some.injEq, Prod.mk.injEq] at h
        obtain ⟨rfl, rfl⟩ := h
        obtain ⟨h1, h2, h3⟩ := ih ht
        refine ⟨List.mem_cons_of_mem _ h1, by simp [h2], ?_⟩
        exact (h3.cons none).trans (List.Perm.swap _ _ _)
    | some e =>
      simp only [takeHit] at h
      by_cases hz : z = e.1
      · rw [if_pos hz] at h
        simp only [Option.some.injEq, Prod.mk.injEq] at h
        obtain ⟨rfl, rfl⟩ := h
        subst hz
        exact ⟨by simp, by simp, List.Perm.refl _⟩
      · rw [if_neg hz] at h
        cases ht : takeHit z t with
        | none => rw [ht] at h; cases h
        | some p =>
          rw [ht] at h
          simp only [Option.map_some, Option.some.injEq, Prod.mk.injEq] at h
          obtain ⟨rfl, rfl⟩ := h
          obtain ⟨h1, h2, h3⟩ := ih ht
          refine ⟨List.mem_cons_of_mem _ h1, by simp [h2], ?_⟩
          exact (h3.cons (some e)).trans (List.Perm.swap _ _ _)

theorem takeHit_none {z : Z} {c : Store Z V} (h : takeHit z c = none) (f : V) : some (z, f) ∉ c := by
  induction c with
  | nil => simp
  | cons e t ih =>
    cases e with
    | none =>
      simp only [takeHit, Option.map_eq_none_iff] at h
      simpa using ih h
    | some e =>
      simp only [takeHit] at h
      by_cases hz : z = e.1
      · rw [if_pos hz] at h; cases h
      · rw [if_neg hz, Option.map_eq_none_iff] at h
        simp only [List.mem_cons, Option.some.injEq, not_or]
        exact ⟨fun he => hz (by rw [← he]), ih h⟩

/-- Entries are what the solver gives, and the cache keeps its size. -/
structure Right (solve : Z → Option V) (size : Nat) (c : Store Z V) : Prop where
  length : c.length = size
  entry : ∀ z f, some (z, f) ∈ c → solve z = some f

theorem callSeq_right {solve : Z → Option V} {size : Nat} (hsize : 1 ≤ size) {c : Store Z V} (h : Right solve size c)
    (sv : List Z) (z : Z) :
    Right solve size (callSeq solve c sv z).1 ∧ (callSeq solve c sv z).2.2 = outcome solve z := by
  unfold callSeq outcome
  cases ht : takeHit z c with
  | some p =>
    obtain ⟨f, c'⟩ := p
    obtain ⟨h1, h2, h3⟩ := takeHit_entry ht
    have hf := h.entry z f h1
    simp only [hf]
    refine ⟨⟨by have := h.length; simp; omega, fun y g hy => ?_⟩, trivial⟩
    rw [List.mem_append, List.mem_singleton] at hy
    rcases hy with hy | hy
    · exact h.entry y g (h3.mem_iff.2 (List.mem_cons_of_mem _ hy))
    · cases hy; exact hf
  | none =>
    simp only
    cases hf : solve z with
    | none => exact ⟨h, rfl⟩
    | some f =>
      cases c with
      | nil => have := h.length; simp at this; omega
      | cons e t =>
        refine ⟨⟨by have := h.length; simp at this ⊢; omega, fun y g hy => ?_⟩, rfl⟩
        rw [List.mem_append, List.mem_singleton] at hy
        rcases hy with hy | hy
        · exact h.entry y g (List.mem_cons_of_mem _ hy)
        · cases hy; exact hf

theorem serial_right (solve : Z → Option V) {size : Nat} (hsize : 1 ≤ size) (lin : List (Nat × Z)) :
    Right solve size (serial solve size lin).1 ∧
      ∀ x ∈ (serial solve size lin).2.2, x.2.2 = outcome solve x.2.1 := by
  induction lin using List.reverseRecOn with
  | nil => exact ⟨⟨by simp [serial], by simp [serial, List.mem_replicate]⟩, by simp [serial]⟩
  | append_singleton lin x ih =>
    rw [serial_snoc]
    obtain ⟨h1, h2⟩ := callSeq_right hsize ih.1 (serial solve size lin).2.1 x.2
    refine ⟨h1, fun y hy => ?_⟩
    simp only [serStep, List.mem_append, List.mem_singleton] at hy
    rcases hy with hy | rfl
    · exact ih.2 y hy
    · exact h2

/-! ### The invariant -/

/-- No entry for `z` before place `i`. -/
def NoHit (c : Store Z V) (z : Z) (i : Nat) : Prop := ∀ j, j < i → ∀ f, c[j]? ≠ some (some (z, f))

theorem takeHit_of_noHit {c : Store Z V} {z : Z} (h : NoHit c z c.length) : takeHit z c = none := by
  induction c with
  | nil => rfl
  | cons e t ih =>
    have ht : NoHit t z t.length := fun j hj f => by
      have := h (j + 1) (by simpa using hj) f
      simpa using this
    cases e with
    | none => simp [takeHit, ih ht]
    | some e =>
      have : z ≠ e.1 := by
        rintro rfl
        exact h 0 (by simp) e.2 (by simp)
      simp [takeHit, this, ih ht]

theorem takeHit_of_hit {c : Store Z V} {z : Z} {i : Nat} {f : V} (h : NoHit c z i) (hi : c[i]? = some (some (z, f))) :
    takeHit z c = some (f, c.eraseIdx i) := by
  induction c generalizing i with
  | nil => simp at hi
  | cons e t ih =>
    cases i with
    | zero =>
      simp only [List.getElem?_cons_zero, Option.some.injEq] at hi
      subst hi
      simp [takeHit]
    | succ i =>
      have ht : NoHit t z i := fun j hj f => by
        have := h (j + 1) (by omega) f
        simpa using this
      have hi' : t[i]? = some (some (z, f)) := by simpa using hi
      cases e with
      | none => simp [takeHit, ih ht hi']
      | some e =>
        have : z ≠ e.1 := by
          rintro rfl
          exact h 0 (by omega) e.2 (by simp)
        simp [takeHit, this, ih ht hi']

/-- A thread is in the middle of a call for `z` that found the cache `c` and the solves `sv`. -/
def Mid (solve : Z → Option V) (c : Store Z V) (sv : List Z) (z : Z) (cache : Store Z V) (solved : List Z) : Pc Z V → Prop
  | .idle => False
  | .search z' i n => z' = z ∧ n = c.length ∧ cache = c ∧ solved = sv ∧ i ≤ n ∧ NoHit c z i
  | .hit z' i f => z' = z ∧ cache = c ∧ solved = sv ∧ c[i]? = some (some (z, f)) ∧ NoHit c z i
  | .solve z' => z' = z ∧ cache = c ∧ solved = sv ∧ takeHit z c = none
  | .drop z' f => z' = z ∧ cache = c ∧ solved = sv ++ [z] ∧ takeHit z c = none ∧ solve z = some f
  | .insert z' f => z' = z ∧ callSeq solve c sv z = (cache ++ [some (z, f)], solved, .value f)
  | .leave z' o => z' = z ∧ callSeq solve c sv z = (cache, solved, o)

theorem mid_step {solve : Z → Option V} {c : Store Z V} {sv : List Z} {z : Z} {cache : Store Z V} {solved : List Z}
    {pc : Pc Z V} (h : Mid solve c sv z cache solved pc) :
    Mid solve c sv z (pcStep solve cache solved pc).2.1 (pcStep solve cache solved pc).2.2
      (pcStep solve cache solved pc).1 := by
  cases pc with
  | idle => cases h
  | leave z' o => exact h
  | insert z' f =>
    obtain ⟨rfl, h⟩ := h
    exact ⟨rfl, h⟩
  | search z' i n =>
    obtain ⟨rfl, rfl, rfl, rfl, hi, hn⟩ := h
    simp only [pcStep]
    by_cases hlt : i < cache.length
    · rw [if_pos hlt]
      have hg := List.getElem?_eq_getElem hlt
      cases he : cache[i] with
      | none =>
        rw [he] at hg
        simp only [hg]
        refine ⟨rfl, rfl, rfl, rfl, hlt, fun j hj f => ?_⟩
        rcases Nat.lt_succ_iff_lt_or_eq.1 hj with hj | rfl
        · exact hn j hj f
        · rw [hg]; simp
      | some e =>
        rw [he] at hg
        simp only [hg]
        by_cases hz : z' = e.1
        · rw [if_pos hz]
          refine ⟨rfl, rfl, rfl, ?_, hn⟩
          rw [hg, hz]
        · rw [if_neg hz]
          refine ⟨rfl, rfl, rfl, rfl, hlt, fun j hj f => ?_⟩
          rcases Nat.lt_succ_iff_lt_or_eq.1 hj with hj | rfl
          · exact hn j hj f
          · rw [hg]
            simp only [ne_eq, Option.some.injEq]
            rintro rfl
            exact hz rfl
    · rw [if_neg hlt]
      refine ⟨rfl, rfl, rfl, takeHit_of_noHit ?_⟩
      have : i = cache.length := by omega
      rw [← this]
      exact hn
  | hit z' i f =>
    obtain ⟨rfl, rfl, rfl, hi, hn⟩ := h
    have hlt : i < cache.length := by
      by_contra hlt
      rw [List.getElem?_eq_none (by omega)] at hi
      cases hi
    simp only [pcStep]
    rw [if_pos hlt]
    refine ⟨rfl, ?_⟩
    unfold callSeq
    rw [takeHit_of_hit hn hi]
  | solve z' =>
    obtain ⟨rfl, rfl, rfl, h⟩ := h
    simp only [pcStep]
    cases hs : solve z' with
    | none =>
      refine ⟨rfl, ?_⟩
      simp only [callSeq, h, hs]
    | some f => exact ⟨rfl, rfl, rfl, h, hs⟩
  | drop z' f =>
    obtain ⟨rfl, rfl, rfl, h, hs⟩ := h
    simp only [pcStep]
    cases cache with
    | nil => exact ⟨rfl, by simp only [callSeq, h, hs]⟩
    | cons e t => exact ⟨rfl, by simp only [callSeq, h, hs]⟩

/-- The call a thread is in. -/
def cur : Pc Z V → List Z
  | .idle => []
  | .search z _ _ => [z]
  | .hit z _ _ => [z]
  | .solve z => [z]
  | .drop z _ => [z]
  | .insert z _ => [z]
  | .leave z _ => [z]

omit [DecidableEq Z] in
theorem Mid.cur_eq [DecidableEq Z] {solve : Z → Option V} {c : Store Z V} {sv : List Z} {z : Z} {cache : Store Z V}
    {solved : List Z} {pc : Pc Z V} (h : Mid solve c sv z cache solved pc) : cur pc = [z] ∧ pc ≠ .idle := by
  cases pc <;> first | exact absurd h id | exact ⟨by rw [← h.1]; rfl, by simp⟩

/-- What holds for a thread: how its calls ended is how they ended one after the other; its calls are the ended ones,
the one it is in, and those to come; all but the last ended without exception; only the owner of the lock is in a
call. -/
structure ThInv (os : List (Nat × Z × Out V)) (owner : Option Nat) (calls : List (List Z)) (t : Nat) (th : Th Z V) :
    Prop where
  outs : th.outs = outsOf os t
  calls : calls[t]? = some (th.outs.map Prod.fst ++ cur th.pc ++ th.todo)
  own : th.pc ≠ .idle → owner = some t
  busy : th.pc ≠ .idle → ∀ o ∈ th.outs, o.2.isValue = true
  last : ∀ o ∈ th.outs.dropLast, o.2.isValue = true

structure Inv (solve : Z → Option V) (size : Nat) (calls : List (List Z)) (s : Sys Z V) (lin : List (Nat × Z)) : Prop where
  threads : ∀ t th, s.threads[t]? = some th → ThInv (serial solve size lin).2.2 s.owner calls t th
  length : s.threads.length = calls.length
  bound : ∀ x ∈ lin, x.1 < calls.length
  free : s.owner = none → s.cache = (serial solve size lin).1 ∧ s.solved = (serial solve size lin).2.1
  mid : ∀ t, s.owner = some t → ∃ th z, s.threads[t]? = some th ∧
    Mid solve (serial solve size lin).1 (serial solve size lin).2.1 z s.cache s.solved th.pc

theorem inv_start (solve : Z → Option V) (size : Nat) (calls : List (List Z)) :
    Inv solve size calls (start size calls) [] := by
  refine ⟨fun t th ht => ?_, by simp [start], by simp, fun _ => ⟨rfl, rfl⟩, fun t ht => by cases ht⟩
  simp only [start, List.getElem?_map] at ht
  cases hc : calls[t]? with
  | none => rw [hc] at ht; cases ht
  | some zs =>
    rw [hc] at ht
    simp only [Option.map_some, Option.some.injEq] at ht
    subst ht
    exact ⟨rfl, by simp [hc, cur], by simp, by simp, by simp⟩

theorem set_get {A : Type} {l : List A} {t : Nat} {a b : A} (h : l[t]? = some a) :
    (l.set t b)[t]? = some b ∧ ∀ j, j ≠ t → (l.set t b)[j]? = l[j]? := by
  have hl : t < l.length := by
    by_contra hn
    rw [List.getElem?_eq_none (by omega)] at h
    cases h
  refine ⟨by simp [hl], fun j hj => ?_⟩
  rw [List.getElem?_set_ne (Ne.symm hj)]

/-- The steps a thread can make. -/
theorem step_some {locked : Bool} {solve : Z → Option V} {s s' : Sys Z V} {t : Nat}
    (hs : step locked solve s t = some s') :
    ∃ th, s.threads[t]? = some th ∧
      ((th.pc = .idle ∧ ∃ z rest, th.todo = z :: rest ∧ (∀ o ∈ th.outs, o.2.isValue = true) ∧
          (locked = true → s.owner = none) ∧
          s' = { s with
            owner := if locked then some t else s.owner
            threads := s.threads.set t { th with todo := rest, pc := .search z 0 s.cache.length } }) ∨
        (∃ z o, th.pc = .leave z o ∧ s' = { s with
            owner := if locked then none else s.owner
            threads := s.threads.set t { th with pc := .idle, outs := th.outs ++ [(z, o)] } }) ∨
        (th.pc ≠ .idle ∧ (∀ z o, th.pc ≠ .leave z o) ∧ s' = { s with
            cache := (pcStep solve s.cache s.solved th.pc).2.1
            solved := (pcStep solve s.cache s.solved th.pc).2.2
            threads := s.threads.set t { th with pc := (pcStep solve s.cache s.solved th.pc).1 } })) := by
  cases ht : s.threads[t]? with
  | none => simp only [step, ht] at hs; cases hs
  | some th =>
    refine ⟨th, rfl, ?_⟩
    cases hpc : th.pc with
    | idle =>
      simp only [step, ht, hpc] at hs
      left
      refine ⟨rfl, ?_⟩
      cases htodo : th.todo with
      | nil => simp only [htodo] at hs; cases hs
      | cons z rest =>
        simp only [htodo] at hs
        split at hs
        · cases hs
        · rename_i hcond
          refine ⟨z, rest, rfl, ?_, ?_, (Option.some.inj hs).symm⟩
          · have : th.outs.all (fun o => o.2.isValue) = true := by
              cases ha : th.outs.all (fun o => o.2.isValue) with
              | true => rfl
              | false => exact absurd (Or.inl ha) hcond
            simpa [List.all_eq_true] using this
          · intro hl
            by_contra hn
            exact hcond (Or.inr ⟨hl, hn⟩)
    | leave z o =>
      simp only [step, ht, hpc] at hs
      exact Or.inr (Or.inl ⟨z, o, rfl, (Option.some.inj hs).symm⟩)
    | search z i n =>
      simp only [step, ht, hpc] at hs
      exact Or.inr (Or.inr ⟨by simp, by simp, (Option.some.inj hs).symm⟩)
    | hit z i n =>
      simp only [step, ht, hpc] at hs
      exact Or.inr (Or.inr ⟨by simp, by simp, (Option.some.inj hs).symm⟩)
    | solve z =>
      simp only [step, ht, hpc] at hs
      exact Or.inr (Or.inr ⟨by simp, by simp, (Option.some.inj hs).symm⟩)
    | drop z f =>
      simp only [step, ht, hpc] at hs
      exact Or.inr (Or.inr ⟨by simp, by simp, (Option.some.inj hs).symm⟩)
    | insert z f =>
      simp only [step, ht, hpc] at hs
      exact Or.inr (Or.inr ⟨by simp, by simp, (Option.some.inj hs).symm⟩)

theorem inv_step {solve : Z → Option V} {size : Nat} {calls : List (List Z)} {s s' : Sys Z V} {lin : List (Nat × Z)}
    (h : Inv solve size calls s lin) {t : Nat} (hs : step true solve s t = some s') :
    ∃ lin', Inv solve size calls s' lin' := by
  obtain ⟨th, ht, hcase⟩ := step_some hs
  clear hs
  have hth := h.threads t th ht
  rcases hcase with ⟨hpc, z, rest, htodo, hall, hfree, rfl⟩ | ⟨z, o, hpc, rfl⟩ | ⟨hpc, -, rfl⟩
  · replace hfree := hfree rfl
    obtain ⟨hc, hsv⟩ := h.free hfree
    obtain ⟨g1, g2⟩ := set_get (b := { th with todo := rest, pc := .search z 0 s.cache.length }) ht
    refine ⟨lin, ⟨fun j thj hj => ?_, by simp [h.length], h.bound, (fun hn => by cases hn), fun j hj => ?_⟩⟩
    · by_cases hjt : j = t
      · subst hjt
        have hj := g1.symm.trans hj
        cases hj
        refine ⟨hth.outs, ?_, fun _ => rfl, fun _ => hall, hth.last⟩
        rw [hth.calls, hpc, htodo]
        simp [cur]
      · have hj := (g2 j hjt).symm.trans hj
        have := h.threads j thj hj
        refine ⟨this.outs, this.calls, fun hne => ?_, this.busy, this.last⟩
        have := this.own hne
        rw [hfree] at this
        cases this
    · have hj : some t = some j := hj
      cases hj
      refine ⟨_, z, g1, rfl, by rw [hc], hc, hsv, Nat.zero_le _, ?_⟩
      intro j hj
      omega
  · have hne : th.pc ≠ .idle := by rw [hpc]; simp
    have hown := hth.own hne
    obtain ⟨th', z', ht', hm⟩ := h.mid t hown
    rw [ht] at ht'
    cases ht'
    rw [hpc] at hm
    obtain ⟨rfl, hm⟩ := hm
    obtain ⟨g1, g2⟩ := set_get (b := { th with pc := .idle, outs := th.outs ++ [(z, o)] }) ht
    have hser : serial solve size (lin ++ [(t, z)]) =
        (s.cache, s.solved, (serial solve size lin).2.2 ++ [(t, z, o)]) := by
      rw [serial_snoc]
      simp only [serStep, hm]
    refine ⟨lin ++ [(t, z)], ⟨fun j thj hj => ?_, by simp [h.length], ?_, fun _ => ?_, fun j hj => by cases hj⟩⟩
    · rw [hser]
      by_cases hjt : j = t
      · subst hjt
        have hj := g1.symm.trans hj
        cases hj
        refine ⟨?_, ?_, by simp, by simp, ?_⟩
        · rw [outsOf_snoc, if_pos rfl, hth.outs]
        · rw [hth.calls, hpc]
          simp [cur]
        · simp only [List.dropLast_concat]
          exact hth.busy hne
      · have hj := (g2 j hjt).symm.trans hj
        have := h.threads j thj hj
        refine ⟨?_, this.calls, fun hne' => ?_, this.busy, this.last⟩
        · rw [outsOf_snoc, if_neg (fun e => hjt e.symm), List.append_nil]
          exact this.outs
        · have := this.own hne'
          rw [hown] at this
          exact absurd (Option.some.inj this).symm hjt
    · intro x hx
      rw [List.mem_append, List.mem_singleton] at hx
      rcases hx with hx | rfl
      · exact h.bound x hx
      · exact (List.getElem?_eq_some_iff.1 hth.calls).1
    · rw [hser]
      exact ⟨rfl, rfl⟩
  · have hown := hth.own hpc
    obtain ⟨th', z, ht', hm⟩ := h.mid t hown
    rw [ht] at ht'
    cases ht'
    have hm' := mid_step hm
    obtain ⟨g1, g2⟩ := set_get (b := { th with pc := (pcStep solve s.cache s.solved th.pc).1 }) ht
    refine ⟨lin, ⟨fun j thj hj => ?_, by simp [h.length], h.bound, fun hn => ?_, fun j hj => ?_⟩⟩
    · by_cases hjt : j = t
      · subst hjt
        have hj := g1.symm.trans hj
        cases hj
        refine ⟨hth.outs, ?_, fun _ => hown, fun _ => hth.busy hpc, hth.last⟩
        simp only [hm'.cur_eq.1]
        rw [hth.calls, hm.cur_eq.1]
      · have hj := (g2 j hjt).symm.trans hj
        exact h.threads j thj hj
    · have hn : s.owner = none := hn
      rw [hown] at hn; cases hn
    · have hj : s.owner = some j := hj
      have : j = t := by rw [hown] at hj; exact (Option.some.inj hj).symm
      subst this
      exact ⟨_, z, g1, hm'⟩

theorem inv_run (solve : Z → Option V) (size : Nat) (calls : List (List Z)) (sched : List Nat) :
    ∃ lin, Inv solve size calls (run true solve (start size calls) sched) lin := by
  have key : ∀ (sched : List Nat) s lin, Inv solve size calls s lin →
      ∃ lin', Inv solve size calls (run true solve s sched) lin' := by
    intro sched
    induction sched with
    | nil => exact fun s lin h => ⟨lin, h⟩
    | cons t ts ih =>
      intro s lin h
      simp only [run]
      cases hs : step true solve s t with
      | none => exact ih s lin h
      | some s' =>
        obtain ⟨lin', h'⟩ := inv_step h hs
        exact ih s' lin' h'
  exact key sched _ [] (inv_start solve size calls)

/-! ### With the lock -/

section locked
variable (solve : Z → Option V) {size : Nat} (hsize : 1 ≤ size) (calls : List (List Z)) (sched : List Nat)
include hsize

/-- C120: under every schedule each call that ended returned what the solver gives for its structure, or raised the
exception the solver raises for it; the calls were those of the thread, in order. -/
theorem locked_call_right (t : Nat) (th : Th Z V)
    (ht : (run true solve (start size calls) sched).threads[t]? = some th) :
    (∀ x ∈ th.outs, x.2 = outcome solve x.1) ∧ ∃ zs, calls[t]? = some zs ∧ th.outs.map Prod.fst <+: zs := by
  obtain ⟨lin, h⟩ := inv_run solve size calls sched
  have hth := h.threads t th ht
  refine ⟨fun x hx => ?_, _, hth.calls, ⟨cur th.pc ++ th.todo, by simp⟩⟩
  rw [hth.outs] at hx
  simp only [outsOf, List.mem_map, List.mem_filter] at hx
  obtain ⟨y, ⟨hy, -⟩, rfl⟩ := hx
  exact (serial_right solve hsize lin).2 y hy

end locked

omit [DecidableEq Z] in
theorem expected_of_ended (solve : Z → Option V) (xs : List Z) (rest : List Z)
    (h1 : ∀ z ∈ xs.dropLast, (outcome solve z).isValue = true)
    (h2 : rest = [] ∨ ∃ z ∈ xs, (outcome solve z).isValue = false) :
    expected solve (xs ++ rest) = xs.map fun z => (z, outcome solve z) := by
  induction xs with
  | nil =>
    rcases h2 with rfl | ⟨z, hz, _⟩
    · rfl
    · cases hz
  | cons z xs ih =>
    simp only [List.cons_append, expected, List.map_cons]
    cases hz : solve z with
    | some f =>
      have e : outcome solve z = .value f := by simp [outcome, hz]
      simp only [e, List.cons.injEq, true_and]
      refine ih (fun y hy => h1 y ?_) ?_
      · cases xs with
        | nil => cases hy
        | cons a as => exact List.mem_cons_of_mem _ hy
      · rcases h2 with h2 | ⟨y, hy, hy'⟩
        · exact Or.inl h2
        · rcases List.mem_cons.1 hy with rfl | hy
          · rw [e] at hy'; cases hy'
          · exact Or.inr ⟨y, hy, hy'⟩
    | none =>
      have e : outcome solve z = .solverError := by simp [outcome, hz]
      cases xs with
      | nil => simp [e]
      | cons a as =>
        have := h1 z (by simp)
        rw [e] at this
        cases this

section locked
variable (solve : Z → Option V) {size : Nat} (hsize : 1 ≤ size) (calls : List (List Z)) (sched : List Nat)
include hsize

/-- C120: under every schedule a thread that has finished made its calls with the results it would get alone. -/
theorem locked_finished_right (t : Nat) (th : Th Z V)
    (ht : (run true solve (start size calls) sched).threads[t]? = some th) (hf : th.finished) :
    ∃ zs, calls[t]? = some zs ∧ th.outs = expected solve zs := by
  obtain ⟨h1, -⟩ := locked_call_right solve hsize calls sched t th ht
  obtain ⟨lin, h⟩ := inv_run solve size calls sched
  have hth := h.threads t th ht
  refine ⟨_, hth.calls, ?_⟩
  rw [hf.1]
  simp only [cur, List.append_nil]
  have hmap : th.outs = (th.outs.map Prod.fst).map fun z => (z, outcome solve z) := by
    rw [List.map_map]
    conv_lhs => rw [← List.map_id th.outs]
    refine List.map_congr_left fun x hx => ?_
    simp only [id, Function.comp]
    rw [← h1 x hx]
  rw [expected_of_ended solve _ _ ?_ ?_]
  · exact hmap
  · intro z hz
    rw [← List.map_dropLast] at hz
    obtain ⟨x, hx, rfl⟩ := List.mem_map.1 hz
    rw [← h1 x (List.dropLast_subset _ hx)]
    exact hth.last x hx
  · rcases hf.2 with h2 | ⟨o, ho, ho'⟩
    · exact Or.inl h2
    · exact Or.inr ⟨o.1, List.mem_map.2 ⟨o, ho, rfl⟩, by rw [← h1 o ho]; exact ho'⟩

omit hsize in
/-- C120: there is no deadlock: as long as a thread has not finished, some thread can make a step. -/
theorem locked_no_deadlock (t : Nat) (th : Th Z V)
    (ht : (run true solve (start size calls) sched).threads[t]? = some th) (hf : ¬ th.finished) :
    ∃ t', (step true solve (run true solve (start size calls) sched) t').isSome = true := by
  obtain ⟨lin, h⟩ := inv_run solve size calls sched
  revert h ht
  generalize run true solve (start size calls) sched = s
  intro ht h
  cases ho : s.owner with
  | some u =>
    obtain ⟨thu, z, hu, hm⟩ := h.mid u ho
    refine ⟨u, ?_⟩
    have hne := hm.cur_eq.2
    cases hpc : thu.pc with
    | idle => exact absurd hpc hne
    | _ => simp only [step, hu, hpc, Option.isSome_some]
  | none =>
    refine ⟨t, ?_⟩
    have hidle : th.pc = .idle := by
      by_contra hne
      have := (h.threads t th ht).own hne
      rw [ho] at this
      cases this
    cases htd : th.todo with
    | nil => exact absurd ⟨hidle, Or.inl htd⟩ hf
    | cons z rest =>
      have : ¬ (th.outs.all (fun o => o.2.isValue) = false ∨ (true = true ∧ s.owner ≠ none)) := by
        rintro (h1 | h1)
        · refine hf ⟨hidle, Or.inr ?_⟩
          rw [List.all_eq_false] at h1
          obtain ⟨o, h2, h3⟩ := h1
          exact ⟨o, h2, by simpa using h3⟩
        · exact h1.2 ho
      simp only [step, ht, hidle, htd]
      split
      · rename_i hc
        exact absurd (by simpa using hc) this
      · rfl
end locked

/-! ### Termination -/

/-- The steps left in a call. -/
def left : Pc Z V → Nat
  | .idle => 0
  | .search _ i n => (n - i) + 6
  | .hit _ _ _ => 3
  | .solve _ => 5
  | .drop _ _ => 4
  | .insert _ _ => 2
  | .leave _ _ => 1

theorem left_pcStep (solve : Z → Option V) (c : Store Z V) (sv : List Z) (pc : Pc Z V) (h1 : pc ≠ .idle)
    (h2 : ∀ z o, pc ≠ .leave z o) : left (pcStep solve c sv pc).1 < left pc := by
  cases pc with
  | idle => exact absurd rfl h1
  | leave z o => exact absurd rfl (h2 z o)
  | search z i n =>
    simp only [pcStep]
    split
    · split
      · simp [left]
      · simp only [left]; omega
      · split
        · simp only [left]; omega
        · simp only [left]; omega
    · simp [left]
  | hit z i f => simp only [pcStep]; split <;> simp [left]
  | solve z => simp only [pcStep]; split <;> simp [left]
  | drop z f => simp only [pcStep]; split <;> simp [left]
  | insert z f => simp [pcStep, left]

def weight (size : Nat) (th : Th Z V) : Nat := th.todo.length * (size + 7) + left th.pc

def total (size : Nat) (s : Sys Z V) : Nat := (s.threads.map (weight size)).sum

omit [DecidableEq Z] in
theorem sum_set_lt (size : Nat) (l : List (Th Z V)) (t : Nat) (th th' : Th Z V) (h : l[t]? = some th)
    (hw : weight size th' < weight size th) : ((l.set t th').map (weight size)).sum < (l.map (weight size)).sum := by
  induction l generalizing t with
  | nil => simp at h
  | cons a l ih =>
    cases t with
    | zero =>
      simp only [List.getElem?_cons_zero, Option.some.injEq] at h
      subst h
      simpa using hw
    | succ t =>
      have := ih t (by simpa using h)
      simpa using this

theorem step_total {solve : Z → Option V} {size : Nat} (hsize : 1 ≤ size) {calls : List (List Z)} {s s' : Sys Z V}
    {lin : List (Nat × Z)} (h : Inv solve size calls s lin) {t : Nat} (hs : step true solve s t = some s') :
    total size s' < total size s := by
  obtain ⟨th, ht, hcase⟩ := step_some hs
  rcases hcase with ⟨hpc, z, rest, htodo, -, hfree, rfl⟩ | ⟨z, o, hpc, rfl⟩ | ⟨h1, h2, rfl⟩
  · obtain ⟨hc, -⟩ := h.free (hfree rfl)
    have hl : s.cache.length = size := by rw [hc]; exact (serial_right solve hsize lin).1.length
    refine sum_set_lt size s.threads t th _ ht ?_
    simp only [weight, htodo, List.length_cons, hpc, left, hl, Nat.add_mul]
    omega
  · refine sum_set_lt size s.threads t th _ ht ?_
    simp [weight, hpc, left]
  · refine sum_set_lt size s.threads t th _ ht ?_
    have := left_pcStep solve s.cache s.solved th.pc h1 h2
    simp only [weight]
    omega

/-- C120: the threads make boundedly many steps, under every schedule. -/
theorem locked_terminates (solve : Z → Option V) {size : Nat} (hsize : 1 ≤ size) (calls : List (List Z)) :
    ∃ n, ∀ sched, turns true solve (start size calls) sched ≤ n := by
  refine ⟨total size (start (V := V) size calls), fun sched => ?_⟩
  have key : ∀ (sched : List Nat) s lin, Inv solve size calls s lin → turns true solve s sched ≤ total size s := by
    intro sched
    induction sched with
    | nil => exact fun s lin h => Nat.zero_le _
    | cons t ts ih =>
      intro s lin h
      simp only [turns]
      cases hs : step true solve s t with
      | none => exact ih s lin h
      | some s' =>
        obtain ⟨lin', h'⟩ := inv_step h hs
        have h1 := ih s' lin' h'
        have h2 := step_total hsize h hs
        simp only
        omega
  exact key sched _ [] (inv_start solve size calls)

/-! ### Each structure is solved once -/

/-- The keys of the used places. -/
def keys (c : Store Z V) : List Z := c.filterMap fun e => e.map Prod.fst

/-- While there are no more structures than places: unused places come first, the rest holds what was solved. -/
structure Once (size : Nat) (c : Store Z V) (sv : List Z) : Prop where
  nodup : sv.Nodup
  shape : ∃ l : List (Z × V), c = List.replicate (size - sv.length) none ++ l.map some ∧ (l.map Prod.fst).Perm sv
  le : sv.length ≤ size

theorem takeHit_replicate (z : Z) (k : Nat) (c : Store Z V) :
    takeHit z (List.replicate k none ++ c) = (takeHit z c).map fun p => (p.1, List.replicate k none ++ p.2) := by
  induction k with
  | zero => simp
  | succ k ih =>
    simp only [List.replicate_succ, List.cons_append, takeHit, ih, Option.map_map]
    rfl

theorem takeHit_some {z : Z} {l : List (Z × V)} {f : V} {c' : Store Z V}
    (h : takeHit z (l.map some) = some (f, c')) : ∃ l', c' = l'.map some ∧ l.Perm ((z, f) :: l') := by
  induction l generalizing c' with
  | nil => cases h
  | cons e t ih =>
    simp only [List.map_cons, takeHit] at h
    by_cases hz : z = e.1
    · rw [if_pos hz] at h
      simp only [Option.some.injEq, Prod.mk.injEq] at h
      obtain ⟨rfl, rfl⟩ := h
      subst hz
      exact ⟨t, rfl, List.Perm.refl _⟩
    · rw [if_neg hz] at h
      cases ht : takeHit z (t.map some) with
      | none => rw [ht] at h; cases h
      | some p =>
        rw [ht] at h
        simp only [Option.map_some, Option.some.injEq, Prod.mk.injEq] at h
        obtain ⟨rfl, rfl⟩ := h
        obtain ⟨l', h1, h2⟩ := ih ht
        exact ⟨e :: l', by simp [h1], (h2.cons e).trans (List.Perm.swap _ _ _)⟩

theorem once_step {solve : Z → Option V} {size : Nat} {c : Store Z V} {sv : List Z} (h : Once size c sv) {D : List Z}
    (hD : D.length ≤ size) (hsub : ∀ z ∈ sv, z ∈ D) {z : Z} (hz : z ∈ D) :
    Once size (callSeq solve c sv z).1 (callSeq solve c sv z).2.1 ∧
      (∀ y ∈ (callSeq solve c sv z).2.1, y ∈ D) ∧
      ((solve z).isSome = true → z ∈ (callSeq solve c sv z).2.1) := by
  obtain ⟨l, rfl, hp⟩ := h.shape
  unfold callSeq
  rw [takeHit_replicate]
  cases ht : takeHit z (l.map some) with
  | some p =>
    obtain ⟨f, c'⟩ := p
    obtain ⟨l', rfl, hl'⟩ := takeHit_some ht
    simp only [Option.map_some]
    refine ⟨⟨h.nodup, ⟨l' ++ [(z, f)], by simp, ?_⟩, h.le⟩, hsub, fun _ => ?_⟩
    · refine List.Perm.trans ?_ hp
      refine List.Perm.trans ?_ (hl'.map Prod.fst).symm
      rw [List.map_append, List.map_cons]
      exact List.perm_append_comm
    · exact hp.mem_iff.1 ((hl'.map Prod.fst).mem_iff.2 (by simp))
  | none =>
    simp only [Option.map_none]
    have hnot : z ∉ sv := by
      intro hzs
      obtain ⟨e, he, rfl⟩ := List.mem_map.1 (hp.mem_iff.2 hzs)
      exact takeHit_none ht e.2 (List.mem_map.2 ⟨e, he, rfl⟩)
    have hnd : (sv ++ [z]).Nodup := by
      rw [List.nodup_append]
      refine ⟨h.nodup, by simp, ?_⟩
      intro a ha b hb
      rw [List.mem_singleton] at hb
      subst hb
      rintro rfl
      exact hnot ha
    have hlt : sv.length < size := by
      have hs : (sv ++ [z]) ⊆ D := by
        intro y hy
        rw [List.mem_append, List.mem_singleton] at hy
        rcases hy with hy | rfl
        · exact hsub y hy
        · exact hz
      have := (hnd.subperm hs).length_le
      simp only [List.length_append, List.length_singleton] at this
      omega
    cases hs : solve z with
    | none => exact ⟨h, hsub, by simp⟩
    | some f =>
      obtain ⟨k, hk⟩ : ∃ k, size - sv.length = k + 1 := ⟨size - sv.length - 1, by omega⟩
      simp only [hk, List.replicate_succ, List.cons_append]
      refine ⟨⟨hnd, ⟨l ++ [(z, f)], ?_, ?_⟩, by simp; omega⟩, ?_, fun _ => by simp⟩
      · have : size - (sv ++ [z]).length = k := by simp; omega
        rw [this]
        simp
      · rw [List.map_append]
        exact hp.append_right _
      · intro y hy
        rw [List.mem_append, List.mem_singleton] at hy
        rcases hy with hy | rfl
        · exact hsub y hy
        · exact hz

theorem serial_once (solve : Z → Option V) {size : Nat} {D : List Z} (hD : D.length ≤ size) (lin : List (Nat × Z))
    (hlin : ∀ x ∈ lin, x.2 ∈ D) :
    Once size (serial solve size lin).1 (serial solve size lin).2.1 ∧
      (∀ y ∈ (serial solve size lin).2.1, y ∈ D) := by
  induction lin using List.reverseRecOn with
  | nil => exact ⟨⟨by simp [serial], ⟨[], by simp [serial], by simp [serial]⟩, by simp [serial]⟩, by simp [serial]⟩
  | append_singleton lin x ih =>
    rw [serial_snoc]
    obtain ⟨h1, h2⟩ := ih (fun y hy => hlin y (by simp [hy]))
    obtain ⟨h3, h4, -⟩ := once_step (solve := solve) h1 hD h2 (hlin x (by simp))
    exact ⟨h3, h4⟩

theorem serial_calls (solve : Z → Option V) (size : Nat) (lin : List (Nat × Z)) :
    (serial solve size lin).2.2.map (fun x => (x.1, x.2.1)) = lin := by
  induction lin using List.reverseRecOn with
  | nil => rfl
  | append_singleton lin x ih =>
    rw [serial_snoc]
    simp [serStep, ih]

theorem mid_solved {solve : Z → Option V} {c : Store Z V} {sv : List Z} {z : Z} {cache : Store Z V} {solved : List Z}
    {pc : Pc Z V} (h : Mid solve c sv z cache solved pc) :
    solved = sv ∨ solved = (callSeq solve c sv z).2.1 := by
  cases pc with
  | idle => cases h
  | search => exact Or.inl h.2.2.2.1
  | hit => exact Or.inl h.2.2.1
  | solve => exact Or.inl h.2.2.1
  | drop z' f =>
    right
    obtain ⟨_, rfl, rfl, h1, h2⟩ := h
    simp only [callSeq, h1, h2]
    split <;> rfl
  | insert => right; rw [h.2]
  | leave => right; rw [h.2]

/-- C120: if the threads ask for no more different structures than the cache has places, then under every schedule the
solver has been run at most once for each. -/
theorem locked_solved_once (solve : Z → Option V) {size : Nat} (calls : List (List Z)) (D : List Z) (hD : D.length ≤ size)
    (hcalls : ∀ zs ∈ calls, ∀ z ∈ zs, z ∈ D) (sched : List Nat) :
    (run true solve (start size calls) sched).solved.Nodup ∧
      ∀ z ∈ (run true solve (start size calls) sched).solved, z ∈ D := by
  obtain ⟨lin, h⟩ := inv_run solve size calls sched
  revert h
  generalize run true solve (start size calls) sched = s
  intro h
  have hmem : ∀ (t : Nat) (th : Th Z V), s.threads[t]? = some th → ∀ z ∈ th.outs.map Prod.fst ++ cur th.pc ++ th.todo, z ∈ D := by
    intro t th ht z hz
    exact hcalls _ (List.mem_of_getElem? (h.threads t th ht).calls) z hz
  have hlin : ∀ x ∈ lin, x.2 ∈ D := by
    intro x hx
    have hlt : x.1 < s.threads.length := by rw [h.length]; exact h.bound x hx
    obtain ⟨y, hy, hyx⟩ : ∃ y ∈ (serial solve size lin).2.2, (y.1, y.2.1) = x := by
      have := serial_calls solve size lin
      generalize (serial solve size lin).2.2 = os at this ⊢
      rw [← this] at hx
      exact List.mem_map.1 hx
    obtain ⟨th, ht⟩ : ∃ th, s.threads[x.1]? = some th := ⟨_, List.getElem?_eq_getElem hlt⟩
    have ho := (h.threads x.1 th ht).outs
    refine hmem x.1 th ht x.2 ?_
    have : y.2 ∈ th.outs := by
      rw [ho]
      exact List.mem_map.2 ⟨y, List.mem_filter.2 ⟨hy, by simp [← hyx]⟩, rfl⟩
    simp only [List.mem_append]
    exact Or.inl (Or.inl (List.mem_map.2 ⟨y.2, this, by simp [← hyx]⟩))
  obtain ⟨h1, h2⟩ := serial_once solve hD lin hlin
  cases ho : s.owner with
  | none =>
    rw [(h.free ho).2]
    exact ⟨h1.nodup, h2⟩
  | some t =>
    obtain ⟨th, z, ht, hm⟩ := h.mid t ho
    have hz : z ∈ D := hmem t th ht z (by rw [hm.cur_eq.1]; simp)
    obtain ⟨h3, h4, -⟩ := once_step (solve := solve) h1 hD h2 hz
    rcases mid_solved hm with e | e <;> rw [e]
    · exact ⟨h1.nodup, h2⟩
    · exact ⟨h3.nodup, h4⟩

/-! ### Objectives and constraints -/

omit [DecidableEq Z] in
theorem result_direct {R : Type} (solve : Z → Option V) (o : ObjFn Z V R) (th : Th Z V)
    (h : th.outs = expected solve o.sims) : o.result th = o.direct solve := by
  unfold ObjFn.result ObjFn.direct
  rw [h]
  congr 1
  generalize o.sims = zs
  induction zs with
  | nil => rfl
  | cons z zs ih =>
    simp only [expected]
    cases hz : solve z with
    | none => simp [hz]
    | some f =>
      simp only [List.mapM_cons, hz]
      rw [ih]

omit [DecidableEq Z] in
theorem collect_direct {R : Type} (solve : Z → Option V) (objs : List (ObjFn Z V R)) (threads : List (Th Z V))
    (hl : threads.length = objs.length)
    (h : ∀ (i : Nat) o th, objs[i]? = some o → threads[i]? = some th → o.result th = o.direct solve) :
    collect objs threads = objs.mapM (ObjFn.direct solve) := by
  unfold collect
  induction objs generalizing threads with
  | nil => simp
  | cons o objs ih =>
    cases threads with
    | nil => simp at hl
    | cons th threads =>
      have h0 := h 0 o th (by simp) (by simp)
      have h1 := ih threads (by simpa using hl) fun i o' th' ho ht => h (i + 1) o' th' (by simpa using ho) (by simpa using ht)
      simp only [List.zip_cons_cons, List.mapM_cons, h0, h1]

theorem mapM_length {A B : Type} (f : A → Option B) (l : List A) (r : List B) (h : l.mapM f = some r) :
    r.length = l.length := by
  induction l generalizing r with
  | nil => simp at h; simp [← h]
  | cons a l ih =>
    simp only [List.mapM_cons] at h
    cases ha : f a with
    | none => simp [ha] at h
    | some b =>
      cases hl : l.mapM f with
      | none => simp [ha, hl] at h
      | some bs =>
        simp [ha, hl] at h
        simp [← h, ih bs hl]

/-- C120: when the threads that calculate the constraints have finished, whatever the schedule was, the values of the
equality and of the inequality constraints are those calculated one after the other, in the order of the constraints;
an exception is raised exactly if one of them raises. -/
theorem constraints_right {R : Type} (solve : Z → Option V) {size : Nat} (hsize : 1 ≤ size)
    (eq ineq : List (ObjFn Z V R)) (sched : List Nat)
    (hf : ∀ th ∈ (run true solve (start size ((eq ++ ineq).map ObjFn.sims)) sched).threads, th.finished) :
    constraints eq ineq (run true solve (start size ((eq ++ ineq).map ObjFn.sims)) sched).threads =
      match eq.mapM (ObjFn.direct solve), ineq.mapM (ObjFn.direct solve) with
      | some a, some b => some (a, b)
      | _, _ => none := by
  obtain ⟨lin, h⟩ := inv_run solve size ((eq ++ ineq).map ObjFn.sims) sched
  have hc : collect (eq ++ ineq) (run true solve (start size ((eq ++ ineq).map ObjFn.sims)) sched).threads =
      (eq ++ ineq).mapM (ObjFn.direct solve) := by
    refine collect_direct solve _ _ (by simpa using h.length) fun i o th ho ht => ?_
    obtain ⟨zs, h1, h2⟩ := locked_finished_right solve hsize _ sched i th ht (hf th (List.mem_of_getElem? ht))
    rw [List.getElem?_map, ho, Option.map_some] at h1
    cases h1
    exact result_direct solve o th h2
  unfold constraints
  rw [hc, List.mapM_append]
  cases ha : eq.mapM (ObjFn.direct solve) with
  | none => rfl
  | some a =>
    cases hb : ineq.mapM (ObjFn.direct solve) with
    | none => rfl
    | some b =>
      have := mapM_length _ _ _ ha
      simp [← this]

/-! ### Without the lock -/

/-- What a thread holds is what the solver gives. -/
def PcRight (solve : Z → Option V) : Pc Z V → Prop
  | .hit z _ f => solve z = some f
  | .drop z f => solve z = some f
  | .insert z f => solve z = some f
  | .leave z o => ∀ f, o = .value f → solve z = some f
  | _ => True

structure URight (solve : Z → Option V) (s : Sys Z V) : Prop where
  entry : ∀ z f, some (z, f) ∈ s.cache → solve z = some f
  pc : ∀ th ∈ s.threads, PcRight solve th.pc
  outs : ∀ th ∈ s.threads, ∀ x ∈ th.outs, ∀ f, x.2 = .value f → solve x.1 = some f

theorem uright_pcStep {solve : Z → Option V} {c : Store Z V} (sv : List Z) {pc : Pc Z V}
    (hc : ∀ z f, some (z, f) ∈ c → solve z = some f) (hp : PcRight solve pc) :
    (∀ z f, some (z, f) ∈ (pcStep solve c sv pc).2.1 → solve z = some f) ∧ PcRight solve (pcStep solve c sv pc).1 := by
  cases pc with
  | idle => exact ⟨hc, trivial⟩
  | leave z o => exact ⟨hc, hp⟩
  | search z i n =>
    simp only [pcStep]
    split
    · split
      · exact ⟨hc, by intro f h; cases h⟩
      · exact ⟨hc, trivial⟩
      · rename_i e he
        split
        · rename_i hz
          refine ⟨hc, hc z e.2 ?_⟩
          rw [hz]
          exact List.mem_of_getElem? he
        · exact ⟨hc, trivial⟩
    · exact ⟨hc, trivial⟩
  | hit z i f =>
    simp only [pcStep]
    split
    · exact ⟨fun y g h => hc y g (List.mem_of_mem_eraseIdx h), hp⟩
    · exact ⟨hc, by intro f h; cases h⟩
  | solve z =>
    simp only [pcStep]
    split
    · exact ⟨hc, by intro f h; cases h⟩
    · rename_i f hf
      exact ⟨hc, hf⟩
  | drop z f =>
    simp only [pcStep]
    split
    · exact ⟨hc, by intro f h; cases h⟩
    · exact ⟨fun y g h => hc y g (List.mem_cons_of_mem _ h), hp⟩
  | insert z f =>
    refine ⟨fun y g h => ?_, fun g h => by cases h; exact hp⟩
    simp only [pcStep, List.mem_append, List.mem_singleton] at h
    rcases h with h | h
    · exact hc y g h
    · cases h; exact hp

theorem uright_step {locked : Bool} {solve : Z → Option V} {s s' : Sys Z V} (h : URight solve s) {t : Nat}
    (hs : step locked solve s t = some s') : URight solve s' := by
  obtain ⟨th, ht, hcase⟩ := step_some hs
  have hmem := List.mem_of_getElem? ht
  rcases hcase with ⟨_, z, rest, _, _, _, rfl⟩ | ⟨z, o, hpc, rfl⟩ | ⟨_, _, rfl⟩
  · refine ⟨h.entry, fun th' hth' => ?_, fun th' hth' => ?_⟩ <;> rcases List.mem_or_eq_of_mem_set hth' with h' | rfl
    · exact h.pc th' h'
    · trivial
    · exact h.outs th' h'
    · exact h.outs th hmem
  · refine ⟨h.entry, fun th' hth' => ?_, fun th' hth' => ?_⟩ <;> rcases List.mem_or_eq_of_mem_set hth' with h' | rfl
    · exact h.pc th' h'
    · trivial
    · exact h.outs th' h'
    · intro x hx f hf
      simp only [List.mem_append, List.mem_singleton] at hx
      rcases hx with hx | rfl
      · exact h.outs th hmem x hx f hf
      · have := h.pc th hmem
        rw [hpc] at this
        exact this f hf
  · obtain ⟨h1, h2⟩ := uright_pcStep s.solved h.entry (h.pc th hmem)
    refine ⟨h1, fun th' hth' => ?_, fun th' hth' => ?_⟩ <;> rcases List.mem_or_eq_of_mem_set hth' with h' | rfl
    · exact h.pc th' h'
    · exact h2
    · exact h.outs th' h'
    · exact h.outs th hmem

/-- C120, as far as it holds without a lock: a call that returns fields returns the right ones, under every schedule.
Missing: it may raise an exception (`unlocked_raises_false`), and the same structure may be solved twice
(`unlocked_solves_twice_false`). -/
theorem unlocked_values_partial (solve : Z → Option V) (size : Nat) (calls : List (List Z)) (sched : List Nat) :
    ∀ th ∈ (run false solve (start size calls) sched).threads, ∀ x ∈ th.outs, ∀ f, x.2 = .value f →
      solve x.1 = some f := by
  have key : ∀ (sched : List Nat) s, URight solve s → URight solve (run false solve s sched) := by
    intro sched
    induction sched with
    | nil => exact fun s h => h
    | cons t ts ih =>
      intro s h
      simp only [run]
      cases hs : step false solve s t with
      | none => exact ih s h
      | some s' => exact ih s' (uright_step h hs)
  refine (key sched (start size calls) ⟨?_, ?_, ?_⟩).outs
  · simp [start, List.mem_replicate]
  · simp only [start, List.mem_map, forall_exists_index, and_imp]
    rintro th zs _ rfl
    trivial
  · simp only [start, List.mem_map, forall_exists_index, and_imp]
    rintro th zs _ rfl
    simp

/-- C120 fails without a lock: the first thread finds the structure in the cache and removes the entry to put it at the
end; in between the second thread looks at that place, and gets an exception. -/
theorem unlocked_raises_false :
    ∃ sched, ∃ th ∈ (run false (fun z : Nat => some (z + 1)) (start 1 [[5, 5], [5]]) sched).threads,
      (5, Out.indexError) ∈ th.outs :=
  ⟨[0, 0, 0, 0, 0, 0, 0, 0, 0, 1, 0, 1, 1], by decide⟩

/-- Without a lock two threads run the solver for the same structure. -/
theorem unlocked_solves_twice_false :
    ∃ sched, (run false (fun z : Nat => some (z + 1)) (start 1 [[5], [5]]) sched).solved = [5, 5] :=
  ⟨[0, 1, 0, 1, 0, 1, 0, 1], by decide⟩

/-- The schedules of `unlocked_raises_false`, with the lock: all calls return. -/
example : ((run true (fun z : Nat => some (z + 1)) (start 1 [[5, 5], [5]])
      ([0, 0, 0, 0, 0, 0, 0, 0, 0, 1, 0, 1, 1] ++ List.replicate 10 0 ++ List.replicate 10 1)).threads.map (·.outs)) =
    [[(5, .value 6), (5, .value 6)], [(5, .value 6)]] := by decide

/-- Two equality constraints and an inequality constraint that share a simulation; the last uses two structures, and
one of them cannot be solved. -/
def threeEnded : List (Th Nat Nat) :=
  (run true (fun z => if z = 9 then none else some (z + 1)) (start 1 [[5], [5], [4, 9]])
    (List.flatten (List.replicate 40 [2, 0, 1]))).threads

example : constraints (R := Nat) [⟨[5], List.sum⟩, ⟨[5], List.length⟩] [⟨[4, 9], List.sum⟩] threeEnded = none ∧
    constraints (R := Nat) [⟨[5], List.sum⟩] [⟨[5], List.length⟩] threeEnded = some ([6], [1]) := by decide +kernel

end Verif.Sim.Threads
