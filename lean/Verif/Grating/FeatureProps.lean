import Verif.Grating.Feature
import Mathlib.Algebra.BigOperators.Intervals
import Mathlib.Data.List.GetD
import Mathlib.Data.Rat.Defs
import Mathlib.Algebra.Order.Ring.Rat
import Mathlib.Tactic.Linarith
import Mathlib.Tactic.Ring

/-!
# C110: feature constraints of grating parametrizations
-/

namespace Verif.Grating.Feature

set_option linter.unusedSectionVars false
set_option linter.unusedSimpArgs false

variable {K : Type*} [Field K] [LinearOrder K] [IsStrictOrderedRing K]

open Finset

/-! ## Specification -/

/-- The stripes of a grating with the given edges: all neighbouring edges are at
least `w` apart. -/
def Apart (w : K) (edges : List K) : Prop := List.IsChain (fun a b => a + w ≤ b) edges

/-- What the constraint is to express for one grating. -/
def Feasible (minF scale : K) (p : EdgeParam K) : Prop :=
  Apart minF p.vec ∧ (∀ a, p.vec.head? = some a → scale * minF ≤ a) ∧
    (∀ z, p.vec.getLast? = some z → z ≤ p.len - scale * minF)

/-! ## Helper lemmas -/

theorem dot_range (n : Nat) (f : Nat → K) (v : List K) (hv : v.length = n) :
    dot ((List.range n).map f) v = ∑ j ∈ range n, f j * v.getD j 0 := by
  induction v generalizing n f with
  | nil => subst hv; simp [dot]
  | cons a v ih =>
    subst hv
    rw [List.length_cons, List.range_succ_eq_map, List.map_cons, List.map_map]
    have := ih v.length (f ∘ Nat.succ) rfl
    unfold dot at this ⊢
    rw [List.zipWith_cons_cons, List.sum_cons, this, Finset.sum_range_succ']
    simp only [List.getD_cons_zero, List.getD_cons_succ, Function.comp]
    ring

theorem diffMatrix_eq (n : Nat) (hn : 2 ≤ n) :
    diffMatrix (K := K) n = (List.range (n - 1)).map fun i =>
      (List.range n).map fun j => if j = i then -1 else if j = i + 1 then 1 else 0 := by
  obtain ⟨m, rfl⟩ : ∃ m, n = m + 2 := ⟨n - 2, by omega⟩
  unfold diffMatrix circulantT
  have hlen : ([-1, 1] ++ List.replicate (m + 2 - 2) (0 : K)).length = m + 2 := by simp
  rw [hlen, List.range_succ, List.map_append, List.map_singleton, List.dropLast_concat,
    show m + 2 - 1 = m + 1 by omega]
  apply List.map_congr_left
  intro i hi
  rw [List.mem_range] at hi
  rw [← List.range_succ]
  apply List.map_congr_left
  intro j hj
  rw [List.mem_range] at hj
  by_cases h1 : j = i
  · subst h1
    rw [if_pos rfl, show (j + (m + 2) - j) % (m + 2) = 0 by
      rw [Nat.add_sub_cancel_left]; exact Nat.mod_self _]
    simp
  · rw [if_neg h1]
    by_cases h2 : j = i + 1
    · subst h2
      rw [if_pos rfl, show (i + 1 + (m + 2) - i) % (m + 2) = 1 by
        rw [show i + 1 + (m + 2) - i = 1 + (m + 2) by omega, Nat.add_mod_right]
        exact Nat.mod_eq_of_lt (by omega)]
      simp
    · rw [if_neg h2]
      have hk : 2 ≤ (j + (m + 2) - i) % (m + 2) := by
        by_cases h3 : i < j
        · rw [show j + (m + 2) - i = (j - i) + (m + 2) by omega, Nat.add_mod_right,
            Nat.mod_eq_of_lt (by omega)]
          omega
        · rw [Nat.mod_eq_of_lt (by omega)]
          omega
      generalize (j + (m + 2) - i) % (m + 2) = k at hk
      obtain ⟨k, rfl⟩ : ∃ k', k = k' + 2 := ⟨k - 2, by omega⟩
      simp [List.getD_eq_getElem?_getD, List.getElem?_replicate]
      split <;> simp

theorem diffMatrix_rows (n : Nat) (hn : 2 ≤ n) :
    ∀ r ∈ diffMatrix (K := K) n, r.length = n := by
  rw [diffMatrix_eq n hn]
  intro r hr
  obtain ⟨i, _, rfl⟩ := List.mem_map.1 hr
  simp

theorem dot_diffRow (n i : Nat) (hi : i + 1 < n) (v : List K) (hv : v.length = n) :
    dot ((List.range n).map fun j => if j = i then (-1 : K) else if j = i + 1 then 1 else 0) v
      = v.getD (i + 1) 0 - v.getD i 0 := by
  rw [dot_range n _ v hv]
  have : ∀ j ∈ range n, (if j = i then (-1 : K) else if j = i + 1 then 1 else 0) * v.getD j 0
      = (if j = i then -v.getD i 0 else 0) + (if j = i + 1 then v.getD (i + 1) 0 else 0) := by
    intro j _
    by_cases h1 : j = i
    · subst h1; simp
    · by_cases h2 : j = i + 1
      · subst h2; simp
      · simp [h1, h2]
  rw [Finset.sum_congr rfl this, Finset.sum_add_distrib, Finset.sum_ite_eq', Finset.sum_ite_eq',
    if_pos (by simp; omega), if_pos (by simp; omega)]
  ring

theorem matVec_diff (v : List K) (hv : 2 ≤ v.length) :
    matVec (diffMatrix v.length) v
      = some ((List.range (v.length - 1)).map fun i => v.getD (i + 1) 0 - v.getD i 0) := by
  unfold matVec
  rw [if_pos (by
    rw [List.all_eq_true]
    intro r hr
    simpa using diffMatrix_rows _ hv r hr), diffMatrix_eq _ hv, List.map_map]
  congr 1
  apply List.map_congr_left
  intro i hi
  rw [List.mem_range] at hi
  exact dot_diffRow _ i (by omega) v rfl

theorem apart_iff (w : K) (v : List K) :
    Apart w v ↔ ∀ i, i + 1 < v.length → v.getD i 0 + w ≤ v.getD (i + 1) 0 := by
  unfold Apart
  induction v with
  | nil => simp
  | cons a v ih =>
    cases v with
    | nil => simp
    | cons b v =>
      rw [List.isChain_cons_cons, ih]
      constructor
      · rintro ⟨h1, h2⟩ i hi
        cases i with
        | zero => simpa using h1
        | succ i => simpa using h2 i (by simpa using hi)
      · intro h
        refine ⟨by simpa using h 0 (by simp), fun i hi => ?_⟩
        simpa using h (i + 1) (by simpa using hi)

theorem build_eq (minF scale : K) (v : List K) (len : K) (hv : 2 ≤ v.length) :
    buildConstraints minF scale v len
      = some (((List.range (v.length - 1)).map fun i => -(v.getD (i + 1) 0 - v.getD i 0 - minF))
          ++ [-(v.getD 0 0) + scale * minF, -len + scale * minF + v.getD (v.length - 1) 0]) := by
  unfold buildConstraints
  rw [matVec_diff v hv, Option.bind_some]
  have h1 : v.head? = some (v.getD 0 0) := by
    cases v with
    | nil => simp at hv
    | cons a v => simp
  have h2 : v.getLast? = some (v.getD (v.length - 1) 0) := by
    rw [List.getLast?_eq_getElem?, List.getD_eq_getElem?_getD]
    rw [List.getElem?_eq_getElem (by omega)]
    rfl
  rw [h1, h2, Option.bind_some, Option.map_some, List.map_map]
  rfl

/-! ## The constraint -/

/-- **C110**: for a grating with two edges or more all constraints are satisfied
(not positive) exactly if neighbouring edges are at least the minimum feature
apart and the outer edges at least `scale` times that far from the ends. -/
theorem feature_constraint (minF scale : K) (p : EdgeParam K) (hv : 2 ≤ p.vec.length) :
    ∃ cs, evalConstraint minF scale [p] = some cs ∧
      cs.length = p.vec.length + 1 ∧ ((∀ c ∈ cs, c ≤ 0) ↔ Feasible minF scale p) := by
  refine ⟨_, (show evalConstraint minF scale [p] = _ by
    simp only [evalConstraint, List.isEmpty_cons, Bool.false_eq_true, if_false, List.map_cons,
      List.map_nil, allSome, build_eq minF scale p.vec p.len hv, Option.bind_some,
      Option.map_some, List.append_nil]; rfl), ?_, ?_⟩
  · simp
    omega
  · have h1 : p.vec.head? = some (p.vec.getD 0 0) := by
      rcases hp : p.vec with _ | ⟨a, v⟩
      · rw [hp] at hv; simp at hv
      · simp
    have h2 : p.vec.getLast? = some (p.vec.getD (p.vec.length - 1) 0) := by
      rw [List.getLast?_eq_getElem?, List.getD_eq_getElem?_getD]
      rw [List.getElem?_eq_getElem (by omega)]
      rfl
    unfold Feasible
    rw [h1, h2, apart_iff]
    simp only [Option.some.injEq, forall_eq', List.mem_append, List.mem_map, List.mem_range,
      List.mem_cons, List.not_mem_nil, or_false]
    constructor
    · intro h
      refine ⟨fun i hi => ?_, ?_, ?_⟩
      · have := h _ (Or.inl ⟨i, by omega, rfl⟩)
        linarith
      · have := h _ (Or.inr (Or.inl rfl))
        linarith
      · have := h _ (Or.inr (Or.inr rfl))
        linarith
    · rintro ⟨h1, h2, h3⟩ c (⟨i, hi, rfl⟩ | rfl | rfl)
      · have := h1 i (by omega)
        linarith
      · linarith
      · linarith

/-- Edges at 2, 3, 5 of 8 pixels are feasible for a minimum feature of 1, and the constraint
has four values. -/
example : evalConstraint (K := ℚ) 1 2 [⟨[2, 3, 5], 8⟩] = some [0, -1, 0, -1] := by
  decide +kernel

theorem allSome_forall {α : Type*} {β : Type*} (f : α → Option (List β)) (P : α → Prop) (Q : β → Prop)
    (ps : List α) (h : ∀ p ∈ ps, ∃ cs, f p = some cs ∧ ((∀ c ∈ cs, Q c) ↔ P p)) :
    ∃ cs, allSome (ps.map f) = some cs ∧ ((∀ c ∈ cs, Q c) ↔ ∀ p ∈ ps, P p) := by
  induction ps with
  | nil => exact ⟨[], rfl, by simp⟩
  | cons p ps ih =>
    obtain ⟨cs, h1, h2⟩ := h p (by simp)
    obtain ⟨ds, h3, h4⟩ := ih (fun q hq => h q (by simp [hq]))
    refine ⟨cs ++ ds, by simp only [List.map_cons, allSome, h1, h3, Option.bind_some,
      Option.map_some], ?_⟩
    simp only [List.mem_append, or_imp, forall_and, h2, h4, List.forall_mem_cons]

/-- **C110**: for a composite of gratings all constraints are satisfied exactly if they
are for every grating. -/
theorem feature_constraint_composite (minF scale : K) (ps : List (EdgeParam K)) (hne : ps ≠ [])
    (hv : ∀ p ∈ ps, 2 ≤ p.vec.length) :
    ∃ cs, evalConstraint minF scale ps = some cs ∧
      ((∀ c ∈ cs, c ≤ 0) ↔ ∀ p ∈ ps, Feasible minF scale p) := by
  unfold evalConstraint
  rw [if_neg (by simpa using hne)]
  apply allSome_forall
  intro p hp
  obtain ⟨cs, h1, _, h3⟩ := feature_constraint minF scale p (hv p hp)
  refine ⟨cs, ?_, h3⟩
  simp only [evalConstraint, List.isEmpty_cons, Bool.false_eq_true, if_false, List.map_cons,
      List.map_nil, allSome] at h1
  cases hb : buildConstraints minF scale p.vec p.len with
  | none => rw [hb] at h1; simp at h1
  | some a => rw [hb] at h1; simpa using h1

/-- **C110**: in a grating that satisfies the constraints, with a scale of one or more,
every stripe is at least as wide as the minimum feature, including the first and
the last, which end at the ends of the grating. -/
theorem feasible_stripes (minF scale : K) (p : EdgeParam K) (h0 : 0 ≤ minF) (hs : 1 ≤ scale)
    (hv : 2 ≤ p.vec.length) {cs : List K} (he : evalConstraint minF scale [p] = some cs)
    (hc : ∀ c ∈ cs, c ≤ 0) : Apart minF (0 :: p.vec ++ [p.len]) := by
  obtain ⟨cs', h1, _, h3⟩ := feature_constraint minF scale p hv
  rw [he] at h1
  cases h1
  obtain ⟨ha, hl, hr⟩ := h3.1 hc
  have hge : minF ≤ scale * minF := by nlinarith
  have key : ∀ (v : List K), v ≠ [] → Apart minF v →
      (∀ z, v.getLast? = some z → z ≤ p.len - scale * minF) → Apart minF (v ++ [p.len]) := by
    intro v
    induction v with
    | nil => intro h; exact absurd rfl h
    | cons a v ih =>
      intro _ hav hz
      cases v with
      | nil =>
        have := hz a rfl
        exact List.IsChain.cons_cons (by linarith) (List.IsChain.singleton _)
      | cons b v =>
        cases hav with
        | cons_cons h1 h2 =>
          exact List.IsChain.cons_cons h1 (ih (by simp) h2 (by
            intro z hz'
            exact hz z (by rw [List.getLast?_cons_cons]; exact hz')))
  have hne : p.vec ≠ [] := by intro h; rw [h] at hv; simp at hv
  have hk := key p.vec hne ha hr
  cases hvec : p.vec with
  | nil => exact absurd hvec hne
  | cons a v =>
    rw [hvec] at hk hl
    refine List.IsChain.cons_cons ?_ hk
    have := hl a rfl
    linarith

/-- The hypotheses are met by edges at 2, 3, 5 of 8 pixels. -/
example : ∃ cs, evalConstraint (K := ℚ) 1 2 [⟨[2, 3, 5], 8⟩] = some cs ∧ ∀ c ∈ cs, c ≤ 0 :=
  ⟨[0, -1, 0, -1], by decide +kernel, by decide +kernel⟩

/-- **C110 fails**: a grating with a single edge has a well-defined constraint, but
the difference matrix has two columns, and the evaluation fails for every such
grating. -/
theorem feature_single_edge_false (minF scale a len : K) :
    evalConstraint minF scale [⟨[a], len⟩] = none ∧ gradConstraint (K := K) [⟨[a], len⟩] = none := by
  constructor
  · simp [evalConstraint, allSome, buildConstraints, matVec, diffMatrix, circulantT,
      List.range_succ]
  · simp [gradConstraint, buildGrads, diffMatrix, circulantT, List.range_succ]

/-- **C110**: the evaluation fails exactly if there is no grating at all or a grating has less than
two edges. -/
theorem feature_constraint_errors (minF scale : K) (ps : List (EdgeParam K)) :
    evalConstraint minF scale ps = none ↔ ps = [] ∨ ∃ p ∈ ps, p.vec.length < 2 := by
  constructor
  · intro h
    by_contra hc
    push Not at hc
    obtain ⟨cs, h1, _⟩ := feature_constraint_composite minF scale ps hc.1 hc.2
    rw [h] at h1
    cases h1
  · rintro (rfl | ⟨p, hp, hlt⟩)
    · rfl
    · have hb : buildConstraints minF scale p.vec p.len = none := by
        obtain ⟨vec, len⟩ := p
        match vec, hlt with
        | [], _ => simp [buildConstraints]
        | [a], _ =>
          have := (feature_single_edge_false minF scale a len).1
          simp only [evalConstraint, List.isEmpty_cons, Bool.false_eq_true, if_false, List.map_cons,
            List.map_nil, allSome] at this
          cases hb : buildConstraints minF scale [a] len with
          | none => rfl
          | some c => rw [hb] at this; simp at this
      unfold evalConstraint
      split
      · rfl
      · clear * - hp hb
        induction ps with
        | nil => simp at hp
        | cons q ps ih =>
          rw [List.map_cons, allSome]
          rcases List.mem_cons.1 hp with rfl | hp
          · rw [hb]; rfl
          · rw [ih hp]
            cases buildConstraints minF scale q.vec q.len <;> rfl

/-! ## The gradient -/

theorem dot_neg_map (r v : List K) : dot (r.map fun x => -x) v = - dot r v := by
  unfold dot
  induction r generalizing v with
  | nil => simp
  | cons a r ih =>
    cases v with
    | nil => simp
    | cons b v =>
      simp only [List.map_cons, List.zipWith_cons_cons, List.sum_cons, ih]
      ring

theorem dot_unitRow (n i : Nat) (x : K) (v : List K) (hv : v.length = n) (hi : i < n) :
    dot (unitRow n i x) v = x * v.getD i 0 := by
  unfold unitRow
  rw [dot_range n _ v hv]
  simp only [ite_mul, zero_mul]
  rw [Finset.sum_ite_eq', if_pos (by simpa using hi)]

theorem buildGrads_eq (n : Nat) (hn : 2 ≤ n) :
    buildGrads (K := K) n = some (((diffMatrix n).map fun r => r.map fun x => -x)
      ++ [unitRow n 0 (-1), unitRow n (n - 1) 1]) := by
  unfold buildGrads
  rw [if_neg (by omega)]
  simp only
  rw [if_pos]
  rw [List.all_eq_true]
  intro r hr
  obtain ⟨r', h', rfl⟩ := List.mem_map.1 hr
  simpa using diffMatrix_rows n hn r' h'

theorem grads_dot (n : Nat) (hn : 2 ≤ n) (h : List K) (hh : h.length = n) :
    (buildGrads (K := K) n).map (fun m => m.map fun r => dot r h)
      = some (((List.range (n - 1)).map fun i => -(h.getD (i + 1) 0 - h.getD i 0))
          ++ [-(h.getD 0 0), h.getD (n - 1) 0]) := by
  rw [buildGrads_eq n hn, Option.map_some, List.map_append, List.map_map, diffMatrix_eq n hn,
    List.map_map]
  congr 2
  · apply List.map_congr_left
    intro i hi
    rw [List.mem_range] at hi
    simp only [Function.comp, dot_neg_map]
    rw [dot_diffRow n i (by omega) h hh]
  · simp only [List.map_cons, List.map_nil, dot_unitRow n 0 _ h hh (by omega),
      dot_unitRow n (n - 1) _ h hh (by omega)]
    simp

theorem getD_zipWith_add (v h : List K) (hl : h.length = v.length) (i : Nat) :
    (List.zipWith (· + ·) v h).getD i 0 = v.getD i 0 + h.getD i 0 := by
  simp only [List.getD_eq_getElem?_getD, List.getElem?_zipWith]
  by_cases hi : i < v.length
  · rw [List.getElem?_eq_getElem hi, List.getElem?_eq_getElem (by omega)]
    rfl
  · rw [List.getElem?_eq_none (by omega), List.getElem?_eq_none (by omega)]
    simp

theorem build_add (minF scale : K) (v h : List K) (len : K) (hv : 2 ≤ v.length)
    (hl : h.length = v.length) :
    ∃ c m, buildConstraints minF scale v len = some c ∧ buildGrads (K := K) v.length = some m ∧
      m.length = c.length ∧ (∀ r ∈ m, r.length = v.length) ∧
      buildConstraints minF scale (List.zipWith (· + ·) v h) len
        = some (List.zipWith (fun x r => x + dot r h) c m) := by
  refine ⟨_, _, build_eq minF scale v len hv, buildGrads_eq _ hv, ?_, ?_, ?_⟩
  · rw [diffMatrix_eq _ hv]
    simp
  · intro r hr
    rw [List.mem_append] at hr
    rcases hr with hr | hr
    · obtain ⟨r', h', rfl⟩ := List.mem_map.1 hr
      simpa using diffMatrix_rows _ hv r' h'
    · simp only [List.mem_cons, List.not_mem_nil, or_false] at hr
      rcases hr with rfl | rfl <;> simp [unitRow]
  · have hz : (List.zipWith (· + ·) v h).length = v.length := by simp; omega
    rw [build_eq minF scale _ len (by omega), hz]
    congr 1
    have hd := grads_dot (K := K) v.length hv h hl
    rw [buildGrads_eq _ hv, Option.map_some, Option.some.injEq] at hd
    have : ∀ (c : List K) (m : List (List K)),
        List.zipWith (fun x r => x + dot r h) c m
          = List.zipWith (· + ·) c (m.map fun r => dot r h) := by
      intro c m
      rw [List.zipWith_map_right]
    rw [this, hd, List.zipWith_append (by simp), List.zipWith_map, List.zipWith_self]
    simp only [getD_zipWith_add v h hl, List.zipWith_cons_cons, List.zipWith_nil_left]
    congr 1
    · apply List.map_congr_left
      intro i _
      ring
    · congr 1
      · ring
      · congr 1
        ring

/-- The vector of a composite: the vectors of the parts one after another. -/
def joined (ps : List (EdgeParam K)) : List K := ps.flatMap (·.vec)

/-- The composite moved by a vector of the same length: each part takes its share. -/
def moved : List (EdgeParam K) → List K → List (EdgeParam K)
  | [], _ => []
  | p :: ps, h => ⟨List.zipWith (· + ·) p.vec (h.take p.vec.length), p.len⟩
      :: moved ps (h.drop p.vec.length)

theorem dot_append (r s v w : List K) (h : r.length = v.length) :
    dot (r ++ s) (v ++ w) = dot r v + dot s w := by
  unfold dot
  rw [List.zipWith_append h, List.sum_append]

theorem dot_replicate_zero (n : Nat) (v : List K) : dot (List.replicate n 0) v = 0 := by
  induction n generalizing v with
  | zero => simp [dot]
  | succ n ih =>
    cases v with
    | nil => simp [dot]
    | cons a v =>
      have := ih v
      unfold dot at this ⊢
      rw [List.replicate_succ, List.zipWith_cons_cons, List.sum_cons, this]
      ring

theorem mapM_grads (ps : List (EdgeParam K)) (hv : ∀ p ∈ ps, 2 ≤ p.vec.length) :
    ∃ bs : List (List (List K) × Nat),
      (ps.mapM fun p => (buildGrads (K := K) p.vec.length).map fun b => (b, p.vec.length)) = some bs ∧
      bs.map (·.2) = ps.map (·.vec.length) := by
  induction ps with
  | nil => exact ⟨[], rfl, rfl⟩
  | cons p ps ih =>
    obtain ⟨bs, h1, h2⟩ := ih (fun q hq => hv q (by simp [hq]))
    refine ⟨_ :: bs, by
      rw [List.mapM_cons, buildGrads_eq _ (hv p (by simp)), h1]
      rfl, by simp [h2]⟩

theorem composite_add (minF scale : K) (ps : List (EdgeParam K)) (hv : ∀ p ∈ ps, 2 ≤ p.vec.length)
    (left h : List K) (hl : h.length = (ps.map (·.vec.length)).sum) :
    ∃ c bs, allSome (ps.map fun p => buildConstraints minF scale p.vec p.len) = some c ∧
      (ps.mapM fun p => (buildGrads (K := K) p.vec.length).map fun b => (b, p.vec.length)) = some bs ∧
      bs.map (·.2) = ps.map (·.vec.length) ∧
      (blockDiag left.length bs).length = c.length ∧
      allSome ((moved ps h).map fun p => buildConstraints minF scale p.vec p.len)
        = some (List.zipWith (fun x r => x + dot r (left ++ h)) c (blockDiag left.length bs)) := by
  induction ps generalizing left h with
  | nil => exact ⟨[], [], rfl, rfl, rfl, rfl, rfl⟩
  | cons p ps ih =>
    have hp := hv p (by simp)
    rw [List.map_cons, List.sum_cons] at hl
    have htake : (h.take p.vec.length).length = p.vec.length := by simp; omega
    obtain ⟨c1, m1, e1, e2, e3, e4, e5⟩ := build_add minF scale p.vec (h.take p.vec.length) p.len hp htake
    obtain ⟨c2, bs, f1, f2, f3, f4, f5⟩ := ih (fun q hq => hv q (by simp [hq]))
      (left ++ h.take p.vec.length) (h.drop p.vec.length) (by simp; omega)
    rw [List.append_assoc, List.take_append_drop] at f5
    rw [List.length_append, htake] at f4 f5
    refine ⟨c1 ++ c2, (m1, p.vec.length) :: bs, ?_, ?_, ?_, ?_, ?_⟩
    · simp only [List.map_cons, allSome, e1, f1, Option.bind_some, Option.map_some]
    · rw [List.mapM_cons, e2, f2]
      rfl
    · simp [f3]
    · simp [blockDiag, e3, f4]
    · simp only [moved, List.map_cons, allSome, e5, f5, Option.bind_some, Option.map_some, blockDiag]
      rw [List.zipWith_append (by simp [e3])]
      congr 2
      rw [List.zipWith_map_right]
      have hgoal : ∀ (c : List K) (m : List (List K)), (∀ r ∈ m, r.length = p.vec.length) →
          List.zipWith (fun x r => x + dot r (h.take p.vec.length)) c m
          = List.zipWith (fun a b => a + dot (List.replicate left.length 0 ++ b
              ++ List.replicate ((bs.map (·.2)).sum) 0) (left ++ h)) c m := by
        intro c m hm
        induction c generalizing m with
        | nil => simp
        | cons x c ihc =>
          cases m with
          | nil => simp
          | cons r m =>
            rw [List.zipWith_cons_cons, List.zipWith_cons_cons, ihc m (fun r hr => hm r (by simp [hr]))]
            congr 2
            have hr := hm r (by simp)
            rw [List.append_assoc, dot_append _ _ _ _ (by simp), dot_replicate_zero, zero_add]
            conv_rhs => rw [← List.take_append_drop p.vec.length h]
            rw [dot_append _ _ _ _ (by rw [hr, htake]), dot_replicate_zero, add_zero]
      exact hgoal c1 m1 e4

/-- **C110**: the gradient is exact.  Moving the vector of a composite of gratings by
`h` changes the constraints by the product of the gradient matrix with `h`, for
every `h`; the matrix has one row for each constraint. -/
theorem feature_gradient (minF scale : K) (ps : List (EdgeParam K)) (hne : ps ≠ [])
    (hv : ∀ p ∈ ps, 2 ≤ p.vec.length) (h : List K) (hl : h.length = (joined ps).length) :
    ∃ c m, evalConstraint minF scale ps = some c ∧ gradConstraint ps = some m ∧
      m.length = c.length ∧
      evalConstraint minF scale (moved ps h) = some (List.zipWith (fun x r => x + dot r h) c m) := by
  have hl' : h.length = (ps.map (·.vec.length)).sum := by
    rw [hl, joined, List.length_flatMap]
  obtain ⟨c, bs, h1, h2, _, h4, h5⟩ := composite_add minF scale ps hv [] h hl'
  refine ⟨c, blockDiag 0 bs, ?_, ?_, h4, ?_⟩
  · unfold evalConstraint
    rw [if_neg (by simpa using hne), h1]
  · unfold gradConstraint
    rw [h2]
    rfl
  · unfold evalConstraint
    have : (moved ps h).isEmpty = false := by
      cases ps with
      | nil => exact absurd rfl hne
      | cons p ps => rfl
    rw [this]
    simpa using h5

/-- The move is that of the joined vector. -/
theorem joined_moved (ps : List (EdgeParam K)) (h : List K) (hl : h.length = (joined ps).length) :
    joined (moved ps h) = List.zipWith (· + ·) (joined ps) h := by
  induction ps generalizing h with
  | nil => simp [joined, moved]
  | cons p ps ih =>
    have hl' : h.length = p.vec.length + (joined ps).length := by
      rw [hl]; simp [joined]
    have := ih (h.drop p.vec.length) (by simp; omega)
    unfold joined at this ⊢
    simp only [moved, List.flatMap_cons]
    rw [this]
    conv_rhs => rw [← List.take_append_drop p.vec.length h]
    rw [List.zipWith_append (by simp; omega)]

/-- The hypotheses are met by two gratings with two and three edges. -/
example : gradConstraint (K := ℚ) [⟨[2, 3], 8⟩, ⟨[2, 3, 5], 8⟩]
    = some [[1, -1, 0, 0, 0], [-1, 0, 0, 0, 0], [0, 1, 0, 0, 0], [0, 0, 1, -1, 0],
        [0, 0, 0, 1, -1], [0, 0, -1, 0, 0], [0, 0, 0, 0, 1]] := by
  decide +kernel

/-- **C110**: a minimum feature is accepted exactly if it is not negative. -/
theorem feature_accepts (minF : K) : accepts minF = true ↔ 0 ≤ minF := by
  simp [accepts]

end Verif.Grating.Feature
