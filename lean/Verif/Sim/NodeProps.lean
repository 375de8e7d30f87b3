import Verif.Sim.CacheProps
/-
Property C50 for the goos `SimulateNode`, and C57: dependence of its outputs on the history.
-/
namespace Verif.Sim
set_option linter.unusedSectionVars false
variable {V : Type} [DecidableEq V]

/-- The node with its result cache and the node without agree; arrays not handed over yet are private. -/
structure GRel (p : GPhys V) (used : List Var) (li : Option Nat) (s : GState V) (d : EState V) : Prop where
  arrs_len : s.arrs.length = d.arrs.length
  arrs_val : ∀ (i : Nat) r, s.arrs[i]? = some r → s.heap[r]? = d.arrs[i]?
  arrs_inj : ∀ (i j : Nat) r, s.arrs[i]? = some r → s.arrs[j]? = some r → i = j
  arrs_lt : ∀ (i : Nat) r, s.arrs[i]? = some r → r < s.heap.length
  ress_len : s.ress.length = d.ress.length
  ress_none : ∀ (i : Nat), s.ress[i]? = some none → d.ress[i]? = some none
  ress_val : ∀ (i : Nat) r, s.ress[i]? = some (some r) → ∃ v, s.heap[r]? = some v ∧ d.ress[i]? = some (some v)
  outs : s.outs = d.outs
  first : s.first = d.first
  last_ok : ∀ re rf, s.last = some (re, rf) → ∃ f v, s.first = some f ∧ s.heap[re]? = some v ∧
    s.heap[rf]? = some (p.forward f v)
  last_priv : ∀ (i : Nat) r, s.arrs[i]? = some r → Var.arr i ∉ used → ∀ re rf, s.last = some (re, rf) → r ≠ re ∧ r ≠ rf
  ress_priv : ∀ (i : Nat) r, s.arrs[i]? = some r → Var.arr i ∉ used → ∀ j : Nat, s.ress[j]? ≠ some (some r)
  latest : ∀ i, li = some i → Var.arr i ∈ used ∧ ∃ r re rf v, s.arrs[i]? = some r ∧ s.last = some (re, rf) ∧
    s.heap[r]? = some v ∧ s.heap[re]? = some v

theorem GRel.look {p : GPhys V} {used : List Var} {li : Option Nat} {s : GState V} {d : EState V}
    (h : GRel p used li s d) (x : Var) :
    (s.look x = none ∧ d.look x = none) ∨ ∃ r v, s.look x = some r ∧ d.look x = some v ∧ s.heap[r]? = some v := by
  cases x with
  | arr i =>
    show (s.arrs[i]? = none ∧ d.arrs[i]? = none) ∨ _
    cases hr : s.arrs[i]? with
    | none =>
      left
      refine ⟨rfl, ?_⟩
      rw [List.getElem?_eq_none_iff] at hr ⊢
      rw [← h.arrs_len]; exact hr
    | some r =>
      right
      have h1 := h.arrs_val i r hr
      have h2 := h.arrs_lt i r hr
      rw [List.getElem?_eq_getElem h2] at h1
      exact ⟨r, _, hr, h1.symm, List.getElem?_eq_getElem h2⟩
  | res i =>
    show (s.ress[i]?.join = none ∧ d.ress[i]?.join = none) ∨ _
    cases hr : s.ress[i]? with
    | none =>
      left
      refine ⟨rfl, ?_⟩
      have : d.ress[i]? = none := by
        rw [List.getElem?_eq_none_iff] at hr ⊢
        rw [← h.ress_len]; exact hr
      rw [this]; rfl
    | some o =>
      cases o with
      | none => left; exact ⟨rfl, by rw [h.ress_none i hr]; rfl⟩
      | some r =>
        right
        obtain ⟨v, h1, h2⟩ := h.ress_val i r hr
        refine ⟨r, v, ?_, ?_, h1⟩
        · show s.ress[i]?.join = _
          rw [hr]; rfl
        · show d.ress[i]?.join = _
          rw [h2]; rfl

theorem glook_arr_ne {p : GPhys V} {used : List Var} {li : Option Nat} {s : GState V} {d : EState V}
    (h : GRel p used li s d) {x : Var} {r : Ref} (hx : s.look x = some r) {i : Nat} {r' : Ref}
    (hr : s.arrs[i]? = some r') (hu : Var.arr i ∉ x :: used) : r' ≠ r := by
  rintro rfl
  cases x with
  | arr j =>
    have : j = i := h.arrs_inj j i r' hx hr
    exact hu (this ▸ List.mem_cons_self)
  | res j =>
    have hj : s.ress[j]? = some (some r') := by
      have : s.ress[j]?.join = some r' := hx
      cases hs : s.ress[j]? with
      | none => rw [hs] at this; cases this
      | some o => rw [hs] at this; exact congrArg some this
    exact h.ress_priv i r' hr (fun hm => hu (List.mem_cons_of_mem _ hm)) j hj

/-- A call that may add arrays, may change the cached result and returns `o`. -/
theorem GRel.call {p : GPhys V} {used used' : List Var} {li li' : Option Nat} {s : GState V} {d : EState V}
    (h : GRel p used li s d) {t : List V} {fi : Option V} {la : Option (Ref × Ref)} {ro : Option Ref} {o : Option V}
    (hsub : ∀ x ∈ used, x ∈ used')
    (hlast : ∀ re rf, la = some (re, rf) → ∃ f v, fi = some f ∧ (s.heap ++ t)[re]? = some v ∧
      (s.heap ++ t)[rf]? = some (p.forward f v))
    (hpl : ∀ (i : Nat) r, s.arrs[i]? = some r → Var.arr i ∉ used' → ∀ re rf, la = some (re, rf) → r ≠ re ∧ r ≠ rf)
    (hpo : ∀ (i : Nat) r, s.arrs[i]? = some r → Var.arr i ∉ used' → ro ≠ some r)
    (hlatest : ∀ i, li' = some i → Var.arr i ∈ used' ∧ ∃ r re rf v, s.arrs[i]? = some r ∧ la = some (re, rf) ∧
      (s.heap ++ t)[r]? = some v ∧ (s.heap ++ t)[re]? = some v)
    (hro : (ro = none ∧ o = none) ∨ ∃ r v, ro = some r ∧ o = some v ∧ (s.heap ++ t)[r]? = some v) :
    GRel p used' li' ⟨s.heap ++ t, s.arrs, s.ress ++ [ro], fi, la, s.outs ++ [o]⟩
      ⟨d.arrs, d.ress ++ [o], fi, d.outs ++ [o]⟩ := by
  refine ⟨h.arrs_len, fun i r hr => ?_, h.arrs_inj, fun i r hr => ?_, ?_, fun i hi => ?_, fun i r hi => ?_, ?_, rfl, hlast,
    hpl, fun i r hr hu j hj => ?_, hlatest⟩
  · show (s.heap ++ t)[r]? = _
    rw [getElem?_append_lt (h.arrs_lt i r hr)]; exact h.arrs_val i r hr
  · show r < (s.heap ++ t).length
    rw [List.length_append]; exact Nat.lt_add_right _ (h.arrs_lt i r hr)
  · show (s.ress ++ [ro]).length = (d.ress ++ [o]).length
    simp [h.ress_len]
  · show (d.ress ++ [o])[i]? = some none
    rcases getElem?_snoc hi with hi | ⟨rfl, he⟩
    · have h1 := h.ress_none i hi
      rw [List.getElem?_append_left (List.getElem?_eq_some_iff.1 h1).1, h1]
    · rcases hro with ⟨_, rfl⟩ | ⟨r, v, hr, _⟩
      · rw [h.ress_len]; simp
      · rw [hr] at he; cases he
  · show ∃ v, (s.heap ++ t)[r]? = some v ∧ (d.ress ++ [o])[i]? = some (some v)
    rcases getElem?_snoc hi with hi | ⟨rfl, he⟩
    · obtain ⟨v, h1, h2⟩ := h.ress_val i r hi
      refine ⟨v, ?_, ?_⟩
      · rw [getElem?_append_lt (List.getElem?_eq_some_iff.1 h1).1, h1]
      · rw [List.getElem?_append_left (List.getElem?_eq_some_iff.1 h2).1, h2]
    · rcases hro with ⟨hn, _⟩ | ⟨r', v, hr, rfl, hv⟩
      · rw [hn] at he; cases he
      · rw [hr] at he; cases he
        exact ⟨v, hv, by rw [h.ress_len]; simp⟩
  · show s.outs ++ [o] = d.outs ++ [o]
    rw [h.outs]
  · rcases getElem?_snoc hj with hj | ⟨_, he⟩
    · exact h.ress_priv i r hr (fun hm => hu (hsub _ hm)) j hj
    · exact hpo i r hr hu he.symm

theorem GRel.fail {p : GPhys V} {used used' : List Var} {li : Option Nat} {s : GState V} {d : EState V}
    (h : GRel p used li s d) (hsub : ∀ x ∈ used, x ∈ used') : GRel p used' none s.fail (d.ret none) := by
  have hc := h.call (t := []) (fi := s.first) (la := s.last) (ro := none) (o := none) (used' := used') (li' := none) hsub
    (by simpa using h.last_ok)
    (fun i r hr hu => h.last_priv i r hr fun hm => hu (hsub _ hm))
    (fun _ _ _ _ => by simp) (fun i hi => by cases hi) (Or.inl ⟨rfl, rfl⟩)
  rw [List.append_nil] at hc
  have : (⟨d.arrs, d.ress ++ [none], s.first, d.outs ++ [none]⟩ : EState V) = d.ret none := by
    rw [h.first]; rfl
  rw [this] at hc
  exact hc

theorem GRel.forget {p : GPhys V} {used : List Var} {li : Option Nat} {s : GState V} {d : EState V}
    (h : GRel p used li s d) : GRel p used none s d :=
  ⟨h.arrs_len, h.arrs_val, h.arrs_inj, h.arrs_lt, h.ress_len, h.ress_none, h.ress_val, h.outs, h.first, h.last_ok,
    h.last_priv, h.ress_priv, fun _ hi => by cases hi⟩

/-- The array number an `eval` is for, when it is one of the caller's `n` arrays. -/
def target (n : Nat) : Var → Option Nat
  | .arr i => if i < n then some i else none
  | .res _ => none

theorem GRel.eval {p : GPhys V} {used : List Var} {li : Option Nat} {s : GState V} {d : EState V}
    (h : GRel p used li s d) (x : Var) :
    GRel p (x :: used) (target s.arrs.length x) (gstep p s (.eval x)) (estep p d (.eval x)) := by
  have hsub : ∀ y ∈ used, y ∈ x :: used := fun y hy => List.mem_cons_of_mem _ hy
  rcases h.look x with ⟨h1, h2⟩ | ⟨r, v, h1, h2, h3⟩
  · have ht : target s.arrs.length x = none := by
      cases x with
      | res i => rfl
      | arr i =>
        have h1' : s.arrs[i]? = none := h1
        rw [List.getElem?_eq_none_iff] at h1'
        show (if _ then _ else _) = _
        rw [if_neg (Nat.not_lt.2 h1')]
    rw [ht]
    simp only [gstep, estep, h1, h2]
    exact h.fail hsub
  · have htarget : ∀ i, target s.arrs.length x = some i → x = .arr i ∧ s.arrs[i]? = some r := by
      intro i hi
      cases x with
      | res j => cases hi
      | arr j =>
        simp only [target] at hi
        split at hi
        · cases hi; exact ⟨rfl, h1⟩
        · cases hi
    simp only [gstep, estep, h1, h2, h3]
    cases hh : s.hit v with
    | some rf =>
      obtain ⟨re, hla, hre⟩ : ∃ re, s.last = some (re, rf) ∧ s.heap[re]? = some v := by
        unfold GState.hit at hh
        split at hh
        · cases hh
        · next re rf' hla =>
          split at hh
          · next hv => cases hh; exact ⟨re, hla, hv⟩
          · cases hh
      obtain ⟨f, v', k1, k2, k3⟩ := h.last_ok re rf hla
      rw [hre] at k2
      cases k2
      have hd : d.first = some f := by rw [← h.first, k1]
      simp only [hd, Option.getD_some, k3]
      have hc := h.call (t := []) (fi := some f) (la := s.last) (ro := some rf) (o := some (p.forward f v))
        (used' := x :: used) (li' := target s.arrs.length x) hsub
        (by rw [← k1]; simpa using h.last_ok)
        (fun i r hr hu => h.last_priv i r hr fun hm => hu (hsub _ hm))
        (fun i q hq hu he => by
          cases he
          exact (h.last_priv i rf hq (fun hm => hu (hsub _ hm)) re rf hla).2 rfl)
        (fun i hi => by
          obtain ⟨rfl, hr⟩ := htarget i hi
          exact ⟨List.mem_cons_self, r, re, rf, v, hr, hla, by simpa using h3, by simpa using hre⟩)
        (Or.inr ⟨rf, _, rfl, rfl, by simpa using k3⟩)
      rw [List.append_nil] at hc
      have hs : (⟨s.heap, s.arrs, s.ress ++ [some rf], s.first, s.last, s.outs ++ [some (p.forward f v)]⟩ : GState V) =
          ⟨s.heap, s.arrs, s.ress ++ [some rf], some f, s.last, s.outs ++ [some (p.forward f v)]⟩ := by rw [k1]
      show GRel p _ _ (⟨s.heap, s.arrs, s.ress ++ [some rf], s.first, s.last, s.outs ++ [some (p.forward f v)]⟩ : GState V) _
      rw [hs]
      exact hc
    | none =>
      have hrlt := (List.getElem?_eq_some_iff.1 h3).1
      have hrv : (s.heap ++ [p.forward (d.first.getD v) v])[r]? = some v := by rw [getElem?_append_lt hrlt, h3]
      have hnew : (s.heap ++ [p.forward (d.first.getD v) v])[s.heap.length]? = some (p.forward (d.first.getD v) v) := by
        simp
      simp only [h.first]
      refine h.call (t := [p.forward (d.first.getD v) v]) (fi := some (d.first.getD v)) hsub ?_ ?_ ?_ ?_
        (Or.inr ⟨_, _, rfl, rfl, hnew⟩)
      · intro re rf hl
        cases hl
        exact ⟨_, v, rfl, hrv, hnew⟩
      · intro i q hq hu re rf hl
        cases hl
        exact ⟨glook_arr_ne h h1 hq hu, Nat.ne_of_lt (h.arrs_lt i q hq)⟩
      · intro i q hq hu he
        cases he
        exact Nat.lt_irrefl _ (h.arrs_lt i _ hq)
      · intro i hi
        obtain ⟨rfl, hr⟩ := htarget i hi
        exact ⟨List.mem_cons_self, r, r, _, v, hr, rfl, hrv, hrv⟩

theorem GRel.grad {p : GPhys V} {used : List Var} {s : GState V} {d : EState V} {i : Nat}
    (h : GRel p used (some i) s d) (g : Var) :
    GRel p (.arr i :: g :: used) (some i) (gstep p s (.grad (.arr i) g)) (estep p d (.grad (.arr i) g)) := by
  have hsub : ∀ y ∈ used, y ∈ Var.arr i :: g :: used :=
    fun y hy => List.mem_cons_of_mem _ (List.mem_cons_of_mem _ hy)
  obtain ⟨hmem, r, re, rf, v, h1, hla, h3, hre⟩ := h.latest i rfl
  obtain ⟨f, v', k1, k2, k3⟩ := h.last_ok re rf hla
  rw [hre] at k2
  cases k2
  have hx : s.look (.arr i) = some r := h1
  have hdx : d.look (.arr i) = some v := by
    show d.arrs[i]? = _
    rw [← h.arrs_val i r h1, h3]
  have hdf : d.first = some f := by rw [← h.first, k1]
  have hlatest : ∀ (t : List V) j, some i = some j → Var.arr j ∈ Var.arr i :: g :: used ∧ ∃ r re rf v,
      s.arrs[j]? = some r ∧ s.last = some (re, rf) ∧ (s.heap ++ t)[r]? = some v ∧ (s.heap ++ t)[re]? = some v := by
    intro t j hj
    cases hj
    refine ⟨List.mem_cons_self, r, re, rf, v, h1, hla, ?_, ?_⟩
    · rw [getElem?_append_lt (List.getElem?_eq_some_iff.1 h3).1, h3]
    · rw [getElem?_append_lt (List.getElem?_eq_some_iff.1 hre).1, hre]
  have hlast : ∀ (t : List V) re rf, s.last = some (re, rf) → ∃ f v, s.first = some f ∧ (s.heap ++ t)[re]? = some v ∧
      (s.heap ++ t)[rf]? = some (p.forward f v) := by
    intro t re rf hl
    obtain ⟨f, v, a, b, c⟩ := h.last_ok re rf hl
    exact ⟨f, v, a, by rw [getElem?_append_lt (List.getElem?_eq_some_iff.1 b).1, b],
      by rw [getElem?_append_lt (List.getElem?_eq_some_iff.1 c).1, c]⟩
  rcases h.look g with ⟨g1, g2⟩ | ⟨q, vg, g1, g2, g3⟩
  · simp only [gstep, estep, hx, hdx, g1, g2, Option.bind_none, Option.bind_some, h3]
    have hc := h.call (t := []) (fi := s.first) (la := s.last) (ro := none) (o := none) (used' := .arr i :: g :: used)
      (li' := some i) hsub (hlast []) (fun i r hr hu => h.last_priv i r hr fun hm => hu (hsub _ hm))
      (fun _ _ _ _ => by simp) (hlatest []) (Or.inl ⟨rfl, rfl⟩)
    rw [List.append_nil] at hc
    have : (⟨d.arrs, d.ress ++ [none], s.first, d.outs ++ [none]⟩ : EState V) = d.ret none := by
      rw [h.first]; rfl
    rw [this] at hc
    exact hc
  · simp only [gstep, estep, hx, hdx, g1, g2, Option.bind_some, h3, g3, k1, hla, k3, hdf, Option.map_some]
    have hc := h.call (t := [p.combine (p.adjoint f v vg) (p.forward f v) v]) (fi := s.first) (la := s.last)
      (ro := some s.heap.length) (o := some (p.combine (p.adjoint f v vg) (p.forward f v) v))
      (used' := .arr i :: g :: used) (li' := some i) hsub (hlast _)
      (fun i r hr hu => h.last_priv i r hr fun hm => hu (hsub _ hm))
      (fun j q hq hu he => by cases he; exact Nat.lt_irrefl _ (h.arrs_lt j _ hq))
      (hlatest _) (Or.inr ⟨_, _, rfl, rfl, by simp⟩)
    have e1 : (⟨d.arrs, d.ress ++ [some (p.combine (p.adjoint f v vg) (p.forward f v) v)], s.first,
        d.outs ++ [some (p.combine (p.adjoint f v vg) (p.forward f v) v)]⟩ : EState V) =
        d.ret (some (p.combine (p.adjoint f v vg) (p.forward f v) v)) := by
      rw [h.first]; rfl
    rw [e1, k1, hla] at hc
    exact hc

theorem GRel.new {p : GPhys V} {used : List Var} {li : Option Nat} {s : GState V} {d : EState V}
    (h : GRel p used li s d) (v : V) : GRel p used li (gstep p s (.new v)) (estep p d (.new v)) := by
  have hext : ∀ {r}, r < s.heap.length → (s.heap ++ [v])[r]? = s.heap[r]? := fun hr => getElem?_append_lt hr
  have hext' : ∀ {r : Nat} {w}, s.heap[r]? = some w → (s.heap ++ [v])[r]? = some w := fun hr => by
    rw [getElem?_append_lt (List.getElem?_eq_some_iff.1 hr).1, hr]
  refine ⟨?_, fun i r hi => ?_, fun i j r hi hj => ?_, fun i r hi => ?_, h.ress_len, h.ress_none, fun i r hi => ?_,
    h.outs, h.first, fun re rf hl => ?_, fun i r hi hu re rf hl => ?_, fun i r hi hu j hj => ?_, fun i hi => ?_⟩
  · show (s.arrs ++ [_]).length = (d.arrs ++ [v]).length
    simp [h.arrs_len]
  · show (s.heap ++ [v])[r]? = (d.arrs ++ [v])[i]?
    rcases getElem?_snoc hi with hi | ⟨rfl, rfl⟩
    · have hl := h.arrs_lt i r hi
      rw [hext hl, h.arrs_val i r hi, List.getElem?_append_left]
      rw [← h.arrs_len]
      exact (List.getElem?_eq_some_iff.1 hi).1
    · rw [h.arrs_len]; simp
  · rcases getElem?_snoc hi with hi | ⟨rfl, rfl⟩
    · rcases getElem?_snoc hj with hj | ⟨rfl, rfl⟩
      · exact h.arrs_inj i j r hi hj
      · exact absurd (h.arrs_lt i _ hi) (Nat.lt_irrefl _)
    · rcases getElem?_snoc hj with hj | ⟨rfl, _⟩
      · exact absurd (h.arrs_lt j _ hj) (Nat.lt_irrefl _)
      · rfl
  · show r < (s.heap ++ [v]).length
    rcases getElem?_snoc hi with hi | ⟨rfl, rfl⟩
    · rw [List.length_append]; exact Nat.lt_add_right _ (h.arrs_lt i r hi)
    · simp
  · obtain ⟨w, h1, h2⟩ := h.ress_val i r hi
    exact ⟨w, hext' h1, h2⟩
  · obtain ⟨f, w, a, b, c⟩ := h.last_ok re rf hl
    exact ⟨f, w, a, hext' b, hext' c⟩
  · rcases getElem?_snoc hi with hi | ⟨rfl, rfl⟩
    · exact h.last_priv i r hi hu re rf hl
    · obtain ⟨f, w, a, b, c⟩ := h.last_ok re rf hl
      exact ⟨Ne.symm (Nat.ne_of_lt (List.getElem?_eq_some_iff.1 b).1),
        Ne.symm (Nat.ne_of_lt (List.getElem?_eq_some_iff.1 c).1)⟩
  · rcases getElem?_snoc hi with hi | ⟨rfl, rfl⟩
    · exact h.ress_priv i r hi hu j hj
    · obtain ⟨w, h1, _⟩ := h.ress_val j _ hj
      exact Nat.lt_irrefl _ (List.getElem?_eq_some_iff.1 h1).1
  · obtain ⟨a, r, re, rf, w, b, c, e, f⟩ := h.latest i hi
    refine ⟨a, r, re, rf, w, ?_, c, hext' e, hext' f⟩
    show (s.arrs ++ [_])[i]? = _
    rw [List.getElem?_append_left (List.getElem?_eq_some_iff.1 b).1, b]

theorem GRel.write {p : GPhys V} {used : List Var} {li : Option Nat} {s : GState V} {d : EState V}
    (h : GRel p used li s d) (i : Nat) (v : V) (hu : Var.arr i ∉ used) :
    GRel p used li (gstep p s (.write (.arr i) v)) (estep p d (.write (.arr i) v)) := by
  rcases h.look (.arr i) with ⟨h1, h2⟩ | ⟨r, w, h1, h2, h3⟩
  · simp only [gstep, h1, estep]
    have h2' : d.arrs[i]? = none := h2
    rw [List.set_eq_of_length_le (List.getElem?_eq_none_iff.1 h2')]
    exact h
  · have h1' : s.arrs[i]? = some r := h1
    have hset : ∀ {q}, q ≠ r → (s.heap.set r v)[q]? = s.heap[q]? := fun hq =>
      List.getElem?_set_ne (Ne.symm hq)
    simp only [gstep, h1, estep]
    refine ⟨by simpa using h.arrs_len, fun j q hj => ?_, h.arrs_inj, fun j q hj => ?_, h.ress_len, h.ress_none,
      fun j q hj => ?_, h.outs, h.first, fun re rf hl => ?_, h.last_priv, h.ress_priv, fun j hj => ?_⟩
    · show (s.heap.set r v)[q]? = (d.arrs.set i v)[j]?
      by_cases hij : j = i
      · subst hij
        have : q = r := by rw [h1'] at hj; cases hj; rfl
        subst this
        rw [List.getElem?_set_self (List.getElem?_eq_some_iff.1 h3).1,
          List.getElem?_set_self (List.getElem?_eq_some_iff.1 (show d.arrs[j]? = some w from h2)).1]
      · rw [List.getElem?_set_ne (Ne.symm hij), hset, h.arrs_val j q hj]
        rintro rfl
        exact hij (h.arrs_inj j i q hj h1')
    · show q < (s.heap.set r v).length
      rw [List.length_set]; exact h.arrs_lt j q hj
    · obtain ⟨w', k1, k2⟩ := h.ress_val j q hj
      refine ⟨w', ?_, k2⟩
      show (s.heap.set r v)[q]? = _
      rw [hset, k1]
      rintro rfl
      exact h.ress_priv i q h1' hu j hj
    · obtain ⟨f, w', a, b, c⟩ := h.last_ok re rf hl
      obtain ⟨n1, n2⟩ := h.last_priv i r h1' hu re rf hl
      exact ⟨f, w', a, by show (s.heap.set r v)[re]? = _; rw [hset (Ne.symm n1), b],
        by show (s.heap.set r v)[rf]? = _; rw [hset (Ne.symm n2), c]⟩
    · obtain ⟨a, q, re, rf, w', b, c, e, f⟩ := h.latest j hj
      obtain ⟨n1, n2⟩ := h.last_priv i r h1' hu re rf c
      refine ⟨a, q, re, rf, w', b, c, ?_, by show (s.heap.set r v)[re]? = _; rw [hset (Ne.symm n1), f]⟩
      show (s.heap.set r v)[q]? = _
      rw [hset, e]
      rintro rfl
      have : j = i := h.arrs_inj j i q b h1'
      exact hu (this ▸ a)

theorem gstep_arrs (p : GPhys V) (s : GState V) (op : Op V) :
    (gstep p s op).arrs.length = match op with | .new _ => s.arrs.length + 1 | _ => s.arrs.length := by
  cases op with
  | new v => simp [gstep]
  | eval x => simp only [gstep]; repeat' split
              all_goals rfl
  | grad x g => simp only [gstep]; repeat' split
                all_goals rfl
  | write x v => simp only [gstep]; repeat' split
                 all_goals rfl

theorem GRel.run {p : GPhys V} : ∀ (ops : List (Op V)) {used : List Var} {li : Option Nat} {s : GState V} {d : EState V},
    GRel p used li s d → Polite used ops → GradAfterEval s.arrs.length li ops →
    (grun p s ops).outs = (erun p d ops).outs
  | [], _, _, _, _, h, _, _ => h.outs
  | .new v :: t, _, _, s, _, h, hp, hg => by
    refine GRel.run t (h.new v) hp ?_
    rw [gstep_arrs]
    exact hg
  | .write x v :: t, _, _, s, _, h, hp, hg => by
    obtain ⟨⟨i, rfl⟩, hu, ht⟩ := hp
    refine GRel.run t (h.write i v hu) ht ?_
    rw [gstep_arrs]
    exact hg
  | .eval x :: t, _, _, s, _, h, hp, hg => by
    refine GRel.run t (h.eval x) hp ?_
    rw [gstep_arrs]
    cases x with
    | arr i => exact hg
    | res i => exact hg
  | .grad x g :: t, _, li, s, _, h, hp, hg => by
    obtain ⟨⟨i, rfl, rfl⟩, ht⟩ := hg
    refine GRel.run t (h.grad g) hp ?_
    rw [gstep_arrs]
    exact ht

theorem GRel.start (p : GPhys V) : GRel p [] none (freshNode V) (emptyE V) := by
  refine ⟨rfl, ?_, ?_, ?_, rfl, ?_, ?_, rfl, rfl, ?_, ?_, ?_, ?_⟩
  all_goals intros; simp_all [freshNode]

/-- C50 for goos: with the caller restrictions, every call of a `SimulateNode` returns what a node without the result
cache returns. -/
theorem goos_cache_transparent_partial (p : GPhys V) (ops : List (Op V)) (hp : Polite [] ops)
    (hg : GradAfterEval 0 none ops) : (grun p (freshNode V) ops).outs = (erun p (emptyE V) ops).outs :=
  GRel.run ops (GRel.start p) hp hg

/-- Updating the permittivity in place makes the cache return old fields. -/
theorem goos_cache_transparent_false : ¬ ∀ (V : Type) (_ : DecidableEq V) (p : GPhys V) (ops : List (Op V)),
    GradAfterEval 0 none ops → (grun p (freshNode V) ops).outs = (erun p (emptyE V) ops).outs := by
  intro h
  have := h Nat inferInstance ⟨fun _ e => e, fun _ _ g => g, fun a b c => a + b + c⟩
    [.new 1, .eval (.arr 0), .write (.arr 0) 2, .eval (.arr 0)] (by simp [GradAfterEval])
  revert this
  decide

/-- `grad` uses the fields of the latest `eval` for whatever permittivity it is given. -/
theorem goos_grad_stale_false : ¬ ∀ (V : Type) (_ : DecidableEq V) (p : GPhys V) (ops : List (Op V)),
    Polite [] ops → (grun p (freshNode V) ops).outs = (erun p (emptyE V) ops).outs := by
  intro h
  have := h Nat inferInstance ⟨fun _ e => e, fun _ _ g => g, fun a b c => a + b + c⟩
    [.new 1, .new 2, .eval (.arr 0), .grad (.arr 1) (.arr 1)] (by simp [Polite])
  revert this
  decide

/-- A caller that meets both hypotheses: an optimization loop over new arrays. -/
example : let ops : List (Op Nat) := [.new 1, .eval (.arr 0), .new 9, .grad (.arr 0) (.arr 1), .new 1, .eval (.arr 2),
      .grad (.arr 2) (.arr 1), .new 3, .eval (.arr 3), .grad (.arr 3) (.arr 1)]
    Polite [] ops ∧ GradAfterEval 0 none ops := by
  simp [Polite, GradAfterEval]

/-! ### C57: outputs and history -/

/-- When the sources and overlap modes do not depend on the part of the permittivity that varies between calls, the
fields returned for a permittivity are the fields of a node that never saw another one, whatever was simulated before. -/
theorem eval_history_independent_partial (p : GPhys V) (ops : List (Op V)) (x : Nat) (v : V)
    (hp : Polite [] (ops ++ [.eval (.arr x)])) (hg : GradAfterEval 0 none (ops ++ [.eval (.arr x)]))
    (hx : (erun p (emptyE V) ops).arrs[x]? = some v)
    (hmodes : ∀ f, (erun p (emptyE V) ops).first = some f → p.forward f v = p.forward v v) :
    (grun p (freshNode V) (ops ++ [.eval (.arr x)])).outs =
      (grun p (freshNode V) ops).outs ++ (grun p (freshNode V) [.new v, .eval (.arr 0)]).outs := by
  have hp' : ∀ (ops : List (Op V)) used t, Polite used (ops ++ t) → Polite used ops := by
    intro ops
    induction ops with
    | nil => intro _ _ _; trivial
    | cons o os ih =>
      intro used t h
      cases o with
      | new v => exact ih used t h
      | eval y => exact ih _ t h
      | grad y g => exact ih _ t h
      | write y v => exact ⟨h.1, h.2.1, ih _ t h.2.2⟩
  have hg' : ∀ (ops : List (Op V)) n li t, GradAfterEval n li (ops ++ t) → GradAfterEval n li ops := by
    intro ops
    induction ops with
    | nil => intro _ _ _ _; trivial
    | cons o os ih =>
      intro n li t h
      cases o with
      | new v => exact ih _ _ t h
      | eval y => cases y with
        | arr i => exact ih _ _ t h
        | res i => exact ih _ _ t h
      | grad y g => exact ⟨h.1, ih _ _ t h.2⟩
      | write y v => exact ih _ _ t h
  rw [goos_cache_transparent_partial p _ hp hg, goos_cache_transparent_partial p ops (hp' _ _ _ hp) (hg' _ _ _ _ hg)]
  have h1 : (grun p (freshNode V) [.new v, .eval (.arr 0)]).outs = [some (p.forward v v)] := by
    simp [grun, gstep, freshNode, GState.look, GState.hit]
  rw [h1]
  unfold erun at hx hmodes ⊢
  rw [List.foldl_append]
  generalize List.foldl (estep p) (emptyE V) ops = d at hx hmodes
  have hl : d.look (.arr x) = some v := hx
  simp only [List.foldl_cons, List.foldl_nil, estep, hl]
  show d.outs ++ [some (p.forward (d.first.getD v) v)] = _
  cases hf : d.first with
  | none => rfl
  | some f => rw [Option.getD_some, hmodes f hf]

/-- In general they are not: sources and overlap modes stay those of the first permittivity simulated. -/
theorem eval_history_independent_false : ¬ ∀ (V : Type) (_ : DecidableEq V) (p : GPhys V) (ops : List (Op V)) (x : Nat)
    (v : V), Polite [] (ops ++ [.eval (.arr x)]) → GradAfterEval 0 none (ops ++ [.eval (.arr x)]) →
    (erun p (emptyE V) ops).arrs[x]? = some v →
    (grun p (freshNode V) (ops ++ [.eval (.arr x)])).outs =
      (grun p (freshNode V) ops).outs ++ (grun p (freshNode V) [.new v, .eval (.arr 0)]).outs := by
  intro h
  have := h Nat inferInstance ⟨fun f e => 10 * f + e, fun _ _ g => g, fun a b c => a + b + c⟩
    [.new 1, .eval (.arr 0), .new 2] 1 2 (by simp [Polite]) (by simp [GradAfterEval]) (by decide)
  revert this
  decide

end Verif.Sim
