import Verif.Sim.CacheSpec
/-
Property C50: the result caches of simulations do not show.
-/
namespace Verif.Sim
set_option linter.unusedSectionVars false
variable {V : Type} [DecidableEq V]

/-! ### Lemmas about the cache of `FdfdSimulation` -/

/-- All the arrays a cache refers to. -/
def refs (c : List (Option Entry)) (r : Ref) : Prop := ∃ e, some e ∈ c ∧ (r ∈ e.key ∨ r = e.fields)

structure CInv (solve : List (Option V) → Option V) (h : List V) (c : List (Option Entry)) : Prop where
  key_lt : ∀ e, some e ∈ c → ∀ r ∈ e.key, r < h.length
  good : ∀ e, some e ∈ c → ∃ v, h[e.fields]? = some v ∧ solve (values h e.key) = some v

theorem values_ext {h h' : List V} {k : List Ref} (hk : ∀ r ∈ k, h'[r]? = h[r]?) : values h' k = values h k :=
  List.map_congr_left hk

theorem CInv.ext {solve : List (Option V) → Option V} {h h' : List V} {c : List (Option Entry)}
    (hc : CInv solve h c) (hl : h.length ≤ h'.length) (he : ∀ r, refs c r → h'[r]? = h[r]?) : CInv solve h' c := by
  refine ⟨fun e hm r hr => Nat.lt_of_lt_of_le (hc.key_lt e hm r hr) hl, fun e hm => ?_⟩
  obtain ⟨v, h1, h2⟩ := hc.good e hm
  refine ⟨v, ?_, ?_⟩
  · rw [he _ ⟨e, hm, Or.inr rfl⟩, h1]
  · rw [values_ext fun r hr => he r ⟨e, hm, Or.inl hr⟩, h2]

theorem refs_lt {solve : List (Option V) → Option V} {h : List V} {c : List (Option Entry)} (hc : CInv solve h c)
    {r : Ref} (hr : refs c r) : r < h.length := by
  obtain ⟨e, hm, h1 | rfl⟩ := hr
  · exact hc.key_lt e hm r h1
  · obtain ⟨v, hv, _⟩ := hc.good e hm
    exact (List.getElem?_eq_some_iff.1 hv).1

theorem lru_hit {h : List V} {key : List Ref} : ∀ {c : List (Option Entry)} {f : Ref} {c' : List (Option Entry)},
    lruLoop h key c = some (f, c') → (∃ e, some e ∈ c ∧ e.fields = f ∧ values h e.key = values h key) ∧
      (∀ e, e ∈ c' → e ∈ c)
  | [], _, _, hl => by cases hl
  | none :: t, f, c', hl => by
    rw [lruLoop] at hl
    obtain ⟨⟨f1, c1⟩, h1, h2⟩ := Option.map_eq_some_iff.1 hl
    cases h2
    obtain ⟨⟨e, he, h3, h4⟩, h5⟩ := lru_hit h1
    refine ⟨⟨e, List.mem_cons_of_mem _ he, h3, h4⟩, fun e he => ?_⟩
    rcases List.mem_cons.1 he with rfl | he
    · exact List.mem_cons_self
    · exact List.mem_cons_of_mem _ (h5 e he)
  | some e0 :: t, f, c', hl => by
    rw [lruLoop] at hl
    split at hl
    · next hv =>
      cases hl
      exact ⟨⟨e0, List.mem_cons_self, rfl, hv⟩, fun e he => List.mem_cons_of_mem _ he⟩
    · obtain ⟨⟨f1, c1⟩, h1, h2⟩ := Option.map_eq_some_iff.1 hl
      cases h2
      obtain ⟨⟨e, he, h3, h4⟩, h5⟩ := lru_hit h1
      refine ⟨⟨e, List.mem_cons_of_mem _ he, h3, h4⟩, fun e he => ?_⟩
      rcases List.mem_cons.1 he with rfl | he
      · exact List.mem_cons_self
      · exact List.mem_cons_of_mem _ (h5 e he)

theorem getElem?_append_lt {h t : List V} {r : Nat} (hr : r < h.length) : (h ++ t)[r]? = h[r]? :=
  List.getElem?_append_left hr

/-- What `_simulate` does to a sound cache. -/
theorem simulate_spec (solve : List (Option V) → Option V) {h : List V} {c : List (Option Entry)} {key : List Ref}
    (hc : CInv solve h c) (hne : c ≠ []) (hk : ∀ r ∈ key, r < h.length) :
    (solve (values h key) = none ∧ simulate solve h c key = none) ∨
    ∃ v h' c' f, solve (values h key) = some v ∧ simulate solve h c key = some (h', c', f) ∧ h'[f]? = some v ∧
      CInv solve h' c' ∧ c' ≠ [] ∧ (∃ t, h' = h ++ t) ∧
      (∀ r, refs c' r → refs c r ∨ r ∈ key ∨ h.length ≤ r) ∧ (refs c f ∨ h.length ≤ f) := by
  unfold simulate
  cases hl : lruLoop h key c with
  | some p =>
    obtain ⟨f, c1⟩ := p
    right
    obtain ⟨⟨e, he, hf, hv⟩, hsub⟩ := lru_hit hl
    obtain ⟨v, h1, h2⟩ := hc.good e he
    rw [hf] at h1
    rw [hv] at h2
    refine ⟨v, h, c1 ++ [some ⟨key, f⟩], f, h2, rfl, h1, ⟨?_, ?_⟩, by simp, ⟨[], by simp⟩, ?_,
      Or.inl ⟨e, he, Or.inr hf.symm⟩⟩
    · intro e' he' r hr
      rcases List.mem_append.1 he' with he' | he'
      · exact hc.key_lt e' (hsub _ he') r hr
      · cases List.mem_singleton.1 he'
        exact hk r hr
    · intro e' he'
      rcases List.mem_append.1 he' with he' | he'
      · exact hc.good e' (hsub _ he')
      · cases List.mem_singleton.1 he'
        exact ⟨v, h1, h2⟩
    · rintro r ⟨e', he', hr⟩
      rcases List.mem_append.1 he' with he' | he'
      · exact Or.inl ⟨e', hsub _ he', hr⟩
      · cases List.mem_singleton.1 he'
        rcases hr with hr | hr
        · exact Or.inr (Or.inl hr)
        · exact Or.inl ⟨e, he, Or.inr (by rw [hf]; exact hr)⟩
  | none =>
    cases hs : solve (values h key) with
    | none => exact Or.inl ⟨rfl, rfl⟩
    | some v =>
      right
      cases c with
      | nil => exact absurd rfl hne
      | cons c0 t =>
        have hv : ∀ k : List Ref, (∀ r ∈ k, r < h.length) → values (h ++ [v]) k = values h k :=
          fun k hk => values_ext fun r hr => getElem?_append_lt (hk r hr)
        have hnew : (h ++ [v])[h.length]? = some v := by simp
        refine ⟨v, h ++ [v], t ++ [some ⟨key, h.length⟩], h.length, rfl, rfl, hnew, ⟨?_, ?_⟩, by simp, ⟨[v], rfl⟩,
          ?_, Or.inr (Nat.le_refl _)⟩
        · intro e' he' r hr
          rw [List.length_append]
          rcases List.mem_append.1 he' with he' | he'
          · exact Nat.lt_add_right _ (hc.key_lt e' (List.mem_cons_of_mem _ he') r hr)
          · cases List.mem_singleton.1 he'
            exact Nat.lt_add_right _ (hk r hr)
        · intro e' he'
          rcases List.mem_append.1 he' with he' | he'
          · obtain ⟨w, h1, h2⟩ := hc.good e' (List.mem_cons_of_mem _ he')
            refine ⟨w, ?_, ?_⟩
            · rw [getElem?_append_lt (List.getElem?_eq_some_iff.1 h1).1, h1]
            · rw [hv _ (hc.key_lt e' (List.mem_cons_of_mem _ he')), h2]
          · cases List.mem_singleton.1 he'
            exact ⟨v, hnew, by rw [hv _ hk, hs]⟩
        · rintro r ⟨e', he', hr⟩
          rcases List.mem_append.1 he' with he' | he'
          · exact Or.inl ⟨e', List.mem_cons_of_mem _ he', hr⟩
          · cases List.mem_singleton.1 he'
            rcases hr with hr | hr
            · exact Or.inr (Or.inl hr)
            · exact Or.inr (Or.inr (Nat.le_of_eq hr.symm))

/-! ### The simulation relation -/

/-- The cached and the cache-free run agree; arrays not handed over yet are private. -/
structure Rel (p : Phys V) (used : List Var) (s : CState V) (d : DState V) : Prop where
  arrs_len : s.arrs.length = d.arrs.length
  arrs_val : ∀ (i : Nat) r, s.arrs[i]? = some r → s.heap[r]? = d.arrs[i]?
  arrs_inj : ∀ (i j : Nat) r, s.arrs[i]? = some r → s.arrs[j]? = some r → i = j
  arrs_lt : ∀ (i : Nat) r, s.arrs[i]? = some r → r < s.heap.length
  ress_len : s.ress.length = d.ress.length
  ress_none : ∀ (i : Nat), s.ress[i]? = some none → d.ress[i]? = some none
  ress_val : ∀ (i : Nat) r, s.ress[i]? = some (some r) → ∃ v, s.heap[r]? = some v ∧ d.ress[i]? = some (some v)
  outs : s.outs = d.outs
  invF : CInv p.forward s.heap s.cacheF
  invA : CInv p.adjoint s.heap s.cacheA
  neF : s.cacheF ≠ []
  neA : s.cacheA ≠ []
  priv : ∀ (i : Nat) r, s.arrs[i]? = some r → Var.arr i ∉ used →
    ¬ refs s.cacheF r ∧ ¬ refs s.cacheA r ∧ ∀ j : Nat, s.ress[j]? ≠ some (some r)

theorem Rel.look {p : Phys V} {used : List Var} {s : CState V} {d : DState V} (h : Rel p used s d) (x : Var) :
    (s.look x = none ∧ d.look x = none) ∨ ∃ r v, s.look x = some r ∧ d.look x = some v ∧ s.heap[r]? = some v := by
  cases x with
  | arr i =>
    show (s.arrs[i]? = none ∧ d.arrs[i]? = none) ∨ _
    cases hr : s.arrs[i]? with
    | none =>
      left
      refine ⟨rfl, ?_⟩
      rw [List.getElem?_eq_none_iff] at hr ⊢
      rw [← h.arrs_len]; exact hr
    | some r =>
      right
      have h1 := h.arrs_val i r hr
      have h2 := h.arrs_lt i r hr
      rw [List.getElem?_eq_getElem h2] at h1
      exact ⟨r, _, hr, h1.symm, List.getElem?_eq_getElem h2⟩
  | res i =>
    show (s.ress[i]?.join = none ∧ d.ress[i]?.join = none) ∨ _
    cases hr : s.ress[i]? with
    | none =>
      left
      refine ⟨rfl, ?_⟩
      have : d.ress[i]? = none := by
        rw [List.getElem?_eq_none_iff] at hr ⊢
        rw [← h.ress_len]; exact hr
      rw [this]; rfl
    | some o =>
      cases o with
      | none => left; exact ⟨rfl, by rw [h.ress_none i hr]; rfl⟩
      | some r =>
        right
        obtain ⟨v, h1, h2⟩ := h.ress_val i r hr
        refine ⟨r, v, ?_, ?_, h1⟩
        · show s.ress[i]?.join = _
          rw [hr]; rfl
        · show d.ress[i]?.join = _
          rw [h2]; rfl

theorem getElem?_snoc {α : Type} {l : List α} {a : α} {i : Nat} {x : α} (h : (l ++ [a])[i]? = some x) :
    l[i]? = some x ∨ (i = l.length ∧ x = a) := by
  rw [List.getElem?_append] at h
  split at h
  · exact Or.inl h
  · next hn =>
    right
    have : i - l.length = 0 := by
      have := (List.getElem?_eq_some_iff.1 h).1
      simp at this
      omega
    rw [this] at h
    simp at h
    exact ⟨by omega, h.symm⟩

/-- A call that adds arrays, changes the caches and returns `o`. -/
theorem Rel.call {p : Phys V} {used used' : List Var} {s : CState V} {d : DState V} (h : Rel p used s d)
    {t : List V} {cF cA : List (Option Entry)} {ro : Option Ref} {o : Option V}
    (hF : CInv p.forward (s.heap ++ t) cF) (hA : CInv p.adjoint (s.heap ++ t) cA) (nF : cF ≠ []) (nA : cA ≠ [])
    (hsub : ∀ x ∈ used, x ∈ used')
    (hpF : ∀ (i : Nat) r, s.arrs[i]? = some r → Var.arr i ∉ used' → ¬ refs cF r)
    (hpA : ∀ (i : Nat) r, s.arrs[i]? = some r → Var.arr i ∉ used' → ¬ refs cA r)
    (hpo : ∀ (i : Nat) r, s.arrs[i]? = some r → Var.arr i ∉ used' → ro ≠ some r)
    (hro : (ro = none ∧ o = none) ∨ ∃ r v, ro = some r ∧ o = some v ∧ (s.heap ++ t)[r]? = some v) :
    Rel p used' ⟨s.heap ++ t, s.arrs, s.ress ++ [ro], cF, cA, s.outs ++ [o]⟩ (d.ret o) := by
  have hlt : ∀ (i : Nat) r, s.arrs[i]? = some r → (s.heap ++ t)[r]? = s.heap[r]? :=
    fun i r hr => getElem?_append_lt (h.arrs_lt i r hr)
  refine ⟨h.arrs_len, fun i r hr => ?_, h.arrs_inj, fun i r hr => ?_, ?_, fun i hi => ?_, fun i r hi => ?_, ?_, hF, hA,
    nF, nA, fun i r hr hu => ⟨hpF i r hr hu, hpA i r hr hu, fun j hj => ?_⟩⟩
  · show (s.heap ++ t)[r]? = _
    rw [hlt i r hr]; exact h.arrs_val i r hr
  · show r < (s.heap ++ t).length
    rw [List.length_append]; exact Nat.lt_add_right _ (h.arrs_lt i r hr)
  · show (s.ress ++ [ro]).length = (d.ress ++ [o]).length
    simp [h.ress_len]
  · show (d.ress ++ [o])[i]? = some none
    rcases getElem?_snoc hi with hi | ⟨rfl, he⟩
    · have h1 := h.ress_none i hi
      rw [List.getElem?_append_left (List.getElem?_eq_some_iff.1 h1).1, h1]
    · rcases hro with ⟨_, rfl⟩ | ⟨r, v, hr, _⟩
      · rw [h.ress_len]; simp
      · rw [hr] at he; cases he
  · show ∃ v, (s.heap ++ t)[r]? = some v ∧ (d.ress ++ [o])[i]? = some (some v)
    rcases getElem?_snoc hi with hi | ⟨rfl, he⟩
    · obtain ⟨v, h1, h2⟩ := h.ress_val i r hi
      refine ⟨v, ?_, ?_⟩
      · rw [getElem?_append_lt (List.getElem?_eq_some_iff.1 h1).1, h1]
      · rw [List.getElem?_append_left (List.getElem?_eq_some_iff.1 h2).1, h2]
    · rcases hro with ⟨hn, _⟩ | ⟨r', v, hr, rfl, hv⟩
      · rw [hn] at he; cases he
      · rw [hr] at he; cases he
        exact ⟨v, hv, by rw [h.ress_len]; simp⟩
  · show s.outs ++ [o] = d.outs ++ [o]
    rw [h.outs]
  · rcases getElem?_snoc hj with hj | ⟨_, he⟩
    · exact (h.priv i r hr (fun hm => hu (hsub _ hm))).2.2 j hj
    · exact hpo i r hr hu he.symm

theorem Rel.fail {p : Phys V} {used used' : List Var} {s : CState V} {d : DState V} (h : Rel p used s d)
    (hsub : ∀ x ∈ used, x ∈ used') : Rel p used' s.fail (d.ret none) := by
  have hc := h.call (t := []) (cF := s.cacheF) (cA := s.cacheA) (ro := none) (o := none) (used' := used')
    (by simpa using h.invF) (by simpa using h.invA) h.neF h.neA hsub
    (fun i r hr hu => (h.priv i r hr fun hm => hu (hsub _ hm)).1)
    (fun i r hr hu => (h.priv i r hr fun hm => hu (hsub _ hm)).2.1)
    (fun _ _ _ _ => by simp) (Or.inl ⟨rfl, rfl⟩)
  rw [List.append_nil] at hc
  exact hc

theorem look_arr_ne {p : Phys V} {used : List Var} {s : CState V} {d : DState V} (h : Rel p used s d) {x : Var} {r : Ref}
    (hx : s.look x = some r) {i : Nat} {r' : Ref} (hr : s.arrs[i]? = some r') (hu : Var.arr i ∉ x :: used) :
    r' ≠ r := by
  rintro rfl
  cases x with
  | arr j =>
    have : j = i := h.arrs_inj j i r' hx hr
    exact hu (this ▸ List.mem_cons_self)
  | res j =>
    have hj : s.ress[j]? = some (some r') := by
      have : s.ress[j]?.join = some r' := hx
      cases hs : s.ress[j]? with
      | none => rw [hs] at this; cases this
      | some o => rw [hs] at this; exact congrArg some this
    exact (h.priv i r' hr (fun hm => hu (List.mem_cons_of_mem _ hm))).2.2 j hj

theorem Rel.eval {p : Phys V} {used : List Var} {s : CState V} {d : DState V} (h : Rel p used s d) (x : Var) :
    Rel p (x :: used) (cstep p s (.eval x)) (dstep p d (.eval x)) := by
  have hsub : ∀ y ∈ used, y ∈ x :: used := fun y hy => List.mem_cons_of_mem _ hy
  rcases h.look x with ⟨h1, h2⟩ | ⟨r, v, h1, h2, h3⟩
  · simp only [cstep, dstep, h1, h2, Option.bind_none]
    exact h.fail hsub
  · have hkey : ∀ q ∈ [r], q < s.heap.length := by
      intro q hq; cases List.mem_singleton.1 hq; exact (List.getElem?_eq_some_iff.1 h3).1
    have hval : values s.heap [r] = [some v] := by simp [values, h3]
    simp only [cstep, dstep, h1, h2, Option.bind_some]
    rcases simulate_spec p.forward h.invF h.neF hkey with ⟨e1, e2⟩ | ⟨w, h', c', f, e1, e2, e3, e4, e5, ⟨t, rfl⟩, e6, e7⟩
    · rw [hval] at e1
      simp only [e1, e2]
      exact h.fail hsub
    · rw [hval] at e1
      simp only [e1, e2, e3]
      refine h.call e4 ?_ e5 h.neA hsub ?_ ?_ ?_ (Or.inr ⟨f, w, rfl, rfl, e3⟩)
      · exact h.invA.ext (by simp) fun q hq => getElem?_append_lt (refs_lt h.invA hq)
      · intro i q hq hu hr
        rcases e6 q hr with h4 | h4 | h4
        · exact (h.priv i q hq fun hm => hu (hsub _ hm)).1 h4
        · exact look_arr_ne h h1 hq hu (List.mem_singleton.1 h4)
        · exact absurd (h.arrs_lt i q hq) (Nat.not_lt.2 h4)
      · intro i q hq hu
        exact (h.priv i q hq fun hm => hu (hsub _ hm)).2.1
      · rintro i q hq hu hf
        cases hf
        rcases e7 with h4 | h4
        · exact (h.priv i f hq fun hm => hu (hsub _ hm)).1 h4
        · exact absurd (h.arrs_lt i f hq) (Nat.not_lt.2 h4)

theorem Rel.grad {p : Phys V} {used : List Var} {s : CState V} {d : DState V} (h : Rel p used s d) (x g : Var) :
    Rel p (x :: g :: used) (cstep p s (.grad x g)) (dstep p d (.grad x g)) := by
  have hsub : ∀ y ∈ used, y ∈ x :: g :: used := fun y hy => List.mem_cons_of_mem _ (List.mem_cons_of_mem _ hy)
  rcases h.look x with ⟨h1, h2⟩ | ⟨r, v, h1, h2, h3⟩
  · simp only [cstep, dstep, h1, h2, Option.bind_none]
    exact h.fail hsub
  rcases h.look g with ⟨g1, g2⟩ | ⟨q, vg, g1, g2, g3⟩
  · simp only [cstep, dstep, h1, h2, g1, g2, Option.bind_none, Option.bind_some]
    exact h.fail hsub
  have hrlt := (List.getElem?_eq_some_iff.1 h3).1
  have hqlt := (List.getElem?_eq_some_iff.1 g3).1
  have hkey : ∀ q ∈ [r], q < s.heap.length := by
    intro q hq; cases List.mem_singleton.1 hq; exact hrlt
  have hval : values s.heap [r] = [some v] := by simp [values, h3]
  simp only [cstep, dstep, h1, h2, g1, g2, Option.bind_some]
  have hne : ∀ {i : Nat} {q'}, s.arrs[i]? = some q' → Var.arr i ∉ x :: g :: used → q' ≠ r := by
    intro i q' hq' hu
    refine look_arr_ne h h1 hq' (fun hm => hu ?_)
    rcases List.mem_cons.1 hm with rfl | hm
    · exact List.mem_cons_self
    · exact hsub _ hm
  rcases simulate_spec p.forward h.invF h.neF hkey with ⟨e1, e2⟩ | ⟨w, h', cF, fE, e1, e2, e3, e4, e5, ⟨t, rfl⟩, e6, e7⟩
  · rw [hval] at e1
    simp only [e1, e2, Option.bind_none]
    exact h.fail hsub
  rw [hval] at e1
  have hq' : (s.heap ++ t)[q]? = some vg := by rw [getElem?_append_lt hqlt, g3]
  simp only [e1, e2, hq', Option.bind_some]
  have hpF : ∀ (i : Nat) r, s.arrs[i]? = some r → Var.arr i ∉ x :: g :: used → ¬ refs cF r := by
    intro i q hq hu hr
    rcases e6 q hr with h4 | h4 | h4
    · exact (h.priv i q hq fun hm => hu (hsub _ hm)).1 h4
    · exact hne hq hu (List.mem_singleton.1 h4)
    · exact absurd (h.arrs_lt i q hq) (Nat.not_lt.2 h4)
  have hfE := (List.getElem?_eq_some_iff.1 e3).1
  -- the adjoint solve on the extended heap
  have hA1 : CInv p.adjoint ((s.heap ++ t) ++ [p.source vg]) s.cacheA :=
    h.invA.ext (by simp) fun q hq => by
      have := refs_lt h.invA hq
      rw [List.append_assoc, getElem?_append_lt this]
  have hF1 : ∀ t', CInv p.forward ((s.heap ++ t) ++ t') cF := fun t' =>
    e4.ext (by simp) fun q hq => getElem?_append_lt (refs_lt e4 hq)
  have hkey2 : ∀ q ∈ [r, (s.heap ++ t).length], q < ((s.heap ++ t) ++ [p.source vg]).length := by
    intro q hq
    simp only [List.mem_cons, List.not_mem_nil, or_false] at hq
    rcases hq with rfl | rfl
    · simp only [List.length_append]; exact Nat.lt_add_right _ (Nat.lt_add_right _ hrlt)
    · simp
  have hr1 : (s.heap ++ t)[r]? = some v := by rw [getElem?_append_lt hrlt, h3]
  have hval2 : values ((s.heap ++ t) ++ [p.source vg]) [r, (s.heap ++ t).length] = [some v, some (p.source vg)] := by
    have a1 : ((s.heap ++ t) ++ [p.source vg])[r]? = some v := by
      rw [getElem?_append_lt (List.getElem?_eq_some_iff.1 hr1).1, hr1]
    have a2 : ((s.heap ++ t) ++ [p.source vg])[(s.heap ++ t).length]? = some (p.source vg) := by simp
    simp only [values, List.map_cons, List.map_nil, a1, a2]
  rcases simulate_spec p.adjoint hA1 h.neA hkey2 with ⟨k1, k2⟩ | ⟨w2, h3', cA, fd, k1, k2, k3, k4, k5, ⟨t2, rfl⟩, k6, k7⟩
  · rw [hval2] at k1
    simp only [k1, k2, Option.map_none]
    have hc := h.call (t := t ++ [p.source vg]) (cF := cF) (cA := s.cacheA) (ro := none) (o := none)
      (used' := x :: g :: used) (by rw [← List.append_assoc]; exact hF1 _) (by rw [← List.append_assoc]; exact hA1)
      e5 h.neA hsub hpF (fun i r hr hu => (h.priv i r hr fun hm => hu (hsub _ hm)).2.1) (fun _ _ _ _ => by simp)
      (Or.inl ⟨rfl, rfl⟩)
    rw [← List.append_assoc] at hc
    exact hc
  · rw [hval2] at k1
    have hrA : (s.heap ++ t ++ [p.source vg] ++ t2)[r]? = some v := by
      rw [List.append_assoc, getElem?_append_lt (List.getElem?_eq_some_iff.1 hr1).1, hr1]
    have hE2 : (s.heap ++ t ++ [p.source vg] ++ t2)[fE]? = some w := by
      rw [List.append_assoc, getElem?_append_lt hfE, e3]
    simp only [k1, k2, k3, hrA, hE2, Option.map_some]
    have hsplit : s.heap ++ t ++ [p.source vg] ++ t2 ++ [p.combine (some w) (some w2) (some v)] =
        s.heap ++ (t ++ [p.source vg] ++ t2 ++ [p.combine (some w) (some w2) (some v)]) := by
      simp only [List.append_assoc]
    have hc := h.call (t := t ++ [p.source vg] ++ t2 ++ [p.combine (some w) (some w2) (some v)]) (cF := cF) (cA := cA)
      (ro := some (s.heap ++ t ++ [p.source vg] ++ t2).length) (o := some (p.combine (some w) (some w2) (some v)))
      (used' := x :: g :: used)
      (by rw [← hsplit, List.append_assoc (s.heap ++ t ++ [p.source vg]), List.append_assoc (s.heap ++ t)]; exact hF1 _)
      (by rw [← hsplit]; exact k4.ext (by simp) fun q hq => getElem?_append_lt (refs_lt k4 hq))
      e5 k5 hsub hpF ?_ ?_ (Or.inr ⟨_, _, rfl, rfl, by rw [← hsplit]; simp⟩)
    · rw [← hsplit] at hc
      exact hc
    · intro i q hq hu hr
      have hlt : @LT.lt Nat instLTNat q s.heap.length := h.arrs_lt i q hq
      rcases k6 q hr with h4 | h4 | h4
      · exact (h.priv i q hq fun hm => hu (hsub _ hm)).2.1 h4
      · simp only [List.mem_cons, List.not_mem_nil, or_false] at h4
        rcases h4 with h4 | h4
        · exact hne hq hu h4
        · rw [h4] at hlt; simp at hlt; omega
      · simp only [List.length_append] at h4; omega
    · intro i q hq hu he
      have hlt : @LT.lt Nat instLTNat q s.heap.length := h.arrs_lt i q hq
      simp only [Option.some.injEq, List.length_append] at he
      rw [← he] at hlt
      omega

theorem Rel.step {p : Phys V} {used : List Var} {s : CState V} {d : DState V} (h : Rel p used s d) (op : Op V)
    (t : List (Op V)) (hp : Polite used (op :: t)) :
    ∃ used', Rel p used' (cstep p s op) (dstep p d op) ∧ Polite used' t := by
  cases op with
  | eval x => exact ⟨_, h.eval x, hp⟩
  | grad x g => exact ⟨_, h.grad x g, hp⟩
  | new v =>
    refine ⟨used, ?_, hp⟩
    have hext : ∀ {r}, r < s.heap.length → (s.heap ++ [v])[r]? = s.heap[r]? := fun hr => getElem?_append_lt hr
    refine ⟨?_, fun i r hi => ?_, fun i j r hi hj => ?_, fun i r hi => ?_, h.ress_len, h.ress_none, fun i r hi => ?_,
      h.outs, h.invF.ext (by simp [cstep]) fun r hr => hext (refs_lt h.invF hr),
      h.invA.ext (by simp [cstep]) fun r hr => hext (refs_lt h.invA hr), h.neF, h.neA, fun i r hi hu => ?_⟩
    · show (s.arrs ++ [_]).length = (d.arrs ++ [v]).length
      simp [h.arrs_len]
    · show (s.heap ++ [v])[r]? = (d.arrs ++ [v])[i]?
      rcases getElem?_snoc hi with hi | ⟨rfl, rfl⟩
      · have hl := h.arrs_lt i r hi
        rw [hext hl, h.arrs_val i r hi, List.getElem?_append_left]
        rw [← h.arrs_len]
        exact (List.getElem?_eq_some_iff.1 hi).1
      · rw [h.arrs_len]; simp
    · rcases getElem?_snoc hi with hi | ⟨rfl, rfl⟩
      · rcases getElem?_snoc hj with hj | ⟨rfl, rfl⟩
        · exact h.arrs_inj i j r hi hj
        · exact absurd (h.arrs_lt i _ hi) (Nat.lt_irrefl _)
      · rcases getElem?_snoc hj with hj | ⟨rfl, _⟩
        · exact absurd (h.arrs_lt j _ hj) (Nat.lt_irrefl _)
        · rfl
    · show r < (s.heap ++ [v]).length
      rcases getElem?_snoc hi with hi | ⟨rfl, rfl⟩
      · rw [List.length_append]; exact Nat.lt_add_right _ (h.arrs_lt i r hi)
      · simp
    · obtain ⟨w, h1, h2⟩ := h.ress_val i r hi
      exact ⟨w, by show (s.heap ++ [v])[r]? = _; rw [hext (List.getElem?_eq_some_iff.1 h1).1, h1], h2⟩
    · rcases getElem?_snoc hi with hi | ⟨rfl, rfl⟩
      · exact h.priv i r hi hu
      · refine ⟨fun hr => Nat.lt_irrefl _ (refs_lt h.invF hr), fun hr => Nat.lt_irrefl _ (refs_lt h.invA hr),
          fun j hj => ?_⟩
        obtain ⟨w, h1, _⟩ := h.ress_val j _ hj
        exact Nat.lt_irrefl _ (List.getElem?_eq_some_iff.1 h1).1
  | write x v =>
    obtain ⟨⟨i, rfl⟩, hu, ht⟩ := hp
    refine ⟨used, ?_, ht⟩
    rcases h.look (.arr i) with ⟨h1, h2⟩ | ⟨r, w, h1, h2, h3⟩
    · simp only [cstep, h1, dstep, DState.put]
      have h2' : d.arrs[i]? = none := h2
      rw [List.set_eq_of_length_le (List.getElem?_eq_none_iff.1 h2')]
      exact h
    · have h1' : s.arrs[i]? = some r := h1
      obtain ⟨pF, pA, pR⟩ := h.priv i r h1' hu
      have hset : ∀ {q}, q ≠ r → (s.heap.set r v)[q]? = s.heap[q]? := fun hq =>
        List.getElem?_set_ne (Ne.symm hq)
      simp only [cstep, h1, dstep, DState.put]
      refine ⟨by simpa using h.arrs_len, fun j q hj => ?_, h.arrs_inj, fun j q hj => ?_, h.ress_len, h.ress_none,
        fun j q hj => ?_, h.outs,
        h.invF.ext (by simp) fun q hq => hset (fun e => pF (e ▸ hq)),
        h.invA.ext (by simp) fun q hq => hset (fun e => pA (e ▸ hq)), h.neF, h.neA, h.priv⟩
      · show (s.heap.set r v)[q]? = (d.arrs.set i v)[j]?
        by_cases hij : j = i
        · subst hij
          have : q = r := by rw [h1'] at hj; cases hj; rfl
          subst this
          rw [List.getElem?_set_self (List.getElem?_eq_some_iff.1 h3).1,
            List.getElem?_set_self (List.getElem?_eq_some_iff.1 (show d.arrs[j]? = some w from h2)).1]
        · rw [List.getElem?_set_ne (Ne.symm hij), hset, h.arrs_val j q hj]
          rintro rfl
          exact hij (h.arrs_inj j i q hj h1')
      · show q < (s.heap.set r v).length
        rw [List.length_set]; exact h.arrs_lt j q hj
      · obtain ⟨w', k1, k2⟩ := h.ress_val j q hj
        refine ⟨w', ?_, k2⟩
        show (s.heap.set r v)[q]? = _
        rw [hset, k1]
        rintro rfl
        exact pR j hj

theorem Rel.run {p : Phys V} : ∀ (ops : List (Op V)) {used : List Var} {s : CState V} {d : DState V},
    Rel p used s d → Polite used ops → ∃ used', Rel p used' (crun p s ops) (drun p d ops)
  | [], used, _, _, h, _ => ⟨used, h⟩
  | op :: t, _, _, _, h, hp => by
    obtain ⟨used', h1, h2⟩ := h.step op t hp
    exact Rel.run t h1 h2

theorem Rel.start (p : Phys V) (n : Nat) (hn : 0 < n) : Rel p [] (freshSim V n) (emptyD V) := by
  have hno : ∀ (e : Entry), some e ∉ List.replicate n (none : Option Entry) := by
    intro e he
    cases (List.mem_replicate.1 he).2
  have hne : List.replicate n (none : Option Entry) ≠ [] := by
    intro h
    have := congrArg List.length h
    simp at this
    omega
  refine ⟨rfl, ?_, ?_, ?_, rfl, ?_, ?_, rfl, ⟨fun e he => absurd he (hno e), fun e he => absurd he (hno e)⟩,
    ⟨fun e he => absurd he (hno e), fun e he => absurd he (hno e)⟩, hne, hne, ?_⟩
  all_goals intros; simp_all [freshSim]

/-! ### Theorems -/

/-- C50 for the invdes simulation: with a cache of any positive size, and for every sequence of `eval` and `grad` calls
of a caller that leaves shared arrays alone, every call returns what it would return without a cache (and raises when
it would raise). -/
theorem fdfd_cache_transparent_partial (p : Phys V) (n : Nat) (hn : 0 < n) (ops : List (Op V)) (hp : Polite [] ops) :
    (crun p (freshSim V n) ops).outs = (drun p (emptyD V) ops).outs := by
  obtain ⟨used, h⟩ := Rel.run ops (Rel.start p n hn) hp
  exact h.outs

/-- Without that restriction C50 fails: the cache keeps a reference to the permittivity array, so a caller that
updates its array in place gets the fields of the old permittivity. -/
theorem fdfd_cache_transparent_false : ¬ ∀ (V : Type) (_ : DecidableEq V) (p : Phys V) (n : Nat), 0 < n →
    ∀ ops : List (Op V), (crun p (freshSim V n) ops).outs = (drun p (emptyD V) ops).outs := by
  intro h
  have := h Nat inferInstance ⟨fun k => k.head?.join, fun k => k.head?.join, id, fun _ _ _ => 0⟩ 1 (by decide)
    [.new 1, .eval (.arr 0), .write (.arr 0) 2, .eval (.arr 0)]
  revert this
  decide

/-- The returned fields are shared with the cache as well. -/
theorem fdfd_returned_array_shared : ∃ (p : Phys Nat) (ops : List (Op Nat)), (∀ x v, Op.write x v ∈ ops → ∃ i, x = .res i) ∧
    (crun p (freshSim Nat 1) ops).outs ≠ (drun p (emptyD Nat) ops).outs := by
  refine ⟨⟨fun k => k.head?.join, fun k => k.head?.join, id, fun _ _ _ => 0⟩,
    [.new 1, .eval (.arr 0), .write (.res 0) 7, .eval (.arr 0)], ?_, by decide⟩
  intro x v hx
  simp at hx
  exact ⟨0, hx.1⟩

/-- `cache_size=0` is not a way to turn the cache off: every call raises. -/
theorem fdfd_cache_size_zero (p : Phys V) (v e : V) (hv : p.forward [some v] = some e) :
    (crun p (freshSim V 0) [.new v, .eval (.arr 0)]).outs = [none] ∧
      (drun p (emptyD V) [.new v, .eval (.arr 0)]).outs = [some e] := by
  constructor
  · simp [crun, cstep, freshSim, CState.look, simulate, lruLoop, values, hv, CState.fail]
  · simp [drun, dstep, emptyD, DState.look, DState.ret, hv]

/-- A caller that meets the hypothesis: evaluations and gradients at two permittivities, with a new array in between. -/
example : Polite (V := Nat) [] [.new 1, .write (.arr 0) 5, .eval (.arr 0), .new 2, .grad (.arr 0) (.arr 1), .new 3,
    .eval (.arr 2), .eval (.arr 0), .grad (.arr 2) (.arr 1)] := by
  simp [Polite]

end Verif.Sim
