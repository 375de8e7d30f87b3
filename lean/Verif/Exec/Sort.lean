import Verif.Exec.Bfs
/-
Helper lemmas about `_top_sort_affinity`.
-/
namespace Verif.Exec
variable {V : Type} [DecidableEq V]

/-- Number of edges (with multiplicity) into `v` from entries whose key is not in `E`. -/
def pend (g : List (V × List V)) (E : List V) (v : V) : Nat :=
  match g with
  | [] => 0
  | e :: g => (if e.1 ∈ E then 0 else e.2.count v) + pend g E v

theorem fold_count (cs : List V) (p : V → Int) (v : V) :
    cs.foldl (fun p c => upd p c (p c + 1)) p v = p v + cs.count v := by
  induction cs generalizing p with
  | nil => simp
  | cons c cs ih =>
    simp only [List.foldl_cons, ih, upd, List.count_cons]
    by_cases h : v = c
    · subst h; simp; omega
    · simp [h, Ne.symm h]

theorem countParents_fold (g : List (V × List V)) (p : V → Int) (v : V) :
    g.foldl (fun p e => e.2.foldl (fun p c => upd p c (p c + 1)) p) p v = p v + pend g [] v := by
  induction g generalizing p with
  | nil => simp [pend]
  | cons e g ih =>
    simp only [List.foldl_cons, ih, fold_count, pend]
    simp; omega

theorem countParents_eq (g : List (V × List V)) (v : V) : countParents g v = pend g [] v := by
  unfold countParents
  rw [countParents_fold]; simp

theorem pend_eq_zero {g : List (V × List V)} {E : List V} {v : V} :
    pend g E v = 0 ↔ ∀ e ∈ g, v ∈ e.2 → e.1 ∈ E := by
  induction g with
  | nil => simp [pend]
  | cons e g ih =>
    simp only [pend, Nat.add_eq_zero_iff, ih]
    by_cases h : e.1 ∈ E
    · simp [h]
    · simp [h, List.count_eq_zero]

theorem pend_not_mem {g : List (V × List V)} {E : List V} {x v : V}
    (h : x ∉ g.map Prod.fst) : pend g (E ++ [x]) v = pend g E v := by
  induction g with
  | nil => simp [pend]
  | cons e g ih =>
    simp only [List.map_cons, List.mem_cons, not_or] at h
    simp only [pend, ih h.2]
    have : e.1 ≠ x := fun h' => h.1 h'.symm
    simp [this]

theorem adj_cons (e : V × List V) (g : List (V × List V)) (x : V) :
    adj (e :: g) x = if e.1 = x then e.2 else adj g x := by
  unfold adj
  by_cases h : e.1 = x <;> simp [h]

theorem adj_eq {g : List (V × List V)} (hn : (g.map Prod.fst).Nodup) {e : V × List V}
    (he : e ∈ g) : adj g e.1 = e.2 := by
  induction g with
  | nil => simp at he
  | cons e' g ih =>
    rw [adj_cons]
    simp only [List.map_cons, List.nodup_cons] at hn
    simp only [List.mem_cons] at he
    rcases he with rfl | he
    · simp
    · have : e'.1 ≠ e.1 := by
        intro h
        exact hn.1 (h ▸ List.mem_map_of_mem he)
      simp [this, ih hn.2 he]

theorem pend_append {g : List (V × List V)} (hn : (g.map Prod.fst).Nodup) {E : List V} {x v : V}
    (hx : x ∈ g.map Prod.fst) (hE : x ∉ E) :
    pend g (E ++ [x]) v + (adj g x).count v = pend g E v := by
  induction g with
  | nil => simp at hx
  | cons e g ih =>
    simp only [List.map_cons, List.nodup_cons] at hn
    simp only [List.map_cons, List.mem_cons] at hx
    rw [adj_cons]
    by_cases h : e.1 = x
    · subst h
      simp only [pend, pend_not_mem hn.1]
      simp [hE]; omega
    · have hx' : x ∈ g.map Prod.fst := by
        rcases hx with hx | hx
        · exact absurd hx.symm h
        · exact hx
      have := ih hn.2 hx'
      simp only [pend, h, if_false]
      have h1 : (e.1 ∈ E ++ [x]) ↔ e.1 ∈ E := by simp [h]
      simp only [h1]
      omega

theorem release_spec (cs : List V) (par : V → Int) (qu : List V)
    (hc : ∀ c, (cs.count c : Int) ≤ par c) :
    ∃ new, release cs (par, qu) = (fun v => par v - cs.count v, qu ++ new) ∧ new.Nodup ∧
      ∀ v, v ∈ new ↔ v ∈ cs ∧ par v = cs.count v := by
  induction cs generalizing par qu with
  | nil => exact ⟨[], by simp [release], by simp, by simp⟩
  | cons c cs ih =>
    have hc' : ∀ c', (cs.count c' : Int) ≤ upd par c (par c - 1) c' := by
      intro c'
      have := hc c'
      simp only [List.count_cons, upd] at *
      by_cases h : c' = c
      · subst h; simp at *; omega
      · simp [h, Ne.symm h] at *; omega
    have hfun : ∀ v, upd par c (par c - 1) v - (cs.count v : Int) =
        par v - ((c :: cs).count v : Int) := by
      intro v
      simp only [List.count_cons, upd]
      by_cases h : v = c
      · subst h; simp; omega
      · simp [h, Ne.symm h]
    have hmem : ∀ v, v ∈ cs → upd par c (par c - 1) v = (cs.count v : Int) →
        par v = ((c :: cs).count v : Int) := by
      intro v _ h2
      have := hfun v
      omega
    unfold release
    simp only [upd, if_true]
    by_cases h0 : par c - 1 = 0
    · rw [if_pos h0]
      obtain ⟨new, h1, h2, h3⟩ := ih (upd par c (par c - 1)) (qu ++ [c]) hc'
      have hcount : cs.count c = 0 := by
        have := hc c; simp at this; omega
      have hccs : c ∉ cs := by
        rwa [List.count_eq_zero] at hcount
      refine ⟨c :: new, ?_, ?_, ?_⟩
      · rw [h1]
        simp only [List.append_assoc, List.cons_append, List.nil_append, Prod.mk.injEq, and_true]
        funext v; exact hfun v
      · rw [List.nodup_cons]; exact ⟨fun h => hccs ((h3 c).1 h).1, h2⟩
      · intro v
        rw [List.mem_cons, h3, List.mem_cons]
        constructor
        · rintro (rfl | ⟨h, h'⟩)
          · refine ⟨Or.inl rfl, ?_⟩
            simp [hcount]; omega
          · exact ⟨Or.inr h, hmem v h h'⟩
        · rintro ⟨h | h, h'⟩
          · exact Or.inl h
          · refine Or.inr ⟨h, ?_⟩
            have := hfun v; omega
    · rw [if_neg h0]
      obtain ⟨new, h1, h2, h3⟩ := ih (upd par c (par c - 1)) qu hc'
      refine ⟨new, ?_, h2, ?_⟩
      · rw [h1]
        simp only [Prod.mk.injEq, and_true]
        funext v; exact hfun v
      · intro v
        rw [h3, List.mem_cons]
        constructor
        · rintro ⟨h, h'⟩
          exact ⟨Or.inr h, hmem v h h'⟩
        · rintro ⟨h | h, h'⟩
          · subst h
            have h4 : par v ≠ 1 := by omega
            simp at h'
            have : 0 < cs.count v := by omega
            refine ⟨List.count_pos_iff.1 this, ?_⟩
            have := hfun v; simp at this; simp [upd]; omega
          · refine ⟨h, ?_⟩
            have := hfun v; omega

/-- Kahn invariant: `E` expanded nodes, `W` waiting nodes. -/
structure KInv (g : List (V × List V)) (par : V → Int) (E W : List V) : Prop where
  par_eq : ∀ v, par v = pend g E v
  nodup : (E ++ W).Nodup
  mem : ∀ v, (v ∈ E ∨ v ∈ W) ↔ v ∈ g.map Prod.fst ∧ pend g E v = 0

theorem KInv.perm {g : List (V × List V)} {par : V → Int} {E W W' : List V}
    (h : KInv g par E W) (hp : W.Perm W') : KInv g par E W' :=
  ⟨h.par_eq, (List.Perm.append_left E hp).nodup_iff.1 h.nodup,
   fun v => by rw [← hp.mem_iff]; exact h.mem v⟩

/-- Well formed adjacency dictionary. -/
structure Closed (g : List (V × List V)) : Prop where
  nodup : (g.map Prod.fst).Nodup
  closed : ∀ e ∈ g, ∀ c ∈ e.2, c ∈ g.map Prod.fst

theorem KInv.release {g : List (V × List V)} (hg : Closed g) {par : V → Int} {E W qu : List V}
    {v : V} (h : KInv g par E (v :: W)) :
    ∃ new, Verif.Exec.release (adj g v) (par, qu) = ((fun u => par u - (adj g v).count u), qu ++ new) ∧
      KInv g (fun u => par u - (adj g v).count u) (E ++ [v]) (W ++ new) := by
  have hv : v ∈ g.map Prod.fst := ((h.mem v).1 (Or.inr (by simp))).1
  have hnd := h.nodup
  have hvE : v ∉ E := by
    intro hE
    rw [List.nodup_append] at hnd
    exact hnd.2.2 v hE v (by simp) rfl
  have hpend : ∀ u, pend g (E ++ [v]) u + (adj g v).count u = pend g E u :=
    fun u => pend_append hg.nodup hv hvE
  obtain ⟨new, h1, h2, h3⟩ := release_spec (adj g v) par qu (by
    intro c; rw [h.par_eq, ← hpend c]; omega)
  refine ⟨new, h1, ?_, ?_, ?_⟩
  · intro u; rw [h.par_eq, ← hpend u]; omega
  · have hdis : ∀ u ∈ new, u ∉ E ∧ u ∉ v :: W := by
      intro u hu
      obtain ⟨h4, h5⟩ := (h3 u).1 hu
      have hc : 0 < (adj g v).count u := List.count_pos_iff.2 h4
      rw [h.par_eq] at h5
      have hne : ¬ (pend g E u = 0) := by omega
      have := fun h' => hne ((h.mem u).1 h').2
      exact ⟨fun h' => this (Or.inl h'), fun h' => this (Or.inr h')⟩
    have hp : (E ++ [v] ++ (W ++ new)) = (E ++ (v :: W)) ++ new := by simp
    rw [hp, List.nodup_append]
    refine ⟨h.nodup, h2, ?_⟩
    intro a ha b hb hab
    subst hab
    have := hdis a hb
    rw [List.mem_append] at ha
    rcases ha with ha | ha
    · exact this.1 ha
    · exact this.2 ha
  · intro u
    have hm := h.mem u
    constructor
    · intro hu
      have : (u ∈ E ∨ u ∈ v :: W) ∨ u ∈ new := by
        simp only [List.mem_append, List.mem_cons] at *
        grind
      rcases this with hu | hu
      · obtain ⟨h4, h5⟩ := hm.1 hu
        exact ⟨h4, by have := hpend u; omega⟩
      · obtain ⟨h4, h5⟩ := (h3 u).1 hu
        refine ⟨?_, ?_⟩
        · rw [List.mem_map] at hv
          obtain ⟨e, he, rfl⟩ := hv
          rw [adj_eq hg.nodup he] at h4
          exact hg.closed e he u h4
        · rw [h.par_eq] at h5; have := hpend u; omega
    · rintro ⟨h4, h5⟩
      by_cases h6 : pend g E u = 0
      · have := hm.2 ⟨h4, h6⟩
        simp only [List.mem_append, List.mem_cons] at *
        grind
      · right; rw [List.mem_append]; right
        rw [h3]
        have := hpend u
        refine ⟨List.count_pos_iff.1 (by omega), ?_⟩
        rw [h.par_eq]; omega

/-- Every node is preceded by all nodes that have it as an input. -/
def Topo (g : List (V × List V)) (out : List V) : Prop :=
  ∀ l₁ v l₂, out = l₁ ++ v :: l₂ → ∀ e ∈ g, v ∈ e.2 → e.1 ∈ l₁

omit [DecidableEq V] in
theorem Topo.append {g : List (V × List V)} {out b : List V} (h : Topo g out)
    (hb : ∀ v ∈ b, ∀ e ∈ g, v ∈ e.2 → e.1 ∈ out) : Topo g (out ++ b) := by
  intro l₁ v l₂ heq e he hv
  rw [List.append_eq_append_iff] at heq
  rcases heq with ⟨as, h1, h2⟩ | ⟨bs, h1, h2⟩
  · rw [h1, List.mem_append]; left
    exact hb v (by rw [h2]; simp) e he hv
  · cases bs with
    | nil =>
      simp at h1 h2
      subst h1
      exact hb v (by rw [← h2]; simp) e he hv
    | cons x bs =>
      simp at h2
      obtain ⟨rfl, h2⟩ := h2
      exact h l₁ v bs h1 e he hv

theorem inner_spec {g : List (V × List V)} (hg : Closed g) (heavy : V → Bool) (n : Nat)
    (s : SortState V) (block : List V) (hi : KInv g s.par s.out (s.qu ++ block))
    (ht : Topo g s.out) (hn : g.length ≤ n + s.out.length + block.length)
    (hblk : ∀ v ∈ block, heavy v = true) :
    ∃ s' block', inner g heavy n s block = some (s', block') ∧ s'.qu = [] ∧
      KInv g s'.par s'.out block' ∧ Topo g s'.out ∧
      s.out.length + block.length + s.qu.length ≤ s'.out.length + block'.length ∧
      (∀ v ∈ block', heavy v = true) := by
  induction n generalizing s block with
  | zero =>
    obtain ⟨par, qu, out⟩ := s
    cases qu with
    | nil => exact ⟨_, _, rfl, rfl, by simpa using hi, ht, by simp, hblk⟩
    | cons v qu =>
      exfalso
      have h1 := hi.nodup
      have h2 : (out ++ ((v :: qu) ++ block)).length ≤ (g.map Prod.fst).length := by
        apply h1.length_le_of_subset
        intro x hx
        rw [List.mem_append] at hx
        exact ((hi.mem x).1 hx).1
      simp at h2 hn; omega
  | succ n ih =>
    obtain ⟨par, qu, out⟩ := s
    cases qu with
    | nil => exact ⟨_, _, rfl, rfl, by simpa using hi, ht, by simp, hblk⟩
    | cons v qu =>
      unfold inner
      by_cases hv : heavy v = true
      · rw [if_pos hv]
        have hvb : v ∉ block := by
          have h1 := hi.nodup
          rw [List.nodup_append] at h1
          have := h1.2.1
          simp only [List.cons_append, List.nodup_cons, List.mem_append, not_or] at this
          exact this.1.2
        rw [if_neg hvb]
        obtain ⟨s', b', h1, h2, h3, h4, h5, h6⟩ := ih ⟨par, qu, out⟩ (block ++ [v])
          (hi.perm (by
            simp only [List.cons_append, ← List.append_assoc]
            exact (List.perm_append_singleton v (qu ++ block)).symm)) ht
          (by simp at hn ⊢; omega)
          (by intro w hw; simp only [List.mem_append, List.mem_singleton] at hw; grind)
        refine ⟨s', b', h1, h2, h3, h4, ?_, h6⟩
        simp at h5 ⊢; omega
      · rw [if_neg hv]
        obtain ⟨new, h1, h2⟩ := KInv.release (qu := qu) hg hi
        simp only [h1]
        have hz := ((hi.mem v).1 (Or.inr (by simp))).2
        obtain ⟨s', b', h3, h4, h5, h6, h7, h8⟩ := ih
          ⟨fun u => par u - ((adj g v).count u : Nat), qu ++ new, out ++ [v]⟩ block
          (h2.perm (by
            show ((qu ++ block) ++ new).Perm ((qu ++ new) ++ block)
            simp only [List.append_assoc]
            exact List.Perm.append_left qu (List.perm_append_comm)))
          (ht.append (by
            intro w hw e he hwe
            simp only [List.mem_singleton] at hw; subst hw
            exact pend_eq_zero.1 hz e he hwe))
          (by simp at hn ⊢; omega) hblk
        refine ⟨s', b', h3, h4, h5, h6, ?_, h8⟩
        simp at h7 ⊢; omega

theorem releaseAll_spec {g : List (V × List V)} (hg : Closed g) (b : List V) (par : V → Int)
    (E qu : List V) (hi : KInv g par E (b ++ qu)) :
    ∃ par' qu', releaseAll g b (par, qu) = (par', qu') ∧ KInv g par' (E ++ b) qu' := by
  induction b generalizing par E qu with
  | nil => exact ⟨par, qu, rfl, by simpa using hi⟩
  | cons v b ih =>
    unfold releaseAll
    obtain ⟨new, h1, h2⟩ := KInv.release (qu := qu) hg hi
    rw [h1]
    obtain ⟨par', qu', h3, h4⟩ := ih _ (E ++ [v]) (qu ++ new) (by simpa using h2)
    exact ⟨par', qu', h3, by simpa using h4⟩

theorem outer_spec {g : List (V × List V)} (hg : Closed g) (heavy : V → Bool)
    (ord : List V → List V) (hord : ∀ l, (ord l).Perm l) (fuel : Nat) (hf : g.length ≤ fuel)
    (n : Nat) (s : SortState V) (hi : KInv g s.par s.out s.qu) (ht : Topo g s.out)
    (hn : g.length ≤ n + s.out.length) :
    ∃ out par, outer g heavy ord fuel n s = some out ∧ KInv g par out [] ∧ Topo g out := by
  induction n generalizing s with
  | zero =>
    obtain ⟨par, qu, out⟩ := s
    cases qu with
    | nil => exact ⟨out, par, rfl, hi, ht⟩
    | cons v qu =>
      exfalso
      have h1 := hi.nodup
      have h2 : (out ++ (v :: qu)).length ≤ (g.map Prod.fst).length := by
        apply h1.length_le_of_subset
        intro x hx
        rw [List.mem_append] at hx
        exact ((hi.mem x).1 hx).1
      simp at h2 hn; omega
  | succ n ih =>
    obtain ⟨par, qu, out⟩ := s
    cases qu with
    | nil => exact ⟨out, par, rfl, hi, ht⟩
    | cons v qu =>
      unfold outer
      obtain ⟨s', b', h1, h2, h3, h4, h5, _⟩ := inner_spec hg heavy fuel ⟨par, v :: qu, out⟩ []
        (by simpa using hi) ht (by simp; omega) (by simp)
      rw [h1]
      simp only [h2]
      obtain ⟨par', qu', h6, h7⟩ := releaseAll_spec hg (ord b') s'.par s'.out []
        (by simpa using h3.perm (hord b').symm)
      rw [h6]
      apply ih _ h7
      · apply h4.append
        intro w hw e he hwe
        have hw' := (hord b').mem_iff.1 hw
        exact pend_eq_zero.1 ((h3.mem w).1 (Or.inr hw')).2 e he hwe
      · have := (hord b').length_eq
        simp at h5 hn ⊢; omega

omit [DecidableEq V] in
theorem GraphOk.toClosed {N : Net V} {outs : List V} {g : List (V × List V)}
    (h : GraphOk N outs g) : Closed g := by
  refine ⟨h.nodup, fun e he c hc => ?_⟩
  rw [h.keys]
  rw [h.entries e he] at hc
  exact Reach.step ((h.keys e.1).1 (List.mem_map_of_mem he)) hc

theorem topSort_spec' {g : List (V × List V)} (hg : Closed g) (heavy : V → Bool)
    (ord : List V → List V) (hord : ∀ l, (ord l).Perm l) :
    ∃ out par, topSort g heavy ord = some out ∧ KInv g par out [] ∧ Topo g out := by
  unfold topSort
  apply outer_spec hg heavy ord hord
  · simp
  · refine ⟨fun v => countParents_eq g v, ?_, ?_⟩
    · rw [List.nil_append]; exact List.Pairwise.filter _ hg.nodup
    · intro v
      simp [countParents_eq]
  · intro l₁ v l₂ h; simp at h
  · simp

theorem topSort_spec {N : Net V} {outs : List V} {g : List (V × List V)} (hN : Acyclic N)
    (hg : GraphOk N outs g) (heavy : V → Bool)
    (ord : List V → List V) (hord : ∀ l, (ord l).Perm l) :
    ∃ out, topSort g heavy ord = some out ∧ out.Nodup ∧ (∀ v, v ∈ out ↔ Reach N outs v) ∧
      Topo g out := by
  obtain ⟨out, par, h1, h2, h3⟩ := topSort_spec' hg.toClosed heavy ord hord
  refine ⟨out, h1, by simpa using h2.nodup, fun v => ⟨fun hv => ?_, fun hv => ?_⟩, h3⟩
  · rw [← hg.keys]; exact ((h2.mem v).1 (Or.inl hv)).1
  · obtain ⟨rank, hr⟩ := hN
    -- by contradiction, taking an unsorted node of maximal rank
    rw [← hg.keys] at hv
    obtain ⟨B, hB⟩ : ∃ B, ∀ e ∈ g, rank e.1 ≤ B := by
      clear hg h1 h2 h3 hv
      induction g with
      | nil => exact ⟨0, by simp⟩
      | cons e g ih =>
        obtain ⟨B, hB⟩ := ih
        refine ⟨max (rank e.1) B, ?_⟩
        intro e' he'
        rcases List.mem_cons.1 he' with rfl | h
        · omega
        · have := hB e' h; omega
    have key : ∀ k v, v ∈ g.map Prod.fst → B - rank v = k → v ∈ out := by
      intro k
      induction k using Nat.strongRecOn with
      | ind k ih =>
        intro v hv hk
        have : v ∈ out ∨ v ∈ ([] : List V) := by
          rw [h2.mem]
          refine ⟨hv, pend_eq_zero.2 ?_⟩
          intro e he hve
          have hlt : rank v < rank e.1 := hr e.1 v (by rw [← hg.entries e he]; exact hve)
          have := hB e he
          exact ih (B - rank e.1) (by omega) e.1 (List.mem_map_of_mem he) rfl
        simpa using this
    exact key _ v hv rfl

end Verif.Exec
