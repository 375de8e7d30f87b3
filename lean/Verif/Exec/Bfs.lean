import Verif.Exec.Spec
/-
Helper lemmas about `_create_computational_graph`.
-/
namespace Verif.Exec
variable {V : Type} [DecidableEq V]

/-- What a correct adjacency dictionary for the outputs is. -/
structure GraphOk (N : Net V) (outs : List V) (g : List (V × List V)) : Prop where
  nodup : (g.map Prod.fst).Nodup
  entries : ∀ p ∈ g, p.2 = N.inputs p.1
  keys : ∀ v, v ∈ g.map Prod.fst ↔ Reach N outs v

theorem adj_of_mem {N : Net V} {g : List (V × List V)} (h : ∀ p ∈ g, p.2 = N.inputs p.1)
    {v : V} (hv : v ∈ g.map Prod.fst) : adj g v = N.inputs v := by
  unfold adj
  cases hf : g.find? (fun p => p.1 = v) with
  | none =>
    rw [List.find?_eq_none] at hf
    rw [List.mem_map] at hv
    obtain ⟨p, hp, rfl⟩ := hv
    exact absurd (hf p hp) (by simp)
  | some p =>
    have h1 := List.mem_of_find?_eq_some hf
    have h2 := List.find?_some hf
    simp at h2
    simp only [h p h1, h2]

theorem bfsPush_spec (us seen qu : List V) :
    ∃ new, bfsPush us (seen, qu) = (seen ++ new, qu ++ new) ∧ new.Nodup ∧
      (∀ v ∈ new, v ∈ us ∧ v ∉ seen) ∧ (∀ v ∈ us, v ∈ seen ∨ v ∈ new) := by
  induction us generalizing seen qu with
  | nil => exact ⟨[], by simp [bfsPush]⟩
  | cons u us ih =>
    unfold bfsPush
    by_cases hu : u ∈ seen
    · rw [if_pos hu]
      obtain ⟨new, h1, h2, h3, h4⟩ := ih seen qu
      refine ⟨new, h1, h2, ?_, ?_⟩ <;> grind
    · rw [if_neg hu]
      obtain ⟨new, h1, h2, h3, h4⟩ := ih (seen ++ [u]) (qu ++ [u])
      refine ⟨u :: new, by simp [h1], ?_, ?_, ?_⟩ <;> grind

theorem keys_dictSet (g : List (V × List V)) (k : V) (x : List V) :
    (dictSet g k x).map Prod.fst =
      if k ∈ g.map Prod.fst then g.map Prod.fst else g.map Prod.fst ++ [k] := by
  unfold dictSet
  split
  · rename_i h
    rw [List.map_map]
    apply List.map_congr_left
    intro p _
    by_cases hp : p.1 = k <;> simp [hp]
  · simp

structure BfsInv (N : Net V) (outs : List V) (s : BfsState V) : Prop where
  nodup : (s.graph.map Prod.fst).Nodup
  entries : ∀ p ∈ s.graph, p.2 = N.inputs p.1
  snodup : s.seen.Nodup
  sreach : ∀ v ∈ s.seen, Reach N outs v
  outs_seen : ∀ v ∈ outs, v ∈ s.seen
  qseen : ∀ v ∈ s.qu, v ∈ s.seen
  kseen : ∀ v ∈ s.graph.map Prod.fst, v ∈ s.seen
  cover : ∀ v ∈ s.seen, v ∈ s.graph.map Prod.fst ∨ v ∈ s.qu
  closed : ∀ v ∈ s.graph.map Prod.fst, ∀ u ∈ N.inputs v, u ∈ s.seen

theorem mem_dictSet {g : List (V × List V)} {k : V} {x : List V} {p : V × List V}
    (h : p ∈ dictSet g k x) : p ∈ g ∨ p = (k, x) := by
  unfold dictSet at h
  grind

theorem BfsInv.step {N : Net V} {outs : List V} {g : List (V × List V)} {seen qu : List V} {v : V}
    (h : BfsInv N outs ⟨g, seen, v :: qu⟩) :
    BfsInv N outs ⟨dictSet g v (N.inputs v), (bfsPush (N.inputs v) (seen, qu)).1,
      (bfsPush (N.inputs v) (seen, qu)).2⟩ := by
  obtain ⟨new, h1, h2, h3, h4⟩ := bfsPush_spec (N.inputs v) seen qu
  have hv : v ∈ seen := h.qseen v (by simp)
  rw [h1]
  have hk := keys_dictSet g v (N.inputs v)
  refine ⟨?_, ?_, ?_, ?_, ?_, ?_, ?_, ?_, ?_⟩
  · simp only [hk]
    split
    · exact h.nodup
    · rename_i hn
      have := h.nodup
      simp only [List.nodup_append]
      grind
  · intro p hp
    rcases mem_dictSet hp with hp | hp
    · exact h.entries p hp
    · rw [hp]
  · have := h.snodup
    simp only [List.nodup_append]
    grind
  · intro w hw
    simp only [List.mem_append] at hw
    rcases hw with hw | hw
    · exact h.sreach w hw
    · exact Reach.step (h.sreach v hv) (h3 w hw).1
  · intro w hw
    exact List.mem_append_left _ (h.outs_seen w hw)
  · intro w hw
    have := h.qseen w
    simp only [List.mem_append] at hw ⊢
    rcases hw with hw | hw
    · exact Or.inl (this (List.mem_cons_of_mem _ hw))
    · exact Or.inr hw
  · intro w hw
    simp only [hk] at hw
    simp only [List.mem_append]
    have := h.kseen w
    simp only at this
    grind
  · intro w hw
    simp only [hk]
    have := h.cover w
    simp only [List.mem_append] at hw ⊢
    simp only [List.mem_cons] at this
    grind
  · intro w hw u hu
    simp only [hk] at hw
    simp only [List.mem_append]
    have h5 := h.closed w
    simp only at h5
    by_cases hwv : w = v
    · subst hwv
      exact h4 u hu
    · left
      apply h5 _ u hu
      grind

theorem bfsLoop_inv {N : Net V} {outs : List V} (n : Nat) (s s' : BfsState V)
    (h : BfsInv N outs s) (hr : bfsLoop N n s = some s') :
    BfsInv N outs s' ∧ s'.qu = [] := by
  induction n generalizing s with
  | zero =>
    obtain ⟨g, seen, qu⟩ := s
    cases qu with
    | nil => simp [bfsLoop] at hr; subst hr; exact ⟨h, rfl⟩
    | cons v qu => simp [bfsLoop] at hr
  | succ n ih =>
    obtain ⟨g, seen, qu⟩ := s
    cases qu with
    | nil => simp [bfsLoop] at hr; subst hr; exact ⟨h, rfl⟩
    | cons v qu =>
      simp only [bfsLoop] at hr
      exact ih _ h.step hr

theorem dedupKeys_spec (vs acc : List V) (h : acc.Nodup) :
    (dedupKeys vs acc).Nodup ∧ ∀ v, v ∈ dedupKeys vs acc ↔ v ∈ vs ∨ v ∈ acc := by
  induction vs generalizing acc with
  | nil => simp [dedupKeys, h]
  | cons v vs ih =>
    unfold dedupKeys
    split
    · rename_i hv
      have := ih acc h
      grind
    · rename_i hv
      have := ih (acc ++ [v]) (by simp only [List.nodup_append]; grind)
      grind

theorem bfsInv_init (N : Net V) (outs : List V) : BfsInv N outs ⟨[], dedupKeys outs [], outs⟩ := by
  have h := dedupKeys_spec outs [] (by simp)
  refine ⟨by simp, by simp, h.1, ?_, ?_, ?_, by simp, ?_, by simp⟩
  · intro v hv
    have := (h.2 v).1 hv
    exact Reach.out (by simpa using this)
  · intro v hv; exact (h.2 v).2 (Or.inl hv)
  · intro v hv; exact (h.2 v).2 (Or.inl hv)
  · intro v hv; right; simpa using (h.2 v).1 hv

theorem createGraph_ok {N : Net V} {outs : List V} {n : Nat} {g : List (V × List V)}
    (h : createGraph N n outs = some g) : GraphOk N outs g := by
  unfold createGraph at h
  rw [Option.map_eq_some_iff] at h
  obtain ⟨s, hs, rfl⟩ := h
  obtain ⟨hi, hq⟩ := bfsLoop_inv n _ _ (bfsInv_init N outs) hs
  have hcov : ∀ v ∈ s.seen, v ∈ s.graph.map Prod.fst := by
    intro v hv
    rcases hi.cover v hv with h | h
    · exact h
    · rw [hq] at h; simp at h
  refine ⟨hi.nodup, hi.entries, fun v => ⟨fun hv => hi.sreach v (hi.kseen v hv), fun hv => ?_⟩⟩
  induction hv with
  | out hv => exact hcov _ (hi.outs_seen _ hv)
  | step _ hu ih => exact hcov _ (hi.closed _ ih _ hu)

/-! Termination -/

omit [DecidableEq V] in
theorem exists_reach_list {N : Net V} (h : Acyclic N) (v : V) :
    ∃ R : List V, v ∈ R ∧ ∀ w ∈ R, ∀ u ∈ N.inputs w, u ∈ R := by
  obtain ⟨rank, hr⟩ := h
  induction hk : rank v using Nat.strongRecOn generalizing v with
  | ind k ih =>
    have key : ∀ us : List V, (∀ u ∈ us, rank u < rank v) →
        ∃ R : List V, (∀ u ∈ us, u ∈ R) ∧ ∀ w ∈ R, ∀ u ∈ N.inputs w, u ∈ R := by
      intro us
      induction us with
      | nil => intro _; exact ⟨[], by simp, by simp⟩
      | cons u us ih2 =>
        intro hus
        obtain ⟨R1, h1, h2⟩ := ih2 (fun w hw => hus w (List.mem_cons_of_mem _ hw))
        obtain ⟨R2, h3, h4⟩ := ih (rank u) (hk ▸ hus u (by simp)) u rfl
        refine ⟨R1 ++ R2, ?_, ?_⟩
        · intro w hw; simp only [List.mem_append]; grind
        · intro w hw u hu; simp only [List.mem_append] at *; grind
    obtain ⟨R, h1, h2⟩ := key (N.inputs v) (fun u hu => hr v u hu)
    refine ⟨v :: R, by simp, ?_⟩
    intro w hw u hu
    simp only [List.mem_cons] at hw ⊢
    rcases hw with rfl | hw
    · exact Or.inr (h1 u hu)
    · exact Or.inr (h2 w hw u hu)

omit [DecidableEq V] in
theorem exists_reach_list' {N : Net V} (h : Acyclic N) (outs : List V) :
    ∃ R : List V, ∀ v, Reach N outs v → v ∈ R := by
  have : ∃ R : List V, (∀ v ∈ outs, v ∈ R) ∧ ∀ w ∈ R, ∀ u ∈ N.inputs w, u ∈ R := by
    induction outs with
    | nil => exact ⟨[], by simp, by simp⟩
    | cons u us ih =>
      obtain ⟨R1, h1, h2⟩ := ih
      obtain ⟨R2, h3, h4⟩ := exists_reach_list h u
      refine ⟨R1 ++ R2, ?_, ?_⟩
      · intro w hw; simp only [List.mem_append]; grind
      · intro w hw u hu; simp only [List.mem_append] at *; grind
  obtain ⟨R, h1, h2⟩ := this
  refine ⟨R, fun v hv => ?_⟩
  induction hv with
  | out hv => exact h1 _ hv
  | step _ hu ih => exact h2 _ ih _ hu

theorem bfsLoop_terminates {N : Net V} {outs R : List V} (hR : ∀ v, Reach N outs v → v ∈ R)
    (n : Nat) (s : BfsState V) (h : BfsInv N outs s)
    (hn : s.qu.length + R.length ≤ n + s.seen.length) :
    ∃ s', bfsLoop N n s = some s' := by
  induction n generalizing s with
  | zero =>
    obtain ⟨g, seen, qu⟩ := s
    cases qu with
    | nil => exact ⟨_, rfl⟩
    | cons v qu =>
      have : seen.length ≤ R.length :=
        h.snodup.length_le_of_subset (fun v hv => hR v (h.sreach v hv))
      simp at hn; omega
  | succ n ih =>
    obtain ⟨g, seen, qu⟩ := s
    cases qu with
    | nil => exact ⟨_, rfl⟩
    | cons v qu =>
      simp only [bfsLoop]
      apply ih _ h.step
      obtain ⟨new, h1, _⟩ := bfsPush_spec (N.inputs v) seen qu
      rw [h1]
      simp at hn ⊢; omega

theorem createGraph_terminates {N : Net V} (h : Acyclic N) (outs : List V) :
    ∃ n₀, ∀ n, n₀ ≤ n → ∃ g, createGraph N n outs = some g := by
  obtain ⟨R, hR⟩ := exists_reach_list' h outs
  refine ⟨outs.length + R.length, fun n hn => ?_⟩
  obtain ⟨s, hs⟩ := bfsLoop_terminates hR n _ (bfsInv_init N outs) (by simp; omega)
  exact ⟨s.graph, by simp [createGraph, hs]⟩

end Verif.Exec
