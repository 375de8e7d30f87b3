import Verif.Work.ByType
import Verif.Work.WorkspaceProps

/-!
C132: the objects of a type, for log entries and checkpoints, are those of the workspace, for every history of requests before.
-/
namespace Verif.Work

/-- The names of the nodes of a workspace, each once, in any order. -/
def IsKeys (ws : Ws) (keys : List Nat) : Prop := keys.Nodup ∧ ∀ m, m ∈ keys ↔ ws.nodes m ≠ none

/-- The node of that name is of the type. -/
def named (ofType : Nat → Bool) (ws : Ws) (m : Nat) : Bool := (ws.nodes m).any ofType

theorem byTypeLoop_spec {g : Graph} (h : Acyclic g) (fuel : Nat) (ofType : Nat → Bool) (keys : List Nat) :
    ∀ (rest : List Nat) (ws ws' : Ws) (l : List (Nat × Obj)), Inv g ws → (∀ m ∈ keys, ws.nodes m ≠ none) → (∀ m ∈ rest, m ∈ keys) →
      byTypeLoop g fuel ofType keys ws rest = (ws', some l) →
      Inv g ws' ∧ Grows g (fun _ => True) ws ws' ∧ ws'.nodes = ws.nodes ∧ l.map Prod.fst = rest.filter (named ofType ws) ∧
        ∀ e ∈ l, ws'.objects e.1 = some e.2
  | [], ws, ws', l, hi, hk, hr, he => by
    unfold byTypeLoop at he
    split at he
    · simp at he
    · simp only [Prod.mk.injEq, Option.some.injEq] at he
      obtain ⟨rfl, rfl⟩ := he
      exact ⟨hi, Grows.refl _ _ _, rfl, by simp, by simp⟩
  | m :: rest, ws, ws', l, hi, hk, hr, he => by
    unfold byTypeLoop at he
    split at he
    · simp at he
    · rename_i hs
      split at he
      · simp at he
      · rename_i id hid
        split at he
        · rename_i ht
          split at he
          · simp at he
          · rename_i ws1 o hg
            split at he
            · simp at he
            · rename_i ws2 l2 hl
              simp only [Prod.mk.injEq, Option.some.injEq] at he
              obtain ⟨rfl, rfl⟩ := he
              obtain ⟨h1, h2, h3⟩ := getObject_spec h fuel hi (.node id)
              simp only [getObject, hg, reqName] at h1 h2 h3
              have hns : ¬ sizeChanged keys ws1 := by
                intro hc
                cases rest <;> (unfold byTypeLoop at hl; rw [if_pos hc] at hl; simp at hl)
              have hn : ws1.nodes = ws.nodes := by
                funext k
                cases hk' : ws.nodes k with
                | some j => exact h2.nodes k j hk'
                | none =>
                  by_contra hne
                  refine hns ⟨k, hne, fun hin => hk k hin hk'⟩
              obtain ⟨g1, g2, g3, g4, g5⟩ := byTypeLoop_spec h fuel ofType keys rest ws1 ws2 l2 h1 (by rw [hn]; exact hk)
                (fun x hx => hr x (List.mem_cons_of_mem _ hx)) hl
              have hnm : g.name id = m := hi.named m id hid
              have hb : named ofType ws m = true := by simp [named, hid, ht]
              have hb' : named ofType ws1 = named ofType ws := by funext x; simp [named, hn]
              refine ⟨g1, h2.trans g2, g3.trans hn, ?_, ?_⟩
              · rw [List.filter_cons_of_pos hb, List.map_cons, g4, hb', hnm]
              · intro e hmem
                rcases List.mem_cons.mp hmem with rfl | hmem
                · exact g2.objects _ _ (h3 o rfl)
                · exact g5 e hmem
        · rename_i ht
          obtain ⟨g1, g2, g3, g4, g5⟩ := byTypeLoop_spec h fuel ofType keys rest ws ws' l hi hk
            (fun x hx => hr x (List.mem_cons_of_mem _ hx)) he
          have hb : ¬ named ofType ws m = true := by simp [named, hid, ht]
          exact ⟨g1, g2, g3, by rw [List.filter_cons_of_neg hb, g4], g5⟩

/-- **C132.** After every history, the dictionary that is returned has an entry for every node of the type and for no others, each once;
the entry is the object that the workspace returns for that name from then on. No node was added, and objects that existed are the same
as before. -/
theorem by_type_answer (g : Graph) (h : Acyclic g) (fuel : Nat) (rs : List Request) (ofType : Nat → Bool) (keys : List Nat)
    (hk : IsKeys (serve g fuel Ws.init rs).1 keys) (ws' : Ws) (l : List (Nat × Obj))
    (he : getByType g fuel ofType (serve g fuel Ws.init rs).1 keys = (ws', some l)) :
    (l.map Prod.fst).Nodup ∧
    (∀ m, m ∈ l.map Prod.fst ↔ ∃ id, (serve g fuel Ws.init rs).1.nodes m = some id ∧ ofType id = true) ∧
    (∀ m o, (m, o) ∈ l → getObject g 1 ws' (.name m) = (ws', some o)) ∧
    ws'.nodes = (serve g fuel Ws.init rs).1.nodes ∧
    ∀ m o, (serve g fuel Ws.init rs).1.objects m = some o → ws'.objects m = some o := by
  obtain ⟨hi, _, _⟩ := serve_spec h fuel rs Ws.init (Inv.init g)
  generalize (serve g fuel Ws.init rs).1 = ws at *
  obtain ⟨h1, h2, h3, h4, h5⟩ := byTypeLoop_spec h fuel ofType keys keys ws ws' l hi (fun m hm => (hk.2 m).mp hm) (fun _ hm => hm) he
  have hmem : ∀ m, m ∈ l.map Prod.fst ↔ ∃ id, ws.nodes m = some id ∧ ofType id = true := by
    intro m
    rw [h4, List.mem_filter, hk.2 m]
    cases hn : ws.nodes m <;> simp [named, hn]
  refine ⟨by rw [h4]; exact hk.1.filter _, hmem, ?_, h3, h2.objects⟩
  intro m o hmo
  have ho := h5 (m, o) hmo
  simp only at ho
  obtain ⟨id, hid, _⟩ := (hmem m).mp (List.mem_map.mpr ⟨(m, o), hmo, rfl⟩)
  rw [← h3] at hid
  unfold getObject
  dsimp only
  split
  · rename_i hv
    rw [← hv, ho]
  · rw [hid]
    dsimp only
    unfold getNode
    rw [h1.named m id hid, ho]

theorem byTypeLoop_quiet (g : Graph) (fuel : Nat) (ofType : Nat → Bool) (keys : List Nat) (ws : Ws) (hi : ∀ m j, ws.nodes m = some j → g.name j = m)
    (hk : IsKeys ws keys) (ho : ∀ m id, ws.nodes m = some id → ofType id = true → ws.objects m ≠ none) :
    ∀ rest : List Nat, (∀ m ∈ rest, m ∈ keys) → ∃ l, byTypeLoop g (fuel + 1) ofType keys ws rest = (ws, some l) := by
  have hs : ¬ sizeChanged keys ws := fun ⟨m, hm, hn⟩ => hn ((hk.2 m).mpr hm)
  intro rest
  induction rest with
  | nil => intro _; unfold byTypeLoop; rw [if_neg hs]; exact ⟨[], rfl⟩
  | cons m rest ih =>
    intro hr
    obtain ⟨l, hl⟩ := ih fun x hx => hr x (List.mem_cons_of_mem _ hx)
    obtain ⟨id, hid⟩ := Option.ne_none_iff_exists'.mp ((hk.2 m).mp (hr m List.mem_cons_self))
    unfold byTypeLoop
    rw [if_neg hs, hid]
    dsimp only
    by_cases ht : ofType id = true
    · obtain ⟨o, hobj⟩ := Option.ne_none_iff_exists'.mp (ho m id hid ht)
      rw [← hi m id hid] at hobj
      have hg : getNode g (fuel + 1) ws id = (ws, some o) := by unfold getNode; rw [hobj]
      rw [if_pos ht, hg]
      dsimp only
      rw [hl]
      exact ⟨_, rfl⟩
    · rw [if_neg ht]
      exact ⟨l, hl⟩

/-- **C132.** If all nodes of the type have their objects, the call is answered and leaves the workspace as it is: nothing is created
for a log entry. -/
theorem by_type_quiet (g : Graph) (h : Acyclic g) (fuel : Nat) (rs : List Request) (ofType : Nat → Bool) (keys : List Nat)
    (hk : IsKeys (serve g (fuel + 1) Ws.init rs).1 keys)
    (ho : ∀ m id, (serve g (fuel + 1) Ws.init rs).1.nodes m = some id → ofType id = true →
      (serve g (fuel + 1) Ws.init rs).1.objects m ≠ none) :
    ∃ l, getByType g (fuel + 1) ofType (serve g (fuel + 1) Ws.init rs).1 keys = ((serve g (fuel + 1) Ws.init rs).1, some l) := by
  obtain ⟨hi, _, _⟩ := serve_spec h (fuel + 1) rs Ws.init (Inv.init g)
  exact byTypeLoop_quiet g fuel ofType keys _ hi.named hk ho keys fun _ hm => hm

/-- Nodes 3 and 4 have the same name. Node 7 refers to node 4 and then to node 8, which its creator asks for. -/
def clash : Graph where
  name := fun i => if i = 4 then 13 else 10 + i
  fields := fun i => if i = 7 then [([4], true), ([8], true)] else []
  hasCreator := fun _ => true
  deps := fun i => if i = 7 then [8] else []

theorem clash_acyclic : Acyclic clash := by
  refine ⟨fun i => if i = 7 then 1 else 0, fun id d hd => ?_⟩
  by_cases h : id = 7
  · subst h; simp [clash] at hd; subst hd; simp
  · simp [clash, h] at hd

theorem clash_nodes : (serve clash 30 Ws.init [.node 3, .node 7]).1.nodes = fun m => if m = 17 then some 7 else if m = 13 then some 3 else none := rfl

theorem clash_keys : IsKeys (serve clash 30 Ws.init [.node 3, .node 7]).1 [13, 17] := by
  refine ⟨by decide, fun m => ?_⟩
  rw [clash_nodes]
  by_cases h1 : m = 17 <;> by_cases h2 : m = 13 <;> simp [h1, h2]

/-- The hypotheses of `by_type_quiet` are met by the nodes that have been made, and the answer is not empty. -/
example : (∀ m id, (serve clash 30 Ws.init [.node 3, .node 7]).1.nodes m = some id → (fun i => i == 3) id = true →
      (serve clash 30 Ws.init [.node 3, .node 7]).1.objects m ≠ none) ∧
    (serve clash 30 Ws.init [.node 3, .node 7]).1.nodes 13 = some 3 := by
  refine ⟨fun m id hm hid => ?_, by decide⟩
  rw [clash_nodes] at hm
  have : id = 3 := by simpa using hid
  subst this
  by_cases h1 : m = 17
  · simp [h1] at hm
  · by_cases h2 : m = 13
    · subst h2; decide
    · simp [h1, h2] at hm

/-- **C132, violated.** The call raises although each of the objects can be had: node 7 was registered without what it refers to, when
node 4 was rejected, so that creating it for the dictionary adds node 8 to the nodes while they are looped over. -/
theorem by_type_answers_false : ¬ ∀ (g : Graph), Acyclic g → ∀ (fuel : Nat) (rs : List Request) (ofType : Nat → Bool) (keys : List Nat),
    IsKeys (serve g fuel Ws.init rs).1 keys →
    (∀ m ∈ keys, (getObject g fuel (serve g fuel Ws.init rs).1 (.name m)).2 ≠ none) →
    (getByType g fuel ofType (serve g fuel Ws.init rs).1 keys).2 ≠ none := by
  intro h
  refine h clash clash_acyclic 30 [.node 3, .node 7] (fun i => i == 7) [13, 17] clash_keys (by decide) ?_
  have hs : ¬ sizeChanged [13, 17] (serve clash 30 Ws.init [.node 3, .node 7]).1 := fun ⟨m, hm, hn⟩ => hn ((clash_keys.2 m).mpr hm)
  have h13 : (serve clash 30 Ws.init [.node 3, .node 7]).1.nodes 13 = some 3 := by decide
  have h17 : (serve clash 30 Ws.init [.node 3, .node 7]).1.nodes 17 = some 7 := by decide
  have hg : (getNode clash 30 (serve clash 30 Ws.init [.node 3, .node 7]).1 7).2 = some (.made 2) := by decide
  have h18 : (getNode clash 30 (serve clash 30 Ws.init [.node 3, .node 7]).1 7).1.nodes 18 = some 8 := by decide
  generalize (serve clash 30 Ws.init [.node 3, .node 7]).1 = ws at *
  unfold getByType byTypeLoop
  rw [if_neg hs, h13]
  dsimp only
  rw [if_neg (by decide)]
  unfold byTypeLoop
  rw [if_neg hs, h17]
  dsimp only
  rw [if_pos (by decide)]
  generalize getNode clash 30 ws 7 = r at *
  obtain ⟨ws1, o⟩ := r
  simp only at hg h18
  subst hg
  dsimp only
  unfold byTypeLoop
  rw [if_pos ⟨18, by rw [h18]; simp, by decide⟩]

end Verif.Work
