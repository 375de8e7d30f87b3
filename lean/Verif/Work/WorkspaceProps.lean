import Mathlib.Data.List.Nodup
import Verif.Work.WorkspaceLemmas

/-!
C38: a workspace returns one object per node, over every history of requests. Creators may ask for further nodes to any depth, and
requests may fail; the only assumption is that what creators ask for is not cyclic (`Acyclic`).
-/
namespace Verif.Work

/-- Creators do not ask, directly or indirectly, for the node they make. -/
def Acyclic (g : Graph) : Prop := ∃ rank : Nat → Nat, ∀ id, ∀ d ∈ g.deps id, rank d < rank id

/-- The name a request is about. -/
def reqName (g : Graph) : Request → Nat
  | .name m => m
  | .node id => g.name id

/-- One request, from a workspace with the invariant. -/
theorem getObject_spec {g : Graph} (h : Acyclic g) (fuel : Nat) {ws : Ws} (hi : Inv g ws) (r : Request) :
    Inv g (getObject g fuel ws r).1 ∧ Grows g (fun _ => True) ws (getObject g fuel ws r).1 ∧
      ∀ o, (getObject g fuel ws r).2 = some o → (getObject g fuel ws r).1.objects (reqName g r) = some o := by
  obtain ⟨rank, hr⟩ := h
  have hn := (get_grows g rank hr fuel).1
  cases r with
  | node id =>
    obtain ⟨h1, h2, h3⟩ := hn ws id hi
    exact ⟨h1, h2.mono fun _ _ => trivial, h3⟩
  | name m =>
    simp only [getObject]
    split
    · rename_i hm
      exact ⟨hi, Grows.refl _ _ _, fun o ho => by simpa [reqName, hm] using ho⟩
    · split
      · exact ⟨hi, Grows.refl _ _ _, by simp⟩
      · rename_i id hid
        obtain ⟨h1, h2, h3⟩ := hn ws id hi
        refine ⟨h1, h2.mono fun _ _ => trivial, fun o ho => ?_⟩
        have := h3 o ho
        rw [hi.named m id hid] at this
        exact this

theorem serve_spec {g : Graph} (h : Acyclic g) (fuel : Nat) : ∀ (rs : List Request) (ws : Ws), Inv g ws →
    Inv g (serve g fuel ws rs).1 ∧ Grows g (fun _ => True) ws (serve g fuel ws rs).1 ∧
      ∀ (i : Nat) (r : Request) (o : Obj), rs[i]? = some r → (serve g fuel ws rs).2[i]? = some (some o) →
        (serve g fuel ws rs).1.objects (reqName g r) = some o
  | [], ws, hi => ⟨hi, Grows.refl _ _ _, by simp⟩
  | r :: rs, ws, hi => by
    obtain ⟨h1, h2, h3⟩ := getObject_spec h fuel hi r
    obtain ⟨g1, g2, g3⟩ := serve_spec h fuel rs _ h1
    refine ⟨g1, h2.trans g2, ?_⟩
    intro i r' o hr' ho
    cases i with
    | zero =>
      simp only [List.getElem?_cons_zero, Option.some.injEq] at hr'
      subst hr'
      simp only [serve, List.getElem?_cons_zero, Option.some.injEq] at ho
      exact g2.objects _ _ (h3 o ho)
    | succ i =>
      simp only [List.getElem?_cons_succ] at hr'
      simp only [serve, List.getElem?_cons_succ] at ho
      exact g3 i r' o hr' ho

/-- **C38.** In every history of requests to a new workspace, by name or by node, two requests for the same name that are answered
get the same object, and two that get the same object were for the same name. -/
theorem one_object_per_name (g : Graph) (h : Acyclic g) (fuel : Nat) (rs : List Request) (i j : Nat) (r r' : Request) (o o' : Obj)
    (hr : rs[i]? = some r) (hr' : rs[j]? = some r') (ho : (serve g fuel Ws.init rs).2[i]? = some (some o))
    (ho' : (serve g fuel Ws.init rs).2[j]? = some (some o')) : o = o' ↔ reqName g r = reqName g r' := by
  obtain ⟨hi, _, hs⟩ := serve_spec h fuel rs Ws.init (Inv.init g)
  have e := hs i r o hr ho
  have e' := hs j r' o' hr' ho'
  constructor
  · rintro rfl
    cases o with
    | theVariable => rw [hi.onlyVar _ e, hi.onlyVar _ e']
    | self k => rw [← hi.self _ _ e, ← hi.self _ _ e']
    | made k =>
      obtain ⟨a, ha, hn⟩ := hi.made _ _ e
      obtain ⟨b, hb, hn'⟩ := hi.made _ _ e'
      rw [ha] at hb
      cases hb
      rw [← hn, ← hn']
  · intro hn
    rw [hn, e'] at e
    cases e
    rfl

/-- **C38.** In every history, the creator of a node completes at most once, also through requests of other creators, and of two
nodes with the same name at most one is ever made. -/
theorem created_once (g : Graph) (h : Acyclic g) (fuel : Nat) (rs : List Request) :
    ((serve g fuel Ws.init rs).1.created.map g.name).Nodup := by
  obtain ⟨hi, _, _⟩ := serve_spec h fuel rs Ws.init (Inv.init g)
  rw [List.nodup_iff_injective_getElem]
  intro ⟨a, ha⟩ ⟨b, hb⟩ hab
  simp only [List.length_map] at ha hb
  simp only [List.getElem_map] at hab
  have e := hi.created a _ (List.getElem?_eq_getElem ha)
  have e' := hi.created b _ (List.getElem?_eq_getElem hb)
  rw [hab, e'] at e
  simp only [Option.some.injEq, Obj.made.injEq] at e
  exact Fin.ext e.symm

/-- **C38.** A node that was given an object is given that object by every later request, whatever else was asked in between, and
whether or not that failed. -/
theorem object_kept (g : Graph) (h : Acyclic g) (fuel : Nat) (before between : List Request) (id : Nat) (o : Obj)
    (ho : (getObject g fuel (serve g fuel Ws.init before).1 (.node id)).2 = some o) :
    (getObject g (fuel + 1) (serve g fuel (getObject g fuel (serve g fuel Ws.init before).1 (.node id)).1 between).1
      (.node id)).2 = some o := by
  obtain ⟨hi, _, _⟩ := serve_spec h fuel before Ws.init (Inv.init g)
  obtain ⟨h1, _, h3⟩ := getObject_spec h fuel hi (.node id)
  obtain ⟨_, g2, _⟩ := serve_spec h fuel between _ h1
  have e := g2.objects _ _ (h3 o ho)
  change Ws.objects _ (g.name id) = some o at e
  generalize (serve g fuel (getObject g fuel (serve g fuel Ws.init before).1 (.node id)).1 between).1 = ws at e ⊢
  show (getNode g (fuel + 1) ws id).2 = some o
  unfold getNode
  rw [e]

/-- **C38.** "When a node is created, all nodes that it depends on are also created": in every history every node that was made has
the objects its creator asked for in the workspace, and asking for them gives those. -/
theorem dependencies_created (g : Graph) (h : Acyclic g) (fuel : Nat) (rs : List Request) (j d : Nat)
    (hj : j ∈ (serve g fuel Ws.init rs).1.created) (hd : d ∈ g.deps j) :
    ∃ o, getObject g 1 (serve g fuel Ws.init rs).1 (.node d) = ((serve g fuel Ws.init rs).1, some o) := by
  obtain ⟨hi, _, _⟩ := serve_spec h fuel rs Ws.init (Inv.init g)
  have := hi.complete j hj d hd
  obtain ⟨o, ho⟩ := Option.ne_none_iff_exists'.mp this
  refine ⟨o, ?_⟩
  show getNode g 1 _ d = _
  unfold getNode
  rw [ho]

/-- **C38, partial.** A node is rejected, and the workspace left as it was, if another node with its name is in the workspace and has
no object yet. What is missing is the case that the other node has an object: see `second_node_rejected_false`. -/
theorem second_node_rejected_partial (g : Graph) (fuel : Nat) (ws : Ws) (id other : Nat) (hn : ws.nodes (g.name id) = some other)
    (hne : other ≠ id) (ho : ws.objects (g.name id) = none) : getObject g fuel ws (.node id) = (ws, none) := by
  show getNode g fuel ws id = _
  cases fuel with
  | zero => unfold getNode; rfl
  | succ fuel => unfold getNode addNode addOne; simp [ho, hn, hne]

/-- Node 1 needs node 2 and has an inner model 5 with a reference to node 3; node 4 is called like node 3; node 6 refers to node 4
without asking for it. -/
def sample : Graph where
  name := fun i => if i = 4 then 13 else 10 + i
  fields := fun i => if i = 1 then [([2], true), ([5], false)] else if i = 5 then [([3], true)] else if i = 6 then [([4], true)] else []
  hasCreator := fun i => i ≠ 2
  deps := fun i => if i = 1 then [2, 3] else []

theorem sample_acyclic : Acyclic sample := by
  refine ⟨fun i => if i = 1 then 1 else 0, fun id d hd => ?_⟩
  by_cases h : id = 1
  · subst h
    simp [sample] at hd
    rcases hd with rfl | rfl <;> simp
  · simp [sample, h] at hd

/-- Four requests: node 1 is made after node 3, node 2 is its own object, and node 1 is found again by name. -/
example : (serve sample 30 Ws.init [.node 1, .name 11, .name 13, .node 2]).2 =
      [some (.made 1), some (.made 1), some (.made 0), some (.self 2)] ∧
    (serve sample 30 Ws.init [.node 1, .name 11, .name 13, .node 2]).1.created = [3, 1] := by decide

/-- Node 4 is rejected while node 3, which has its name, is registered without an object. -/
example : (serve sample 30 Ws.init [.node 5, .node 4]).2 = [some (.made 0), none] ∧
    (serve sample 30 Ws.init [.node 5]).1.nodes (sample.name 4) = some 3 ∧
    (serve sample 30 Ws.init [.node 5]).1.objects (sample.name 4) = none := by decide

/-- **C38, violated (F24).** "An error is raised if a node by the same name but different id is added" fails: once node 3 has an
object, asking for node 4 of the same name returns the object of node 3. -/
theorem second_node_rejected_false : ¬ ∀ (g : Graph), Acyclic g → ∀ (fuel : Nat) (rs : List Request) (id other : Nat), other ≠ id →
    (serve g fuel Ws.init rs).1.nodes (g.name id) = some other → (getObject g fuel (serve g fuel Ws.init rs).1 (.node id)).2 = none := by
  intro h
  have := h sample sample_acyclic 30 [.node 3] 4 3 (by decide) (by decide)
  revert this
  decide

/-- **C38, violated.** The error about a second node of the same name below a new node comes only once: the new node is registered
before its fields are looked at, so the second request for it is answered. -/
theorem rejection_repeats_false : ¬ ∀ (g : Graph), Acyclic g → ∀ (fuel : Nat) (rs : List Request) (id : Nat),
    (getObject g fuel (serve g fuel Ws.init rs).1 (.node id)).2 = none →
    (getObject g fuel (getObject g fuel (serve g fuel Ws.init rs).1 (.node id)).1 (.node id)).2 = none := by
  intro h
  have := h sample sample_acyclic 30 [.node 3] 6 (by decide)
  revert this
  decide

end Verif.Work
