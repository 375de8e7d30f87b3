import Mathlib.Tactic.ByContra
import Verif.Work.Workspace

/-! Lemmas about the workspace: adding nodes only adds nodes, and asking for objects only adds objects. -/
namespace Verif.Work

/-- Only nodes are added. -/
structure Adds (g : Graph) (ws ws' : Ws) : Prop where
  objects : ws'.objects = ws.objects
  created : ws'.created = ws.created
  nodes : ∀ m j, ws.nodes m = some j → ws'.nodes m = some j
  named : (∀ m j, ws.nodes m = some j → g.name j = m) → ∀ m j, ws'.nodes m = some j → g.name j = m

theorem Adds.refl (g : Graph) (ws : Ws) : Adds g ws ws := ⟨rfl, rfl, fun _ _ h => h, fun h => h⟩

theorem Adds.trans {g : Graph} {a b c : Ws} (h : Adds g a b) (h' : Adds g b c) : Adds g a c :=
  ⟨h'.objects.trans h.objects, h'.created.trans h.created, fun m j hj => h'.nodes m j (h.nodes m j hj),
    fun hn => h'.named (h.named hn)⟩

theorem addOne_adds (g : Graph) (ws : Ws) (id : Nat) : Adds g ws (addOne g ws id).1 := by
  unfold addOne
  split
  · split <;> exact Adds.refl g ws
  · rename_i hnone
    refine ⟨rfl, rfl, ?_, ?_⟩
    · intro m j hj
      show (if m = g.name id then some id else ws.nodes m) = some j
      split
      · rename_i h; rw [h, hnone] at hj; exact absurd hj (by simp)
      · exact hj
    · intro hn m j hj
      change (if m = g.name id then some id else ws.nodes m) = some j at hj
      split at hj
      · rename_i h; cases hj; exact h.symm
      · exact hn m j hj

theorem addOne_some (g : Graph) (ws : Ws) (id : Nat) (b : Bool) (h : (addOne g ws id).2 = some b) :
    (addOne g ws id).1.nodes (g.name id) = some id := by
  unfold addOne at h ⊢
  split
  · rename_i other ho
    split
    · rename_i he; rw [he] at ho; exact ho
    · rename_i he; rw [ho] at h; simp [he] at h
  · simp

theorem addRefs_adds (g : Graph) : ∀ (l : List Nat) (ws : Ws), Adds g ws (addRefs g ws l).1
  | [], ws => Adds.refl g ws
  | c :: rest, ws => by
    have h := addOne_adds g ws c
    unfold addRefs
    split
    · rename_i ws' he; rw [he] at h; exact h
    · rename_i ws' b he; rw [he] at h; exact h.trans (addRefs_adds g rest ws')

theorem iter_adds (g : Graph) (fuel : Nat) :
    (∀ ws visited id, Adds g ws (iterModel g fuel ws visited id).1) ∧
    (∀ ws visited l, Adds g ws (iterFields g fuel ws visited l).1) ∧
    ∀ ws visited l, Adds g ws (iterItems g fuel ws visited l).1 := by
  induction fuel with
  | zero =>
    refine ⟨fun ws v i => ?_, fun ws v l => ?_, fun ws v l => ?_⟩
    · unfold iterModel; exact Adds.refl g ws
    · unfold iterFields; exact Adds.refl g ws
    · unfold iterItems; exact Adds.refl g ws
  | succ fuel ih =>
    obtain ⟨ihm, ihf, ihi⟩ := ih
    refine ⟨fun ws v i => ?_, fun ws v l => ?_, fun ws v l => ?_⟩
    · unfold iterModel
      split
      · exact Adds.refl g ws
      · exact ihf ws _ _
    · cases l with
      | nil => unfold iterFields; exact Adds.refl g ws
      | cons f rest =>
        obtain ⟨children, isRef⟩ := f
        have h := ihi ws v children
        unfold iterFields
        split
        · rename_i a b he; rw [he] at h; exact h
        · rename_i ws1 v1 he
          rw [he] at h
          split
          · have h2 := addRefs_adds g children ws1
            split
            · rename_i a he2; rw [he2] at h2; exact h.trans h2
            · rename_i ws2 he2; rw [he2] at h2; exact (h.trans h2).trans (ihf ws2 v1 rest)
          · exact h.trans (ihf ws1 v1 rest)
    · cases l with
      | nil => unfold iterItems; exact Adds.refl g ws
      | cons c rest =>
        have h := ihm ws v c
        unfold iterItems
        split
        · rename_i a b he; rw [he] at h; exact h
        · rename_i ws1 v1 he; rw [he] at h; exact h.trans (ihi ws1 v1 rest)

theorem addNode_adds (g : Graph) (fuel : Nat) (ws : Ws) (id : Nat) : Adds g ws (addNode g fuel ws id).1 := by
  have h := addOne_adds g ws id
  unfold addNode
  split
  · rename_i a he; rw [he] at h; exact h
  · rename_i a he; rw [he] at h; exact h
  · rename_i a he; rw [he] at h; exact h.trans ((iter_adds g fuel).1 a [] id)

theorem addNode_true (g : Graph) (fuel : Nat) (ws : Ws) (id : Nat) (h : (addNode g fuel ws id).2 = true) :
    (addNode g fuel ws id).1.nodes (g.name id) = some id := by
  have h1 := addOne_some g ws id
  unfold addNode at h ⊢
  split
  · rename_i a he; rw [he] at h; exact absurd h (by simp)
  · rename_i a he; rw [he] at h1; exact h1 false rfl
  · rename_i a he; rw [he] at h1; exact ((iter_adds g fuel).1 a [] id).nodes _ _ (h1 true rfl)

/-- What holds of every workspace: nodes and objects are stored under their names, and the `k`-th created object is stored under the
name of the node it was made for. -/
structure Inv (g : Graph) (ws : Ws) : Prop where
  named : ∀ m j, ws.nodes m = some j → g.name j = m
  var : ws.objects variableName = some .theVariable
  onlyVar : ∀ m, ws.objects m = some .theVariable → m = variableName
  self : ∀ m j, ws.objects m = some (.self j) → g.name j = m
  made : ∀ m k, ws.objects m = some (.made k) → ∃ j, ws.created[k]? = some j ∧ g.name j = m
  created : ∀ (k j : Nat), ws.created[k]? = some j → ws.objects (g.name j) = some (.made k)
  complete : ∀ j ∈ ws.created, ∀ d ∈ g.deps j, ws.objects (g.name d) ≠ none

theorem Inv.init (g : Graph) : Inv g Ws.init := by
  refine ⟨by simp [Ws.init], by simp [Ws.init], ?_, ?_, ?_, by simp [Ws.init], by simp [Ws.init]⟩
  · intro m h; by_contra hm; simp [Ws.init, hm] at h
  · intro m j h; by_cases hm : m = variableName <;> simp [Ws.init, hm] at h
  · intro m j h; by_cases hm : m = variableName <;> simp [Ws.init, hm] at h

theorem Inv.adds {g : Graph} {ws ws' : Ws} (hi : Inv g ws) (h : Adds g ws ws') : Inv g ws' := by
  refine ⟨h.named hi.named, ?_, ?_, ?_, ?_, ?_, ?_⟩
  · rw [h.objects]; exact hi.var
  · rw [h.objects]; exact hi.onlyVar
  · rw [h.objects]; exact hi.self
  · rw [h.objects, h.created]; exact hi.made
  · rw [h.objects, h.created]; exact hi.created
  · rw [h.objects, h.created]; exact hi.complete

/-- What a request does to the workspace; the new objects belong to registered nodes of rank at most (below) `r`. -/
structure Grows (g : Graph) (below : Nat → Prop) (ws ws' : Ws) : Prop where
  nodes : ∀ m j, ws.nodes m = some j → ws'.nodes m = some j
  objects : ∀ m o, ws.objects m = some o → ws'.objects m = some o
  created : ws.created <+: ws'.created
  fresh : ∀ m, ws.objects m = none → ws'.objects m ≠ none → ∃ j, ws'.nodes m = some j ∧ below j

theorem Grows.refl (g : Graph) (p : Nat → Prop) (ws : Ws) : Grows g p ws ws :=
  ⟨fun _ _ h => h, fun _ _ h => h, List.prefix_refl _, fun _ h h' => absurd h h'⟩

theorem Grows.trans {g : Graph} {p : Nat → Prop} {a b c : Ws} (h : Grows g p a b) (h' : Grows g p b c) : Grows g p a c := by
  refine ⟨fun m j hj => h'.nodes m j (h.nodes m j hj), fun m j hj => h'.objects m j (h.objects m j hj), h.created.trans h'.created, ?_⟩
  intro m hm hm'
  cases hb : b.objects m with
  | none => exact h'.fresh m hb hm'
  | some o =>
    obtain ⟨j, hj, hp⟩ := h.fresh m hm (by rw [hb]; simp)
    exact ⟨j, h'.nodes m j hj, hp⟩

theorem Grows.mono {g : Graph} {p q : Nat → Prop} {a b : Ws} (h : Grows g p a b) (hpq : ∀ j, p j → q j) : Grows g q a b :=
  ⟨h.nodes, h.objects, h.created, fun m hm hm' => (h.fresh m hm hm').imp fun j hj => ⟨hj.1, hpq j hj.2⟩⟩

theorem Adds.grows {g : Graph} {p : Nat → Prop} {a b : Ws} (h : Adds g a b) : Grows g p a b :=
  ⟨h.nodes, fun m o ho => by rw [h.objects]; exact ho, by rw [h.created]; exact List.prefix_refl _, fun m hm hm' => by rw [h.objects] at hm'; exact absurd hm hm'⟩

/-- Storing a new object. -/
theorem store {g : Graph} {ws : Ws} (hi : Inv g ws) (id : Nat) (hnone : ws.objects (g.name id) = none)
    (hn : ws.nodes (g.name id) = some id) (p : Nat → Prop) (hp : p id) :
    ((∀ d ∈ g.deps id, ws.objects (g.name d) ≠ none) → ∀ ws', ws' = Ws.mk ws.nodes
        (fun m => if m = g.name id then some (.made ws.created.length) else ws.objects m) (ws.created ++ [id]) → Inv g ws' ∧ Grows g p ws ws') ∧
    ∀ ws', ws' = { ws with objects := fun m => if m = g.name id then some (.self id) else ws.objects m } →
      Inv g ws' ∧ Grows g p ws ws' := by
  have hv : variableName ≠ g.name id := by intro h; rw [← h, hi.var] at hnone; simp at hnone
  constructor
  · rintro hdeps ws' rfl
    refine ⟨⟨hi.named, ?_, ?_, ?_, ?_, ?_, ?_⟩, ⟨fun _ _ h => h, ?_, ?_, ?_⟩⟩
    · show (if variableName = g.name id then _ else _) = _
      rw [if_neg hv]; exact hi.var
    · intro m h
      change (if m = g.name id then _ else _) = _ at h
      split at h
      · simp at h
      · exact hi.onlyVar m h
    · intro m j h
      change (if m = g.name id then _ else _) = _ at h
      split at h
      · simp at h
      · exact hi.self m j h
    · intro m k h
      change (if m = g.name id then _ else _) = _ at h
      split at h
      · rename_i hm
        simp only [Option.some.injEq, Obj.made.injEq] at h
        refine ⟨id, ?_, hm.symm⟩
        rw [← h]; simp
      · obtain ⟨j, hj, hjm⟩ := hi.made m k h
        refine ⟨j, ?_, hjm⟩
        show (ws.created ++ [id])[k]? = some j
        rw [List.getElem?_append_left]
        · exact hj
        · exact (List.getElem?_eq_some_iff.mp hj).1
    · intro k j h
      change (ws.created ++ [id])[k]? = some j at h
      show (if g.name j = g.name id then _ else _) = _
      rcases Nat.lt_trichotomy k ws.created.length with hk | hk | hk
      · rw [List.getElem?_append_left hk] at h
        have := hi.created k j h
        split
        · rename_i he; rw [he, hnone] at this; simp at this
        · exact this
      · subst hk
        simp at h
        subst h
        simp
      · rw [List.getElem?_eq_none (by simp; omega)] at h
        simp at h
    · intro j hj d hd
      show (if g.name d = g.name id then _ else _) ≠ _
      split
      · simp
      · rcases List.mem_append.mp hj with hj | hj
        · exact hi.complete j hj d hd
        · simp only [List.mem_singleton] at hj
          subst hj
          exact hdeps d hd
    · intro m o ho
      show (if m = g.name id then _ else _) = _
      split
      · rename_i hm; rw [hm, hnone] at ho; simp at ho
      · exact ho
    · exact List.prefix_append _ _
    · intro m hm hm'
      change (if m = g.name id then _ else _) ≠ _ at hm'
      split at hm'
      · rename_i he; exact ⟨id, by rw [he]; exact hn, hp⟩
      · exact absurd hm hm'
  · rintro ws' rfl
    refine ⟨⟨hi.named, ?_, ?_, ?_, ?_, ?_, ?_⟩, ⟨fun _ _ h => h, ?_, List.prefix_refl _, ?_⟩⟩
    · show (if variableName = g.name id then _ else _) = _
      rw [if_neg hv]; exact hi.var
    · intro m h
      change (if m = g.name id then _ else _) = _ at h
      split at h
      · simp at h
      · exact hi.onlyVar m h
    · intro m j h
      change (if m = g.name id then _ else _) = _ at h
      split at h
      · rename_i hm; cases h; exact hm.symm
      · exact hi.self m j h
    · intro m k h
      change (if m = g.name id then _ else _) = _ at h
      split at h
      · simp at h
      · exact hi.made m k h
    · intro k j h
      have := hi.created k j h
      show (if g.name j = g.name id then _ else _) = _
      split
      · rename_i he; rw [he, hnone] at this; simp at this
      · exact this
    · intro j hj d hd
      show (if g.name d = g.name id then _ else _) ≠ _
      split
      · simp
      · exact hi.complete j hj d hd
    · intro m o ho
      show (if m = g.name id then _ else _) = _
      split
      · rename_i hm; rw [hm, hnone] at ho; simp at ho
      · exact ho
    · intro m hm hm'
      change (if m = g.name id then _ else _) ≠ _ at hm'
      split at hm'
      · rename_i he; exact ⟨id, by rw [he]; exact hn, hp⟩
      · exact absurd hm hm'

/-- What requests do, if creators ask only for nodes of lower rank. -/
theorem get_grows (g : Graph) (rank : Nat → Nat) (hr : ∀ id, ∀ d ∈ g.deps id, rank d < rank id) (fuel : Nat) :
    (∀ ws id, Inv g ws → Inv g (getNode g fuel ws id).1 ∧
      Grows g (fun j => rank j ≤ rank id) ws (getNode g fuel ws id).1 ∧
      ∀ o, (getNode g fuel ws id).2 = some o → (getNode g fuel ws id).1.objects (g.name id) = some o) ∧
    ∀ ws l (r : Nat), (∀ d ∈ l, rank d < r) → Inv g ws → Inv g (getAll g fuel ws l).1 ∧
      Grows g (fun j => rank j < r) ws (getAll g fuel ws l).1 ∧
      ((getAll g fuel ws l).2 = true → ∀ d ∈ l, (getAll g fuel ws l).1.objects (g.name d) ≠ none) := by
  induction fuel with
  | zero =>
    refine ⟨fun ws id hi => ?_, fun ws l r hl hi => ?_⟩
    · unfold getNode; exact ⟨hi, Grows.refl _ _ _, by simp⟩
    · unfold getAll; exact ⟨hi, Grows.refl _ _ _, by simp⟩
  | succ fuel ih =>
    obtain ⟨ihn, iha⟩ := ih
    refine ⟨fun ws id hi => ?_, fun ws l r hl hi => ?_⟩
    · unfold getNode
      split
      · rename_i o ho
        exact ⟨hi, Grows.refl _ _ _, fun o' ho' => by cases ho'; exact ho⟩
      · rename_i hnone
        have ha := addNode_adds g fuel ws id
        have ht := addNode_true g fuel ws id
        split
        · rename_i ws1 he
          rw [he] at ha
          exact ⟨hi.adds ha, ha.grows, by simp⟩
        · rename_i ws1 he
          rw [he] at ha ht
          have hn1 : ws1.nodes (g.name id) = some id := ht rfl
          have hi1 := hi.adds ha
          have hnone1 : ws1.objects (g.name id) = none := by rw [ha.objects]; exact hnone
          have hg1 : Grows g (fun j => rank j ≤ rank id) ws ws1 := ha.grows
          split
          · obtain ⟨hi2, hg2, hd⟩ := iha ws1 (g.deps id) (rank id) (hr id) hi1
            split
            · rename_i ws2 he2
              rw [he2] at hi2 hg2
              exact ⟨hi2, hg1.trans (hg2.mono fun j hj => Nat.le_of_lt hj), by simp⟩
            · rename_i ws2 he2
              rw [he2] at hi2 hg2 hd
              have hn2 : ws2.nodes (g.name id) = some id := hg2.nodes _ _ hn1
              have hnone2 : ws2.objects (g.name id) = none := by
                by_contra hc
                obtain ⟨j, hj, hlt⟩ := hg2.fresh _ hnone1 hc
                change ws2.nodes (g.name id) = some j at hj
                rw [hn2] at hj
                cases hj
                exact absurd hlt (Nat.lt_irrefl _)
              obtain ⟨hi3, hg3⟩ := (store hi2 id hnone2 hn2 (fun j => rank j ≤ rank id) (Nat.le_refl _)).1 (hd rfl) _ rfl
              refine ⟨hi3, (hg1.trans (hg2.mono fun j hj => Nat.le_of_lt hj)).trans hg3, ?_⟩
              intro o ho
              cases ho
              simp
          · obtain ⟨hi3, hg3⟩ := (store hi1 id hnone1 hn1 (fun j => rank j ≤ rank id) (Nat.le_refl _)).2 _ rfl
            refine ⟨hi3, hg1.trans hg3, ?_⟩
            intro o ho
            cases ho
            simp
    · cases l with
      | nil => unfold getAll; exact ⟨hi, Grows.refl _ _ _, by simp⟩
      | cons d rest =>
        obtain ⟨hi1, hg1, ho1⟩ := ihn ws d hi
        have hd : rank d < r := hl d (by simp)
        unfold getAll
        split
        · rename_i ws1 he
          rw [he] at hi1 hg1
          exact ⟨hi1, hg1.mono fun j hj => Nat.lt_of_le_of_lt hj hd, by simp⟩
        · rename_i ws1 o he
          rw [he] at hi1 hg1 ho1
          obtain ⟨hi2, hg2, ho2⟩ := iha ws1 rest r (fun d' h' => hl d' (by simp [h'])) hi1
          refine ⟨hi2, (hg1.mono fun j hj => Nat.lt_of_le_of_lt hj hd).trans hg2, ?_⟩
          intro ht d' hd'
          rcases List.mem_cons.mp hd' with rfl | hd'
          · rw [hg2.objects _ _ (ho1 o rfl)]; simp
          · exact ho2 ht d' hd'

end Verif.Work
