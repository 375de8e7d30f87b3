import Verif.Schema.Copy
import Verif.Schema.PlanProps
import Mathlib.Data.List.Nodup
import Mathlib.Data.List.Count
import Mathlib.Order.Basic
import Mathlib.Order.Defs.LinearOrder
import Mathlib.Order.Lattice
import Mathlib.Algebra.Order.Group.Nat
/-
Property C117: copies of plans, and that saving does not touch the plan.
-/
set_option linter.unusedSectionVars false
set_option linter.unusedSimpArgs false
namespace Verif.Schema
variable {P I H : Type}

/-! ### Isomorphic objects -/

/-- An entry of a field with its model renamed. -/
def Item.mapId (f : Nat → Nat) : Item P → Item P
  | .prim p => .prim p
  | .str s => .str s
  | .obj x => .obj (f x)

/-- A field with its models renamed. -/
def Field.mapIds (f : Nat → Nat) (fl : Field P I) : Field P I := { fl with items := fl.items.map (Item.mapId f) }

/-- An object with the models in its fields renamed. -/
def Obj.mapIds (f : Nat → Nat) (o : Obj P I H) : Obj P I H := { o with fields := o.fields.map (Field.mapIds f) }

/-- The objects `f x` of `h'`, for `x` in `S`, are a copy of the objects `S` of `h`: every object has one
copy, different objects have different copies, and the fields of a copy hold the same data and the
copies of the same objects. -/
structure Iso (f : Nat → Nat) (S : Nat → Prop) (h h' : Heap P I H) : Prop where
  inj : ∀ x y, S x → S y → f x = f y → x = y
  closed : ∀ x, S x → ∀ y ∈ (h x).children, S y
  obj : ∀ x, S x → h' (f x) = (h x).mapIds f

/-- The equality of models does not depend on where they are stored. -/
def EqIso (eq : Heap P I H → Nat → Nat → Bool) : Prop :=
  ∀ (f : Nat → Nat) (S : Nat → Prop) (h h' : Heap P I H), Iso f S h h' →
    ∀ x y, S x → S y → eq h' (f x) (f y) = eq h x y

theorem itemIds_map (f : Nat → Nat) (is : List (Item P)) :
    itemIds (is.map (Item.mapId f)) = (itemIds is).map f := by
  unfold itemIds
  induction is with
  | nil => rfl
  | cons i is ih => cases i <;> simp [Item.mapId, ih]

theorem mem_itemIds (is : List (Item P)) (y : Nat) : y ∈ itemIds is ↔ Item.obj y ∈ is := by
  unfold itemIds
  simp only [List.mem_filterMap]
  constructor
  · rintro ⟨i, hi, h⟩
    cases i with
    | obj z => simp only [Option.some.injEq] at h; subst h; exact hi
    | prim _ => cases h
    | str _ => cases h
  · exact fun h => ⟨_, h, rfl⟩

theorem children_map (f : Nat → Nat) (o : Obj P I H) : (o.mapIds f).children = o.children.map f := by
  unfold Obj.children Obj.mapIds
  have key : (o.fields.map (Field.mapIds f)).flatMap Field.items =
      (o.fields.flatMap Field.items).map (Item.mapId f) := by
    induction o.fields with
    | nil => rfl
    | cons a l ih => simp only [List.map_cons, List.flatMap_cons, ih, List.map_append]; rfl
  show List.filterMap _ ((o.fields.map (Field.mapIds f)).flatMap Field.items) = _
  rw [key]
  exact itemIds_map f _

section Equiv
variable {f : Nat → Nat} {S : Nat → Prop} {eq : Heap P I H → Nat → Nat → Bool}

theorem any_map_iso {h h' : Heap P I H} (heq : EqIso eq) (hi : Iso f S h h') (l : List Nat)
    (hl : ∀ x ∈ l, S x) (x : Nat) (hx : S x) :
    (l.map f).any (fun y => eq h' y (f x)) = l.any (fun y => eq h y x) := by
  induction l with
  | nil => rfl
  | cons a l ih =>
    rw [List.map_cons, List.any_cons, List.any_cons, ih (fun y hy => hl y (List.mem_cons_of_mem _ hy)),
      heq f S h h' hi a x (hl a (by simp)) hx]

theorem extractList_iso (rec rec' : List Nat → Nat → Option (List Nat))
    (hrec : ∀ l x, (∀ y ∈ l, S y) → S x → rec' (l.map f) (f x) = (rec l x).map (List.map f) ∧
      ∀ l', rec l x = some l' → ∀ y ∈ l', S y) (xs : List Nat) (hxs : ∀ x ∈ xs, S x) (l : List Nat)
    (hl : ∀ y ∈ l, S y) :
    extractList rec' (xs.map f) (l.map f) = (extractList rec xs l).map (List.map f) ∧
      ∀ l', extractList rec xs l = some l' → ∀ y ∈ l', S y := by
  induction xs generalizing l with
  | nil => exact ⟨rfl, fun l' h => by cases h; exact hl⟩
  | cons x xs ih =>
    have h1 := hrec l x hl (hxs x (by simp))
    simp only [List.map_cons, extractList, h1.1]
    cases hr : rec l x with
    | none => exact ⟨rfl, fun l' h => by cases h⟩
    | some l1 => exact ih (fun y hy => hxs y (List.mem_cons_of_mem _ hy)) l1 (h1.2 l1 hr)

theorem extract_iso {h h' : Heap P I H} (heq : EqIso eq) (hi : Iso f S h h') (n : Nat) (l : List Nat) (x : Nat)
    (hl : ∀ y ∈ l, S y) (hx : S x) :
    extract eq h' n (l.map f) (f x) = (extract eq h n l x).map (List.map f) ∧
      ∀ l', extract eq h n l x = some l' → ∀ y ∈ l', S y := by
  induction n generalizing l x with
  | zero => exact ⟨rfl, fun l' h => by cases h⟩
  | succ n ih =>
    simp only [extract, hi.obj x hx, children_map]
    have hn : ((h x).mapIds f).isNode = (h x).isNode := rfl
    rw [hn]
    cases hnode : (h x).isNode with
    | true =>
      simp only [if_true]
      rw [any_map_iso heq hi l hl x hx]
      cases l.any (fun y => eq h y x) with
      | true => exact ⟨rfl, fun l' h => by cases h; exact hl⟩
      | false =>
        have := extractList_iso (f := f) (S := S) (extract eq h n) (extract eq h' n) (fun l x => ih l x)
          (h x).children (hi.closed x hx) (l ++ [x]) (by
            intro y hy
            rcases List.mem_append.1 hy with hy | hy
            · exact hl y hy
            · simp at hy; subst hy; exact hx)
        rw [List.map_append] at this
        exact this
    | false =>
      exact extractList_iso (f := f) (S := S) (extract eq h n) (extract eq h' n) (fun l x => ih l x)
          (h x).children (hi.closed x hx) l hl

/-- Traversal states that correspond. -/
structure StIso (f : Nat → Nat) (S : Nat → Prop) (s s' : IterSt P I H) : Prop where
  heap : Iso f S s.heap s'.heap
  vis : s'.visited = s.visited.map f
  sub : ∀ x ∈ s.visited, S x

/-- Results that correspond. -/
def ResIso (f : Nat → Nat) (S : Nat → Prop) : Option (IterSt P I H) → Option (IterSt P I H) → Prop
  | none, none => True
  | some s, some s' => StIso f S s s'
  | _, _ => False

/-- Processing that does not depend on where models are stored. -/
def PfIso (f : Nat → Nat) (S : Nat → Prop) (pf pf' : Heap P I H → Item P → Option (Item P)) : Prop :=
  ∀ h h' i, Iso f S h h' → (∀ y, i = .obj y → S y) →
    pf' h' (i.mapId f) = (pf h i).map (Item.mapId f) ∧ ∀ j, pf h i = some j → ∀ y, j = .obj y → S y

theorem iterItems_iso {rec rec' : IterSt P I H → Nat → Option (IterSt P I H)}
    (hrec : ∀ s s' x, StIso f S s s' → S x → ResIso f S (rec s x) (rec' s' (f x)))
    (is : List (Item P)) (his : ∀ y, Item.obj y ∈ is → S y) (s s' : IterSt P I H) (hs : StIso f S s s') :
    ResIso f S (iterItems rec is s) (iterItems rec' (is.map (Item.mapId f)) s') := by
  induction is generalizing s s' with
  | nil => exact hs
  | cons i is ih =>
    have his' : ∀ y, Item.obj y ∈ is → S y := fun y hy => his y (List.mem_cons_of_mem _ hy)
    cases i with
    | prim p => exact ih his' s s' hs
    | str t => exact ih his' s s' hs
    | obj y =>
      have h1 := hrec s s' y hs (his y (by simp))
      simp only [List.map_cons, Item.mapId, iterItems]
      cases e1 : rec s y with
      | none =>
        rw [e1] at h1
        cases e2 : rec' s' (f y) with
        | none => trivial
        | some s2 => rw [e2] at h1; exact h1.elim
      | some s1 =>
        rw [e1] at h1
        cases e2 : rec' s' (f y) with
        | none => rw [e2] at h1; exact h1.elim
        | some s2 => rw [e2] at h1; exact ih his' s1 s2 h1

theorem processItems_iso {pf pf' : Heap P I H → Item P → Option (Item P)} (hpf : PfIso f S pf pf')
    {h h' : Heap P I H} (hi : Iso f S h h') (is : List (Item P)) (his : ∀ y, Item.obj y ∈ is → S y) :
    processItems pf' h' (is.map (Item.mapId f)) = (processItems pf h is).map (List.map (Item.mapId f)) ∧
      ∀ js, processItems pf h is = some js → ∀ y, Item.obj y ∈ js → S y := by
  induction is with
  | nil => exact ⟨rfl, fun js h => by cases h; simp⟩
  | cons i is ih =>
    have h1 := hpf h h' i hi (fun y hy => his y (by simp [hy]))
    have h2 := ih (fun y hy => his y (List.mem_cons_of_mem _ hy))
    simp only [List.map_cons, processItems, h1.1, h2.1]
    cases e1 : pf h i with
    | none => exact ⟨rfl, fun js h => by cases h⟩
    | some j =>
      cases e2 : processItems pf h is with
      | none => exact ⟨rfl, fun js h => by cases h⟩
      | some js =>
        refine ⟨rfl, fun js' h => ?_⟩
        cases h
        intro y hy
        rcases List.mem_cons.1 hy with hy | hy
        · exact h1.2 j e1 y hy.symm
        · exact h2.2 js e2 y hy

theorem setField_iso {h h' : Heap P I H} (hi : Iso f S h h') (x k : Nat) (hx : S x) (items : List (Item P))
    (hit : ∀ y, Item.obj y ∈ items → S y) :
    Iso f S (setField h x k items) (setField h' (f x) k (items.map (Item.mapId f))) := by
  refine ⟨hi.inj, ?_, ?_⟩
  · intro z hz y hy
    by_cases hzx : z = x
    · subst hzx
      simp only [setField, Heap.upd, if_true, mem_children] at hy
      obtain ⟨fl, hfl, hy⟩ := hy
      obtain ⟨j, hj, rfl⟩ := List.mem_iff_getElem.1 hfl
      rw [List.getElem_modify] at hy
      split at hy
      · exact hit y hy
      · exact hi.closed z hz y ((mem_children _ _).2 ⟨_, List.getElem_mem _, hy⟩)
    · simp only [setField, Heap.upd, hzx, if_false] at hy
      exact hi.closed z hz y hy
  · intro z hz
    by_cases hzx : z = x
    · subst hzx
      simp only [setField, Heap.upd, if_true, hi.obj z hz, Obj.mapIds]
      congr 1
      refine List.ext_getElem (by simp) fun j h1 h2 => ?_
      rw [List.getElem_modify, List.getElem_map, List.getElem_map, List.getElem_modify]
      split <;> rfl
    · have : f z ≠ f x := fun h => hzx (hi.inj z x hz hx h)
      simp only [setField, Heap.upd, hzx, this, if_false]
      exact hi.obj z hz

theorem iterFields_iso {rec rec' : IterSt P I H → Nat → Option (IterSt P I H)}
    (hrec : ∀ s s' x, StIso f S s s' → S x → ResIso f S (rec s x) (rec' s' (f x)))
    {pf pf' : Heap P I H → Item P → Option (Item P)} (hpf : PfIso f S pf pf') (x : Nat) (hx : S x)
    (ks : List Nat) (s s' : IterSt P I H) (hs : StIso f S s s') :
    ResIso f S (iterFields rec pf x ks s) (iterFields rec' pf' (f x) ks s') := by
  induction ks generalizing s s' with
  | nil => exact hs
  | cons k ks ih =>
    simp only [iterFields]
    have hf : ∀ {s s' : IterSt P I H}, StIso f S s s' →
        (s'.heap (f x)).fields[k]? = ((s.heap x).fields[k]?).map (Field.mapIds f) := by
      intro s s' hs
      rw [hs.heap.obj x hx]
      simp [Obj.mapIds]
    have hmem : ∀ {s s' : IterSt P I H} {fl : Field P I}, StIso f S s s' → (s.heap x).fields[k]? = some fl →
        ∀ y, Item.obj y ∈ fl.items → S y := by
      intro s s' fl hs hfl y hy
      exact hs.heap.closed x hx y ((mem_children _ _).2 ⟨fl, List.mem_of_getElem? hfl, hy⟩)
    rw [hf hs]
    cases e1 : (s.heap x).fields[k]? with
    | none => exact ih s s' hs
    | some fl =>
      simp only [Option.map_some]
      have h1 := iterItems_iso hrec fl.items (hmem hs e1) s s' hs
      have hfi : (Field.mapIds f fl).items = fl.items.map (Item.mapId f) := rfl
      rw [hfi]
      cases e2 : iterItems rec fl.items s with
      | none =>
        rw [e2] at h1
        cases e3 : iterItems rec' (fl.items.map (Item.mapId f)) s' with
        | none => trivial
        | some s2 => rw [e3] at h1; exact h1.elim
      | some s1 =>
        rw [e2] at h1
        cases e3 : iterItems rec' (fl.items.map (Item.mapId f)) s' with
        | none => rw [e3] at h1; exact h1.elim
        | some s2 =>
          rw [e3] at h1
          have h1 : StIso f S s1 s2 := h1
          simp only [Option.bind_some]
          rw [hf h1]
          cases e4 : (s1.heap x).fields[k]? with
          | none => exact ih s1 s2 h1
          | some fl1 =>
            simp only [Option.map_some]
            have hr : (Field.mapIds f fl1).isRef = fl1.isRef := rfl
            have hfi1 : (Field.mapIds f fl1).items = fl1.items.map (Item.mapId f) := rfl
            rw [hr, hfi1]
            cases fl1.isRef with
            | false => exact ih s1 s2 h1
            | true =>
              simp only [if_true]
              have h2 := processItems_iso hpf h1.heap fl1.items (hmem h1 e4)
              rw [h2.1]
              cases e5 : processItems pf s1.heap fl1.items with
              | none => trivial
              | some js =>
                simp only [Option.map_some, Option.bind_some]
                refine ih _ _ ⟨?_, h1.vis, h1.sub⟩
                exact setField_iso h1.heap x k hx js (h2.2 js e5)

theorem iterObj_iso {pf pf' : Heap P I H → Item P → Option (Item P)} (hpf : PfIso f S pf pf') (n : Nat)
    (s s' : IterSt P I H) (x : Nat) (hs : StIso f S s s') (hx : S x) :
    ResIso f S (iterObj pf n s x) (iterObj pf' n s' (f x)) := by
  induction n generalizing s s' x with
  | zero => trivial
  | succ n ih =>
    simp only [iterObj]
    have hv : f x ∈ s'.visited ↔ x ∈ s.visited := by
      rw [hs.vis, List.mem_map]
      constructor
      · rintro ⟨y, hy, hxy⟩
        rw [← hs.heap.inj y x (hs.sub y hy) hx hxy]
        exact hy
      · exact fun h => ⟨x, h, rfl⟩
    by_cases hxv : x ∈ s.visited
    · rw [if_pos hxv, if_pos (hv.2 hxv)]
      exact hs
    · rw [if_neg hxv, if_neg (fun h => hxv (hv.1 h))]
      have hlen : (s'.heap (f x)).fields.length = (s.heap x).fields.length := by
        rw [hs.heap.obj x hx]; simp [Obj.mapIds]
      rw [hlen]
      refine iterFields_iso (fun s s' x hs hx => ih s s' x hs hx) hpf x hx _ _ _ ⟨hs.heap, ?_, ?_⟩
      · simp [hs.vis]
      · intro y hy
        rcases List.mem_cons.1 hy with rfl | hy
        · exact hx
        · exact hs.sub y hy

theorem iterAll_iso {pf pf' : Heap P I H → Item P → Option (Item P)} (hpf : PfIso f S pf pf') (n : Nat)
    (xs : List Nat) (hxs : ∀ x ∈ xs, S x) (s s' : IterSt P I H) (hs : StIso f S s s') :
    ResIso f S (iterAll pf n xs s) (iterAll pf' n (xs.map f) s') := by
  induction xs generalizing s s' with
  | nil => exact hs
  | cons x xs ih =>
    have h1 := iterObj_iso hpf n s s' x hs (hxs x (by simp))
    simp only [List.map_cons, iterAll]
    cases e1 : iterObj pf n s x with
    | none =>
      rw [e1] at h1
      cases e2 : iterObj pf' n s' (f x) with
      | none => trivial
      | some s2 => rw [e2] at h1; exact h1.elim
    | some s1 =>
      rw [e1] at h1
      cases e2 : iterObj pf' n s' (f x) with
      | none => rw [e2] at h1; exact h1.elim
      | some s2 =>
        rw [e2] at h1
        exact ih (fun y hy => hxs y (List.mem_cons_of_mem _ hy)) s1 s2 h1

theorem toName_iso (heq : EqIso eq) (l : List Nat) (hl : ∀ x ∈ l, S x) :
    PfIso f S (toName eq l) (toName (P := P) (I := I) (H := H) eq (l.map f)) := by
  intro h h' i hi hx
  cases i with
  | prim p => exact ⟨rfl, fun j h => by cases h⟩
  | str t => exact ⟨rfl, fun j h => by cases h; intro y hy; cases hy⟩
  | obj y =>
    have hy := hx y rfl
    simp only [Item.mapId, toName]
    have key : (l.map f).find? (fun z => eq h' z (f y)) = (l.find? fun z => eq h z y).map f := by
      clear hx
      induction l with
      | nil => rfl
      | cons a l ih =>
        rw [List.map_cons, List.find?_cons, List.find?_cons, heq f S h h' hi a y (hl a (by simp)) hy]
        cases eq h a y with
        | true => rfl
        | false => exact ih fun z hz => hl z (List.mem_cons_of_mem _ hz)
    rw [key]
    cases e : l.find? fun z => eq h z y with
    | none => exact ⟨rfl, fun j h => by cases h⟩
    | some z =>
      have hz := hl z (List.mem_of_find?_eq_some e)
      refine ⟨?_, fun j h => by cases h; intro y hy; cases hy⟩
      simp only [Option.map_some, hi.obj z hz]
      rfl

theorem expItems_iso {h h' : Heap P I H} (hi : Iso f S h h') (rec rec' : Nat → J P I H)
    (hrec : ∀ x, S x → rec' (f x) = rec x) (is : List (Item P)) (his : ∀ y, Item.obj y ∈ is → S y) :
    expItems rec' h' (is.map (Item.mapId f)) = expItems rec h is := by
  induction is with
  | nil => rfl
  | cons i is ih =>
    have ih := ih fun y hy => his y (List.mem_cons_of_mem _ hy)
    cases i with
    | prim p => simp only [List.map_cons, Item.mapId, expItems, ih]
    | str t => simp only [List.map_cons, Item.mapId, expItems, ih]
    | obj y =>
      have hy := his y (by simp)
      simp only [List.map_cons, Item.mapId, expItems, ih, hrec y hy, hi.obj y hy]
      rfl

theorem expFields_iso {h h' : Heap P I H} (hi : Iso f S h h') (rec rec' : Nat → J P I H)
    (hrec : ∀ x, S x → rec' (f x) = rec x) (fs : List (Field P I))
    (hfs : ∀ fl ∈ fs, ∀ y, Item.obj y ∈ fl.items → S y) :
    expFields rec' h' (fs.map (Field.mapIds f)) = expFields rec h fs := by
  induction fs with
  | nil => rfl
  | cons fl fs ih =>
    simp only [List.map_cons, expFields, ih fun g hg => hfs g (List.mem_cons_of_mem _ hg)]
    have : (Field.mapIds f fl).items = fl.items.map (Item.mapId f) := rfl
    rw [this, expItems_iso hi rec rec' hrec fl.items (hfs fl (by simp))]
    rfl

theorem expObj_iso {h h' : Heap P I H} (hi : Iso f S h h') (n x : Nat) (hx : S x) :
    expObj h' n (f x) = expObj h n x := by
  induction n generalizing x with
  | zero => rfl
  | succ n ih =>
    simp only [expObj, hi.obj x hx]
    exact expFields_iso hi _ _ ih (h x).fields fun fl hfl y hy =>
      hi.closed x hx y ((mem_children _ _).2 ⟨fl, hfl, hy⟩)

/-- What is written does not depend on where the objects are stored. -/
theorem dumpsHeap_iso {h h' : Heap P I H} (heq : EqIso eq) (hi : Iso f S h h') (fuel : Nat) (p : PlanObj)
    (hp : ∀ x ∈ p.nodes ++ p.actions, S x) :
    (dumpsHeap eq fuel h' ⟨p.version, p.nodes.map f, p.actions.map f⟩).map Prod.fst =
      (dumpsHeap eq fuel h p).map Prod.fst := by
  unfold dumpsHeap
  simp only [← List.map_append]
  have h1 := extractList_iso (f := f) (S := S) (extract eq h fuel) (extract eq h' fuel)
    (fun l x hl hx => extract_iso heq hi fuel l x hl hx) (p.nodes ++ p.actions) hp [] (by simp)
  rw [List.map_nil] at h1
  rw [h1.1]
  cases e1 : extractList (extract eq h fuel) (p.nodes ++ p.actions) [] with
  | none => rfl
  | some l =>
    have hl := h1.2 l e1
    simp only [Option.map_some, Option.bind_some]
    have h2 := iterAll_iso (toName_iso (P := P) (I := I) (H := H) heq l hl) fuel (p.nodes ++ p.actions) hp
      ⟨h, []⟩ ⟨h', []⟩ ⟨hi, rfl, by simp⟩
    cases e2 : iterAll (toName eq l) fuel (p.nodes ++ p.actions) ⟨h, []⟩ with
    | none =>
      rw [e2] at h2
      cases e3 : iterAll (toName eq (l.map f)) fuel ((p.nodes ++ p.actions).map f) ⟨h', []⟩ with
      | none => rfl
      | some s2 => rw [e3] at h2; exact h2.elim
    | some s1 =>
      rw [e2] at h2
      cases e3 : iterAll (toName eq (l.map f)) fuel ((p.nodes ++ p.actions).map f) ⟨h', []⟩ with
      | none => rw [e3] at h2; exact h2.elim
      | some s2 =>
        rw [e3] at h2
        have h2 : StIso f S s1 s2 := h2
        simp only [Option.bind_some]
        have hnames : (l.map f).map (fun x => (s2.heap x).name) = l.map (fun x => (s1.heap x).name) := by
          rw [List.map_map]
          refine List.map_congr_left fun x hx => ?_
          simp only [Function.comp, h2.heap.obj x (hl x hx)]
          rfl
        rw [hnames]
        split
        · simp only [Option.map_some, Option.some.injEq]
          have hm : ∀ (k : List Nat), (k.map f).map (Item.obj (P := P)) = (k.map Item.obj).map (Item.mapId f) := by
            intro k
            rw [List.map_map, List.map_map]
            rfl
          have he : ∀ (k : List Nat), (∀ x ∈ k, S x) →
              expItems (expObj s2.heap fuel) s2.heap ((k.map f).map .obj) =
                expItems (expObj s1.heap fuel) s1.heap (k.map .obj) := by
            intro k hk
            rw [hm]
            refine expItems_iso h2.heap _ _ (fun x hx => expObj_iso h2.heap fuel x hx) _ ?_
            intro y hy
            obtain ⟨z, hz, hzy⟩ := List.mem_map.1 hy
            obtain rfl : z = y := by injection hzy
            exact hk z hz
          rw [he l hl, he p.actions fun x hx => hp x (List.mem_append_right _ hx)]
        · rfl
end Equiv

/-! ### The copy -/

/-- The copy the memo records. -/
def memoMap (memo : List (Nat × Nat)) (x : Nat) : Nat := (memo.lookup x).getD 0

/-- What holds during a copy of objects of `h0`, which are those before `n0`. -/
structure CInv (h0 : Heap P I H) (n0 : Nat) (s : CopySt P I H) : Prop where
  le : n0 ≤ s.next
  old : ∀ y, y < n0 → s.heap y = h0 y
  range : ∀ e ∈ s.memo, e.1 < n0 ∧ n0 ≤ e.2 ∧ e.2 < s.next
  keys : (s.memo.map Prod.fst).Nodup
  vals : (s.memo.map Prod.snd).Nodup
  obj : ∀ e ∈ s.memo, (∀ y ∈ (h0 e.1).children, y ∈ s.memo.map Prod.fst) ∧
    s.heap e.2 = (h0 e.1).mapIds (memoMap s.memo)

open Classical in
/-- The number of nodes of class `t` among the objects. -/
noncomputable def nodesOf (h0 : Heap P I H) (t : H) (l : List Nat) : Nat :=
  l.countP fun x => decide ((h0 x).isNode = true ∧ (h0 x).hdr = t)

/-- What a step of the copy does: new objects only, for objects reached from `roots`. -/
structure CPost (h0 : Heap P I H) (n0 : Nat) (roots : List Nat) (s s' : CopySt P I H) : Prop where
  inv : CInv h0 n0 s'
  mono : s.next ≤ s'.next
  frame : ∀ y, y < s.next → s'.heap y = s.heap y
  ext : ∃ new, s'.memo = new ++ s.memo ∧
    (∀ e ∈ new, s.next ≤ e.2 ∧ ∃ r ∈ roots, Reach h0 r e.1) ∧
    ∀ t, s'.count t = s.count t + nodesOf h0 t (new.map Prod.fst)
  roots : ∀ r ∈ roots, r ∈ s'.memo.map Prod.fst

theorem lookup_of_mem {memo : List (Nat × Nat)} (hn : (memo.map Prod.fst).Nodup) {e : Nat × Nat}
    (he : e ∈ memo) : memo.lookup e.1 = some e.2 := by
  induction memo with
  | nil => cases he
  | cons a memo ih =>
    obtain ⟨k, v⟩ := a
    rw [List.map_cons, List.nodup_cons] at hn
    rcases List.mem_cons.1 he with rfl | he
    · simp [List.lookup_cons]
    · have : e.1 ≠ k := fun h => hn.1 (List.mem_map.2 ⟨e, he, h⟩)
      rw [List.lookup_cons, beq_false_of_ne this]
      exact ih hn.2 he

theorem memoMap_ext {new memo : List (Nat × Nat)} (hn : ((new ++ memo).map Prod.fst).Nodup) {x : Nat}
    (hx : x ∈ memo.map Prod.fst) : memoMap (new ++ memo) x = memoMap memo x := by
  obtain ⟨e, he, rfl⟩ := List.mem_map.1 hx
  have h2 : (memo.map Prod.fst).Nodup := by
    rw [List.map_append] at hn
    exact (List.nodup_append.1 hn).2.1
  rw [memoMap, memoMap, lookup_of_mem hn (List.mem_append_right _ he), lookup_of_mem h2 he]

theorem CPost.refl {h0 : Heap P I H} {n0 : Nat} {s : CopySt P I H} (hs : CInv h0 n0 s) : CPost h0 n0 [] s s :=
  ⟨hs, le_refl _, fun _ _ => rfl, ⟨[], rfl, by simp, by simp [nodesOf]⟩, by simp⟩

theorem nodesOf_append (h0 : Heap P I H) (t : H) (l k : List Nat) :
    nodesOf h0 t (l ++ k) = nodesOf h0 t l + nodesOf h0 t k := by
  unfold nodesOf; exact List.countP_append

theorem CPost.trans {h0 : Heap P I H} {n0 : Nat} {r1 r2 : List Nat} {s s1 s2 : CopySt P I H}
    (h1 : CPost h0 n0 r1 s s1) (h2 : CPost h0 n0 r2 s1 s2) : CPost h0 n0 (r1 ++ r2) s s2 := by
  obtain ⟨new1, m1, e1, c1⟩ := h1.ext
  obtain ⟨new2, m2, e2, c2⟩ := h2.ext
  refine ⟨h2.inv, h1.mono.trans h2.mono, fun y hy => (h2.frame y (lt_of_lt_of_le hy h1.mono)).trans
    (h1.frame y hy), ⟨new2 ++ new1, by rw [m2, m1, List.append_assoc], ?_, ?_⟩, ?_⟩
  · intro e he
    rcases List.mem_append.1 he with he | he
    · obtain ⟨k1, r, hr, k2⟩ := e2 e he
      exact ⟨h1.mono.trans k1, r, List.mem_append_right _ hr, k2⟩
    · obtain ⟨k1, r, hr, k2⟩ := e1 e he
      exact ⟨k1, r, List.mem_append_left _ hr, k2⟩
  · intro t
    rw [c2 t, c1 t, List.map_append, nodesOf_append]
    omega
  · intro r hr
    rcases List.mem_append.1 hr with hr | hr
    · have := h1.roots r hr
      rw [m2, List.map_append]
      exact List.mem_append_right _ this
    · exact h2.roots r hr

/-- What is asked of the recursive call. -/
def CopyOk (h0 : Heap P I H) (n0 : Nat) (rec : CopySt P I H → Nat → Option (Nat × CopySt P I H)) (x : Nat) : Prop :=
  ∀ s, CInv h0 n0 s → ∃ s', rec s x = some (memoMap s'.memo x, s') ∧ CPost h0 n0 [x] s s'

theorem copyItems_ok {h0 : Heap P I H} {n0 : Nat} {rec : CopySt P I H → Nat → Option (Nat × CopySt P I H)}
    (is : List (Item P)) (hrec : ∀ y, Item.obj y ∈ is → CopyOk h0 n0 rec y) (s : CopySt P I H)
    (hs : CInv h0 n0 s) :
    ∃ s', copyItems rec is s = some (is.map (Item.mapId (memoMap s'.memo)), s') ∧
      CPost h0 n0 (itemIds is) s s' := by
  induction is generalizing s with
  | nil => exact ⟨s, rfl, CPost.refl hs⟩
  | cons i is ih =>
    have hrec' : ∀ y, Item.obj y ∈ is → CopyOk h0 n0 rec y := fun y hy => hrec y (List.mem_cons_of_mem _ hy)
    cases i with
    | prim p =>
      obtain ⟨s', h1, h2⟩ := ih hrec' s hs
      exact ⟨s', by simp only [copyItems, h1]; rfl, h2⟩
    | str t =>
      obtain ⟨s', h1, h2⟩ := ih hrec' s hs
      exact ⟨s', by simp only [copyItems, h1]; rfl, h2⟩
    | obj y =>
      obtain ⟨s1, h1, h2⟩ := hrec y (by simp) s hs
      obtain ⟨s2, h3, h4⟩ := ih hrec' s1 h2.inv
      refine ⟨s2, ?_, h2.trans h4⟩
      simp only [copyItems, h1, h3, List.map_cons, Item.mapId]
      obtain ⟨new, m, -, -⟩ := h4.ext
      have : memoMap s2.memo y = memoMap s1.memo y := by
        have hk := h4.inv.keys
        rw [m] at hk ⊢
        exact memoMap_ext hk (h2.roots y (by simp))
      rw [this]

/-- The models in fields. -/
def fieldIds (fs : List (Field P I)) : List Nat := fs.flatMap fun f => itemIds f.items

theorem copyFields_ok {h0 : Heap P I H} {n0 : Nat} {rec : CopySt P I H → Nat → Option (Nat × CopySt P I H)}
    (fs : List (Field P I)) (hrec : ∀ f ∈ fs, ∀ y, Item.obj y ∈ f.items → CopyOk h0 n0 rec y) (s : CopySt P I H)
    (hs : CInv h0 n0 s) :
    ∃ s', copyFields rec fs s = some (fs.map (Field.mapIds (memoMap s'.memo)), s') ∧
      CPost h0 n0 (fieldIds fs) s s' := by
  induction fs generalizing s with
  | nil => exact ⟨s, rfl, CPost.refl hs⟩
  | cons f fs ih =>
    obtain ⟨s1, h1, h2⟩ := copyItems_ok f.items (hrec f (by simp)) s hs
    obtain ⟨s2, h3, h4⟩ := ih (fun g hg => hrec g (List.mem_cons_of_mem _ hg)) s1 h2.inv
    refine ⟨s2, ?_, h2.trans h4⟩
    simp only [copyFields, h1, h3, List.map_cons]
    obtain ⟨new, m, -, -⟩ := h4.ext
    have hk := h4.inv.keys
    have : f.items.map (Item.mapId (memoMap s1.memo)) = f.items.map (Item.mapId (memoMap s2.memo)) := by
      refine List.map_congr_left fun i hi => ?_
      cases i with
      | prim p => rfl
      | str t => rfl
      | obj y =>
        simp only [Item.mapId]
        rw [m] at hk ⊢
        rw [memoMap_ext hk (h2.roots y ((mem_itemIds _ _).2 hi))]
    rw [this]
    rfl

theorem mem_fieldIds (o : Obj P I H) (y : Nat) : y ∈ fieldIds o.fields ↔ y ∈ o.children := by
  rw [mem_children, fieldIds, List.mem_flatMap]
  simp only [mem_itemIds]

section
variable {h0 : Heap P I H} {n0 : Nat}

theorem reach_lt (hcl : ∀ x, x < n0 → ∀ y ∈ (h0 x).children, y < n0) {x y : Nat} (hr : Reach h0 x y)
    (hx : x < n0) : y < n0 := by
  induction hr with
  | refl => exact hx
  | step h1 _ ih => exact ih (hcl _ hx _ h1)

theorem reach_rank_lt {rk : Nat → Nat} (hcl : ∀ x, x < n0 → ∀ y ∈ (h0 x).children, y < n0)
    (hrk : ∀ x, x < n0 → ∀ y ∈ (h0 x).children, rk y < rk x) {x y : Nat} (hr : Reach h0 x y) (hx : x < n0) :
    rk y ≤ rk x := by
  induction hr with
  | refl => exact le_refl _
  | step h1 _ ih => exact (ih (hcl _ hx _ h1)).trans (le_of_lt (hrk _ hx _ h1))

theorem copyObj_ok {rk : Nat → Nat} (hcl : ∀ x, x < n0 → ∀ y ∈ (h0 x).children, y < n0)
    (hrk : ∀ x, x < n0 → ∀ y ∈ (h0 x).children, rk y < rk x) (n x : Nat) (hx : x < n0) (hn : rk x < n) :
    CopyOk h0 n0 (copyObj n) x := by
  induction n generalizing x with
  | zero => omega
  | succ n ih =>
    intro s hs
    by_cases hm : x ∈ s.memo.map Prod.fst
    · obtain ⟨e, he, rfl⟩ := List.mem_map.1 hm
      have hl := lookup_of_mem hs.keys he
      refine ⟨s, by simp only [copyObj, memoMap, hl]; rfl, hs, le_refl _, fun _ _ => rfl,
        ⟨[], rfl, by simp, by simp [nodesOf]⟩, ?_⟩
      intro r hr
      simp only [List.mem_singleton] at hr
      subst hr
      exact hm
    · have hl : s.memo.lookup x = none := by
        rw [List.lookup_eq_none_iff]
        intro e he
        have : x ≠ e.1 := fun h => hm (List.mem_map.2 ⟨e, he, h.symm⟩)
        simpa using this
      have hsx : s.heap x = h0 x := hs.old x hx
      set s1 := newModel s (s.heap x) with hs1
      have hmemo1 : s1.memo = s.memo := rfl
      have hnext1 : s1.next = s.next + 1 := rfl
      have hheap1 : ∀ y, y ≠ s.next → s1.heap y = s.heap y := by
        intro y hy
        show (if y = s.next then _ else _) = _
        rw [if_neg hy]
      have hinv1 : CInv h0 n0 s1 := by
        refine ⟨by rw [hnext1]; have := hs.le; omega, ?_, ?_, hs.keys, hs.vals, ?_⟩
        · intro y hy
          rw [hheap1 y (by have := hs.le; omega)]
          exact hs.old y hy
        · intro e he
          obtain ⟨k1, k2, k3⟩ := hs.range e he
          exact ⟨k1, k2, by rw [hnext1]; omega⟩
        · intro e he
          obtain ⟨k1, k2⟩ := hs.obj e he
          refine ⟨k1, ?_⟩
          rw [hheap1 e.2 (by have := (hs.range e he).2.2; omega)]
          exact k2
      obtain ⟨s2, h1, h2⟩ := copyFields_ok (h0 := h0) (n0 := n0) (rec := copyObj n) (h0 x).fields (by
        intro f hf y hy
        have hc : y ∈ (h0 x).children := (mem_children _ _).2 ⟨f, hf, hy⟩
        exact ih y (hcl x hx y hc) (by have := hrk x hx y hc; omega)) s1 hinv1
      obtain ⟨new, m, e2, c2⟩ := h2.ext
      rw [hmemo1] at m
      have hxnew : x ∉ s2.memo.map Prod.fst := by
        rw [m, List.map_append]
        intro hmem
        rcases List.mem_append.1 hmem with hmem | hmem
        · obtain ⟨e, he, hex⟩ := List.mem_map.1 hmem
          obtain ⟨-, r, hr, hreach⟩ := e2 e he
          have hrc := (mem_fieldIds _ _).1 hr
          have := reach_rank_lt hcl hrk hreach (hcl x hx r hrc)
          have := hrk x hx r hrc
          rw [hex] at *
          omega
        · exact hm hmem
      have hvnew : s.next ∉ s2.memo.map Prod.snd := by
        rw [m, List.map_append]
        intro hmem
        rcases List.mem_append.1 hmem with hmem | hmem
        · obtain ⟨e, he, hex⟩ := List.mem_map.1 hmem
          have := (e2 e he).1
          rw [hnext1] at this
          omega
        · obtain ⟨e, he, hex⟩ := List.mem_map.1 hmem
          have := (hs.range e he).2.2
          omega
      have hmono := h2.mono
      rw [hnext1] at hmono
      have hle := hs.le
      have hkeys : (((x, s.next) :: s2.memo).map Prod.fst).Nodup := by
        rw [List.map_cons, List.nodup_cons]; exact ⟨hxnew, h2.inv.keys⟩
      have hmap : ∀ y ∈ s2.memo.map Prod.fst, memoMap ((x, s.next) :: s2.memo) y = memoMap s2.memo y :=
        fun y hy => memoMap_ext (new := [(x, s.next)]) hkeys hy
      have hmapx : memoMap ((x, s.next) :: s2.memo) x = s.next := by simp [memoMap]
      have hobjmap : ∀ o : Obj P I H, (∀ y ∈ o.children, y ∈ s2.memo.map Prod.fst) →
          o.mapIds (memoMap ((x, s.next) :: s2.memo)) = o.mapIds (memoMap s2.memo) := by
        intro o ho
        unfold Obj.mapIds
        congr 1
        refine List.map_congr_left fun f hf => ?_
        unfold Field.mapIds
        congr 1
        refine List.map_congr_left fun i hi => ?_
        cases i with
        | prim p => rfl
        | str t => rfl
        | obj y =>
          simp only [Item.mapId]
          rw [hmap y (ho y ((mem_children _ _).2 ⟨f, hf, hi⟩))]
      have hch : ∀ y ∈ (h0 x).children, y ∈ s2.memo.map Prod.fst :=
        fun y hy => h2.roots y ((mem_fieldIds _ _).2 hy)
      refine ⟨{ s2 with heap := s2.heap.upd s.next { s.heap x with fields := (h0 x).fields.map (Field.mapIds (memoMap s2.memo)) }, memo := (x, s.next) :: s2.memo }, ?_, ⟨?_, ?_, ?_, hkeys, ?_, ?_⟩, ?_, ?_, ⟨(x, s.next) :: new, ?_, ?_, ?_⟩, ?_⟩
      · have h1' : copyFields (copyObj n) (s.heap x).fields s1 =
            some ((h0 x).fields.map (Field.mapIds (memoMap s2.memo)), s2) := by rw [hsx]; exact h1
        simp only [copyObj, hl, ← hs1, h1']
        rw [hmapx]
      · show n0 ≤ s2.next
        omega
      · intro y hy
        show (if y = s.next then _ else _) = _
        rw [if_neg (by omega)]
        exact h2.inv.old y hy
      · intro e he
        rcases List.mem_cons.1 he with rfl | he
        · exact ⟨hx, hle, by show s.next < s2.next; omega⟩
        · exact h2.inv.range e he
      · show (((x, s.next) :: s2.memo).map Prod.snd).Nodup
        rw [List.map_cons, List.nodup_cons]
        exact ⟨hvnew, h2.inv.vals⟩
      · intro e he
        rcases List.mem_cons.1 he with rfl | he
        · refine ⟨fun y hy => List.mem_cons_of_mem _ (hch y hy), ?_⟩
          show (if s.next = s.next then _ else _) = _
          rw [if_pos rfl, hobjmap _ hch, hsx]
          rfl
        · obtain ⟨k1, k2⟩ := h2.inv.obj e he
          refine ⟨fun y hy => List.mem_cons_of_mem _ (k1 y hy), ?_⟩
          show (if e.2 = s.next then _ else _) = _
          have : e.2 ≠ s.next := fun h => hvnew (List.mem_map.2 ⟨e, he, h⟩)
          rw [if_neg this, hobjmap _ k1]
          exact k2
      · show s.next ≤ s2.next
        omega
      · intro y hy
        show (if y = s.next then _ else _) = _
        rw [if_neg (by omega), h2.frame y (by rw [hnext1]; omega)]
        exact hheap1 y (by omega)
      · show (x, s.next) :: s2.memo = _
        rw [m]; rfl
      · intro e he
        rcases List.mem_cons.1 he with rfl | he
        · exact ⟨le_refl _, x, by simp, .refl x⟩
        · obtain ⟨k1, r, hr, k2⟩ := e2 e he
          rw [hnext1] at k1
          exact ⟨by omega, x, by simp, .step ((mem_fieldIds _ _).1 hr) k2⟩
      · intro t
        show s2.count t = _
        rw [c2 t]
        have hc1 : s1.count t = s.count t + nodesOf h0 t [x] := by
          show s.count t + _ = _
          rw [hsx]
          unfold nodesOf
          simp only [List.countP_cons, List.countP_nil, decide_eq_true_eq]
          split <;> simp_all
        rw [hc1, List.map_cons, show x :: new.map Prod.fst = [x] ++ new.map Prod.fst from rfl, nodesOf_append]
        omega
      · intro r hr
        simp only [List.mem_singleton] at hr
        subst hr
        simp

theorem copyIds_ok {rec : CopySt P I H → Nat → Option (Nat × CopySt P I H)} (xs : List Nat)
    (hrec : ∀ x ∈ xs, CopyOk h0 n0 rec x) (s : CopySt P I H) (hs : CInv h0 n0 s) :
    ∃ s', copyIds rec xs s = some (xs.map (memoMap s'.memo), s') ∧ CPost h0 n0 xs s s' := by
  induction xs generalizing s with
  | nil => exact ⟨s, rfl, CPost.refl hs⟩
  | cons x xs ih =>
    obtain ⟨s1, h1, h2⟩ := hrec x (by simp) s hs
    obtain ⟨s2, h3, h4⟩ := ih (fun y hy => hrec y (List.mem_cons_of_mem _ hy)) s1 h2.inv
    refine ⟨s2, ?_, h2.trans h4⟩
    simp only [copyIds, h1, h3, List.map_cons]
    obtain ⟨new, m, -, -⟩ := h4.ext
    have : memoMap s2.memo x = memoMap s1.memo x := by
      have hk := h4.inv.keys
      rw [m] at hk ⊢
      exact memoMap_ext hk (h2.roots x (by simp))
    rw [this]

/-- The objects of the program are those before `n0`, they refer only to such objects, and no object
contains itself. -/
structure Closed (h0 : Heap P I H) (n0 : Nat) : Prop where
  closed : ∀ x, x < n0 → ∀ y ∈ (h0 x).children, y < n0
  acyclic : ∃ rk : Nat → Nat, ∀ x, x < n0 → ∀ y ∈ (h0 x).children, rk y < rk x

open Classical in
/-- C117 (copy): a deep copy of a plan without cycles consists of new objects, one for each object of the
plan, different ones for different objects, with the same data and the copies of the same objects; all objects of
the program are left as they are; and names were generated once for each node of the plan. -/
theorem copy_is_copy (hc : Closed h0 n0) (p : PlanObj) (hp : ∀ x ∈ p.nodes ++ p.actions, x < n0)
    (count : H → Nat) :
    ∃ fuel₀, ∀ fuel, fuel₀ ≤ fuel → ∃ (g : Nat → Nat) (s : CopySt P I H),
      copyPlan fuel ⟨h0, n0, [], count⟩ p = some (⟨p.version, p.nodes.map g, p.actions.map g⟩, s) ∧
      Iso g (PlanReach h0 p) h0 s.heap ∧ (∀ x, PlanReach h0 p x → n0 ≤ g x) ∧
      (∀ y, y < n0 → s.heap y = h0 y) ∧
      ∃ l : List Nat, l.Nodup ∧ (∀ x, x ∈ l ↔ PlanReach h0 p x) ∧
        ∀ t, s.count t = count t + nodesOf h0 t l := by
  obtain ⟨rk, hrk⟩ := hc.acyclic
  obtain ⟨b, hb⟩ := exists_bound rk (p.nodes ++ p.actions)
  refine ⟨b, fun fuel hfuel => ?_⟩
  have hrec : ∀ x ∈ p.nodes ++ p.actions, CopyOk h0 n0 (copyObj fuel) x := fun x hx =>
    copyObj_ok hc.closed hrk fuel x (hp x hx) (lt_of_lt_of_le (hb x hx) hfuel)
  have hs0 : CInv h0 n0 (⟨h0, n0, [], count⟩ : CopySt P I H) :=
    ⟨le_refl _, fun _ _ => rfl, by simp, by simp, by simp, by simp⟩
  obtain ⟨s1, h1, h2⟩ := copyIds_ok p.nodes (fun x hx => hrec x (List.mem_append_left _ hx)) _ hs0
  obtain ⟨s2, h3, h4⟩ := copyIds_ok p.actions (fun x hx => hrec x (List.mem_append_right _ hx)) _ h2.inv
  have h5 := h2.trans h4
  obtain ⟨new, m, e5, c5⟩ := h5.ext
  have m' : s2.memo = new := by rw [m]; simp
  have hmem : ∀ x, x ∈ s2.memo.map Prod.fst ↔ PlanReach h0 p x := by
    intro x
    constructor
    · intro hx
      obtain ⟨e, he, rfl⟩ := List.mem_map.1 hx
      exact (e5 e (m' ▸ he)).2
    · rintro ⟨r, hr, hreach⟩
      have := h5.roots r hr
      clear hr
      induction hreach with
      | refl => exact this
      | @step a y z ha _ ih =>
        obtain ⟨e, he, hea⟩ := List.mem_map.1 this
        exact ih ((h5.inv.obj e he).1 y (hea ▸ ha))
  have hget : ∀ x, PlanReach h0 p x → ∃ e ∈ s2.memo, e.1 = x ∧ memoMap s2.memo x = e.2 := by
    intro x hx
    obtain ⟨e, he, hex⟩ := List.mem_map.1 ((hmem x).2 hx)
    exact ⟨e, he, hex, by rw [← hex, memoMap, lookup_of_mem h5.inv.keys he]; rfl⟩
  refine ⟨memoMap s2.memo, s2, ?_, ⟨?_, ?_, ?_⟩, ?_, h5.inv.old, s2.memo.map Prod.fst, h5.inv.keys, hmem, ?_⟩
  · simp only [copyPlan, h1, h3]
    have : p.nodes.map (memoMap s1.memo) = p.nodes.map (memoMap s2.memo) := by
      refine List.map_congr_left fun x hx => ?_
      obtain ⟨new', m2, -, -⟩ := h4.ext
      have hk := h4.inv.keys
      rw [m2] at hk ⊢
      rw [memoMap_ext hk (h2.roots x hx)]
    rw [this]
  · intro x y hx hy hxy
    obtain ⟨e, he, hex, hev⟩ := hget x hx
    obtain ⟨e', he', hex', hev'⟩ := hget y hy
    have hv := h5.inv.vals
    have : e = e' := by
      have h7 : e.2 = e'.2 := by rw [← hev, ← hev', hxy]
      exact (List.inj_on_of_nodup_map hv) he he' h7
    rw [← hex, ← hex', this]
  · intro x hx y hy
    obtain ⟨r, hr, hreach⟩ := hx
    exact ⟨r, hr, hreach.trans (.step hy (.refl y))⟩
  · intro x hx
    obtain ⟨e, he, hex, hev⟩ := hget x hx
    rw [hev, (h5.inv.obj e he).2, hex]
  · intro x hx
    obtain ⟨e, he, hex, hev⟩ := hget x hx
    rw [hev]
    exact (h5.inv.range e he).2.1
  · intro t
    rw [c5 t, m']

/-! ### Saving -/

theorem dumps_eq_fst (eq : Heap P I H → Nat → Nat → Bool) (fuel : Nat) (h : Heap P I H) (p : PlanObj) :
    dumps eq fuel h p = (dumpsHeap eq fuel h p).map Prod.fst := by
  unfold dumps dumpsHeap
  cases extractList (extract eq h fuel) (p.nodes ++ p.actions) [] with
  | none => rfl
  | some l =>
    simp only [Option.bind_some]
    cases iterAll (toName eq l) fuel (p.nodes ++ p.actions) ⟨h, []⟩ with
    | none => rfl
    | some s =>
      simp only [Option.bind_some]
      split <;> rfl

/-- The traversal writes only to objects reached from where it starts. -/
theorem iterItems_frame {rec : IterSt P I H → Nat → Option (IterSt P I H)} {Q : Nat → Prop}
    (hrec : ∀ s x s', (∀ z, Q z → ∀ y ∈ (s.heap z).children, Q y) → Q x → rec s x = some s' →
      (∀ z, Q z → ∀ y ∈ (s'.heap z).children, Q y) ∧ ∀ z, ¬ Q z → s'.heap z = s.heap z)
    (is : List (Item P)) (his : ∀ y, Item.obj y ∈ is → Q y) (s s' : IterSt P I H)
    (hq : ∀ z, Q z → ∀ y ∈ (s.heap z).children, Q y) (h : iterItems rec is s = some s') :
    (∀ z, Q z → ∀ y ∈ (s'.heap z).children, Q y) ∧ ∀ z, ¬ Q z → s'.heap z = s.heap z := by
  induction is generalizing s with
  | nil => cases h; exact ⟨hq, fun _ _ => rfl⟩
  | cons i is ih =>
    have his' : ∀ y, Item.obj y ∈ is → Q y := fun y hy => his y (List.mem_cons_of_mem _ hy)
    cases i with
    | prim p => exact ih his' s hq h
    | str t => exact ih his' s hq h
    | obj y =>
      simp only [iterItems] at h
      cases e : rec s y with
      | none => rw [e] at h; cases h
      | some s1 =>
        rw [e] at h
        obtain ⟨a1, a2⟩ := hrec s y s1 hq (his y (by simp)) e
        obtain ⟨b1, b2⟩ := ih his' s1 a1 h
        exact ⟨b1, fun z hz => (b2 z hz).trans (a2 z hz)⟩

theorem processItems_toName {eq : Heap P I H → Nat → Nat → Bool} {l : List Nat} {h : Heap P I H}
    (is js : List (Item P)) (hp : processItems (toName eq l) h is = some js) (y : Nat) : Item.obj y ∉ js := by
  induction is generalizing js with
  | nil => cases hp; simp
  | cons i is ih =>
    simp only [processItems] at hp
    cases e1 : toName eq l h i with
    | none => rw [e1] at hp; cases hp
    | some j =>
      rw [e1] at hp
      cases e2 : processItems (toName eq l) h is with
      | none => rw [e2] at hp; cases hp
      | some js' =>
        rw [e2] at hp
        cases hp
        intro hy
        rcases List.mem_cons.1 hy with hy | hy
        · subst hy
          cases i with
          | prim p => cases e1
          | str t => cases e1
          | obj z =>
            simp only [toName] at e1
            cases e3 : l.find? fun w => eq h w z <;> rw [e3] at e1 <;> cases e1
        · exact ih js' e2 hy

theorem iterFields_frame {rec : IterSt P I H → Nat → Option (IterSt P I H)} {Q : Nat → Prop}
    {eq : Heap P I H → Nat → Nat → Bool} {l : List Nat}
    (hrec : ∀ s x s', (∀ z, Q z → ∀ y ∈ (s.heap z).children, Q y) → Q x → rec s x = some s' →
      (∀ z, Q z → ∀ y ∈ (s'.heap z).children, Q y) ∧ ∀ z, ¬ Q z → s'.heap z = s.heap z)
    (x : Nat) (hx : Q x) (ks : List Nat) (s s' : IterSt P I H)
    (hq : ∀ z, Q z → ∀ y ∈ (s.heap z).children, Q y) (h : iterFields rec (toName eq l) x ks s = some s') :
    (∀ z, Q z → ∀ y ∈ (s'.heap z).children, Q y) ∧ ∀ z, ¬ Q z → s'.heap z = s.heap z := by
  induction ks generalizing s with
  | nil => cases h; exact ⟨hq, fun _ _ => rfl⟩
  | cons k ks ih =>
    simp only [iterFields] at h
    cases e1 : (s.heap x).fields[k]? with
    | none => rw [e1] at h; exact ih s hq h
    | some fl =>
      rw [e1] at h
      simp only at h
      cases e2 : iterItems rec fl.items s with
      | none => rw [e2] at h; cases h
      | some s1 =>
        rw [e2] at h
        simp only [Option.bind_some] at h
        obtain ⟨a1, a2⟩ := iterItems_frame hrec fl.items (fun y hy => hq x hx y
          ((mem_children _ _).2 ⟨fl, List.mem_of_getElem? e1, hy⟩)) s s1 hq e2
        cases e3 : (s1.heap x).fields[k]? with
        | none =>
          rw [e3] at h
          obtain ⟨b1, b2⟩ := ih s1 a1 h
          exact ⟨b1, fun z hz => (b2 z hz).trans (a2 z hz)⟩
        | some fl1 =>
          rw [e3] at h
          simp only at h
          split at h
          · cases e4 : processItems (toName eq l) s1.heap fl1.items with
            | none => rw [e4] at h; cases h
            | some js =>
              rw [e4] at h
              simp only [Option.bind_some] at h
              have hset : ∀ z, z ≠ x → setField s1.heap x k js z = s1.heap z := by
                intro z hz
                simp [setField, Heap.upd, hz]
              obtain ⟨b1, b2⟩ := ih { s1 with heap := setField s1.heap x k js } (by
                intro z hz y hy
                by_cases hzx : z = x
                · subst hzx
                  simp only [setField, Heap.upd, if_true, mem_children] at hy
                  obtain ⟨g, hg, hy⟩ := hy
                  obtain ⟨j, hj, rfl⟩ := List.mem_iff_getElem.1 hg
                  rw [List.getElem_modify] at hy
                  split at hy
                  · exact absurd hy (processItems_toName _ _ e4 y)
                  · exact a1 z hz y ((mem_children _ _).2 ⟨_, List.getElem_mem _, hy⟩)
                · have hy : y ∈ (setField s1.heap x k js z).children := hy
                  rw [hset z hzx] at hy
                  exact a1 z hz y hy) h
              refine ⟨b1, fun z hz => ?_⟩
              rw [b2 z hz]
              have hzx : z ≠ x := fun h => hz (h ▸ hx)
              exact (hset z hzx).trans (a2 z hz)
          · obtain ⟨b1, b2⟩ := ih s1 a1 h
            exact ⟨b1, fun z hz => (b2 z hz).trans (a2 z hz)⟩

theorem iterObj_frame {Q : Nat → Prop} {eq : Heap P I H → Nat → Nat → Bool} {l : List Nat} (n : Nat)
    (s : IterSt P I H) (x : Nat) (s' : IterSt P I H) (hq : ∀ z, Q z → ∀ y ∈ (s.heap z).children, Q y) (hx : Q x)
    (h : iterObj (toName eq l) n s x = some s') :
    (∀ z, Q z → ∀ y ∈ (s'.heap z).children, Q y) ∧ ∀ z, ¬ Q z → s'.heap z = s.heap z := by
  induction n generalizing s x s' with
  | zero => cases h
  | succ n ih =>
    simp only [iterObj] at h
    split at h
    · cases h; exact ⟨hq, fun _ _ => rfl⟩
    · exact iterFields_frame (fun s x s' hq hx h => ih s x s' hq hx h) x hx _ ⟨s.heap, x :: s.visited⟩ s' hq h

theorem iterAll_frame {Q : Nat → Prop} {eq : Heap P I H → Nat → Nat → Bool} {l : List Nat} (n : Nat)
    (xs : List Nat) (hxs : ∀ x ∈ xs, Q x) (s s' : IterSt P I H)
    (hq : ∀ z, Q z → ∀ y ∈ (s.heap z).children, Q y) (h : iterAll (toName eq l) n xs s = some s') :
    ∀ z, ¬ Q z → s'.heap z = s.heap z := by
  induction xs generalizing s with
  | nil => cases h; exact fun _ _ => rfl
  | cons x xs ih =>
    simp only [iterAll] at h
    cases e : iterObj (toName eq l) n s x with
    | none => rw [e] at h; cases h
    | some s1 =>
      rw [e] at h
      obtain ⟨a1, a2⟩ := iterObj_frame n s x s1 hq (hxs x (by simp)) e
      intro z hz
      exact (ih (fun y hy => hxs y (List.mem_cons_of_mem _ hy)) s1 a1 h z hz).trans (a2 z hz)

open Classical in
/-- C117 (saving): saving a plan without cycles writes what `dumps` computes from the objects of the
program, changes none of these objects, and generates one name for each node of the plan. -/
theorem save_leaves_plan (eq : Heap P I H → Nat → Nat → Bool) (heq : EqIso eq) (hc : Closed h0 n0) (p : PlanObj)
    (hp : ∀ x ∈ p.nodes ++ p.actions, x < n0) (count : H → Nat) :
    ∃ fuel₀, ∀ fuel, fuel₀ ≤ fuel →
      (save eq fuel h0 n0 count p).map (fun r => r.1) = dumps eq fuel h0 p ∧
      ∀ r, save eq fuel h0 n0 count p = some r → (∀ y, y < n0 → r.2.1 y = h0 y) ∧
        ∃ l : List Nat, l.Nodup ∧ (∀ x, x ∈ l ↔ PlanReach h0 p x) ∧
          ∀ t, r.2.2 t = count t + nodesOf h0 t l := by
  obtain ⟨b, hb⟩ := copy_is_copy hc p hp count
  refine ⟨b, fun fuel hfuel => ?_⟩
  obtain ⟨g, s, e1, hiso, hnew, hold, l, hl1, hl2, hl3⟩ := hb fuel hfuel
  have hroot : ∀ x ∈ p.nodes ++ p.actions, PlanReach h0 p x := fun x hx => ⟨x, hx, .refl x⟩
  constructor
  · unfold save
    simp only [e1]
    rw [dumps_eq_fst, ← dumpsHeap_iso heq hiso fuel p hroot, Option.map_map]
    rfl
  · intro r hr
    unfold save at hr
    simp only [e1] at hr
    cases e2 : dumpsHeap eq fuel s.heap ⟨p.version, p.nodes.map g, p.actions.map g⟩ with
    | none => rw [e2] at hr; cases hr
    | some q =>
      rw [e2] at hr
      cases hr
      refine ⟨fun y hy => ?_, l, hl1, hl2, hl3⟩
      unfold dumpsHeap at e2
      simp only at e2
      cases e3 : extractList (extract eq s.heap fuel) (p.nodes.map g ++ p.actions.map g) [] with
      | none => rw [e3] at e2; cases e2
      | some l' =>
        rw [e3] at e2
        simp only [Option.bind_some] at e2
        cases e4 : iterAll (toName eq l') fuel (p.nodes.map g ++ p.actions.map g) ⟨s.heap, []⟩ with
        | none => rw [e4] at e2; cases e2
        | some s4 =>
          rw [e4] at e2
          simp only [Option.bind_some] at e2
          split at e2
          · cases e2
            show s4.heap y = h0 y
            rw [← hold y hy]
            refine iterAll_frame (Q := fun z => ∃ x, PlanReach h0 p x ∧ z = g x) fuel _ ?_ _ s4 ?_ e4 y ?_
            · intro x hx
              rw [← List.map_append] at hx
              obtain ⟨z, hz, rfl⟩ := List.mem_map.1 hx
              exact ⟨z, hroot z hz, rfl⟩
            · rintro z ⟨x, hx, rfl⟩ w hw
              have hw : w ∈ (s.heap (g x)).children := hw
              rw [hiso.obj x hx, children_map] at hw
              obtain ⟨v, hv, rfl⟩ := List.mem_map.1 hw
              exact ⟨v, hiso.closed x hx v hv, rfl⟩
            · rintro ⟨x, hx, rfl⟩
              have := hnew x hx
              omega
          · cases e2

/-! ### Cycles -/

theorem copyItems_avoid {rec : CopySt P I H → Nat → Option (Nat × CopySt P I H)} {C : Nat → Prop}
    (hrec : ∀ s x y s', (∀ z, z < n0 → s.heap z = h0 z) → n0 ≤ s.next → x < n0 → (∀ e ∈ s.memo, ¬ C e.1) →
      rec s x = some (y, s') → ¬ C x ∧ (∀ e ∈ s'.memo, ¬ C e.1) ∧ (∀ z, z < n0 → s'.heap z = h0 z) ∧ n0 ≤ s'.next)
    (is : List (Item P)) (his : ∀ y, Item.obj y ∈ is → y < n0) (s : CopySt P I H)
    (hs : ∀ z, z < n0 → s.heap z = h0 z) (hn : n0 ≤ s.next) (hm : ∀ e ∈ s.memo, ¬ C e.1) (l : List (Item P))
    (s' : CopySt P I H) (h : copyItems rec is s = some (l, s')) :
    (∀ y, Item.obj y ∈ is → ¬ C y) ∧ (∀ e ∈ s'.memo, ¬ C e.1) ∧ (∀ z, z < n0 → s'.heap z = h0 z) ∧ n0 ≤ s'.next := by
  induction is generalizing s l with
  | nil => cases h; exact ⟨by simp, hm, hs, hn⟩
  | cons i is ih =>
    have his' : ∀ y, Item.obj y ∈ is → y < n0 := fun y hy => his y (List.mem_cons_of_mem _ hy)
    cases i with
    | prim p =>
      simp only [copyItems] at h
      cases e : copyItems rec is s with
      | none => rw [e] at h; cases h
      | some r =>
        rw [e] at h
        cases h
        obtain ⟨a, b⟩ := ih his' s hs hn hm _ e
        exact ⟨fun y hy => a y (by simpa using hy), b⟩
    | str t =>
      simp only [copyItems] at h
      cases e : copyItems rec is s with
      | none => rw [e] at h; cases h
      | some r =>
        rw [e] at h
        cases h
        obtain ⟨a, b⟩ := ih his' s hs hn hm _ e
        exact ⟨fun y hy => a y (by simpa using hy), b⟩
    | obj x =>
      simp only [copyItems] at h
      cases e : rec s x with
      | none => rw [e] at h; cases h
      | some r =>
        obtain ⟨x', s1⟩ := r
        rw [e] at h
        simp only at h
        obtain ⟨c1, c2, c3, c4⟩ := hrec s x x' s1 hs hn (his x (by simp)) hm e
        cases e' : copyItems rec is s1 with
        | none => rw [e'] at h; cases h
        | some r =>
          rw [e'] at h
          cases h
          obtain ⟨a, b⟩ := ih his' s1 c3 c4 c2 _ e'
          refine ⟨fun y hy => ?_, b⟩
          rcases List.mem_cons.1 hy with hy | hy
          · cases hy; exact c1
          · exact a y hy

theorem copyFields_avoid {rec : CopySt P I H → Nat → Option (Nat × CopySt P I H)} {C : Nat → Prop}
    (hrec : ∀ s x y s', (∀ z, z < n0 → s.heap z = h0 z) → n0 ≤ s.next → x < n0 → (∀ e ∈ s.memo, ¬ C e.1) →
      rec s x = some (y, s') → ¬ C x ∧ (∀ e ∈ s'.memo, ¬ C e.1) ∧ (∀ z, z < n0 → s'.heap z = h0 z) ∧ n0 ≤ s'.next)
    (fs : List (Field P I)) (hfs : ∀ f ∈ fs, ∀ y, Item.obj y ∈ f.items → y < n0) (s : CopySt P I H)
    (hs : ∀ z, z < n0 → s.heap z = h0 z) (hn : n0 ≤ s.next) (hm : ∀ e ∈ s.memo, ¬ C e.1) (l : List (Field P I))
    (s' : CopySt P I H) (h : copyFields rec fs s = some (l, s')) :
    (∀ f ∈ fs, ∀ y, Item.obj y ∈ f.items → ¬ C y) ∧ (∀ e ∈ s'.memo, ¬ C e.1) ∧
      (∀ z, z < n0 → s'.heap z = h0 z) ∧ n0 ≤ s'.next := by
  induction fs generalizing s l with
  | nil => cases h; exact ⟨by simp, hm, hs, hn⟩
  | cons f fs ih =>
    simp only [copyFields] at h
    cases e : copyItems rec f.items s with
    | none => rw [e] at h; cases h
    | some r =>
      obtain ⟨k, s1⟩ := r
      rw [e] at h
      simp only at h
      obtain ⟨c1, c2, c3, c4⟩ := copyItems_avoid hrec f.items (hfs f (by simp)) s hs hn hm k s1 e
      cases e' : copyFields rec fs s1 with
      | none => rw [e'] at h; cases h
      | some r =>
        rw [e'] at h
        cases h
        obtain ⟨a, b⟩ := ih (fun g hg => hfs g (List.mem_cons_of_mem _ hg)) s1 c3 c4 c2 _ e'
        refine ⟨fun g hg y hy => ?_, b⟩
        rcases List.mem_cons.1 hg with rfl | hg
        · exact c1 y hy
        · exact a g hg y hy

/-- C117 (cycles): an object that contains itself, directly or through others, cannot be copied: the
recursion has no end. -/
theorem cycle_not_copied (hcl : ∀ x, x < n0 → ∀ y ∈ (h0 x).children, y < n0) {x y : Nat} (hx : x < n0)
    (hy : y ∈ (h0 x).children) (hr : Reach h0 y x) (count : H → Nat) (n : Nat) :
    copyObj n ⟨h0, n0, [], count⟩ x = none := by
  -- the objects on the cycle
  let C : Nat → Prop := fun z => Reach h0 y z ∧ Reach h0 z x
  have hC : ∀ z, C z → ∃ w ∈ (h0 z).children, C w := by
    rintro z ⟨h1, h2⟩
    cases h2 with
    | refl => exact ⟨y, hy, .refl y, hr⟩
    | step h3 h4 => exact ⟨_, h3, h1.trans (.step h3 (.refl _)), h4⟩
  have key : ∀ n (s : CopySt P I H) x y s', (∀ z, z < n0 → s.heap z = h0 z) → n0 ≤ s.next → x < n0 →
      (∀ e ∈ s.memo, ¬ C e.1) → copyObj n s x = some (y, s') →
      ¬ C x ∧ (∀ e ∈ s'.memo, ¬ C e.1) ∧ (∀ z, z < n0 → s'.heap z = h0 z) ∧ n0 ≤ s'.next := by
    intro n
    induction n with
    | zero => intro s x y s' _ _ _ _ h; cases h
    | succ n ih =>
      intro s x y s' hs hn hx hm h
      simp only [copyObj] at h
      cases e : s.memo.lookup x with
      | some z =>
        rw [e] at h
        cases h
        refine ⟨?_, hm, hs, hn⟩
        obtain ⟨l1, l2, hl, -⟩ := List.lookup_eq_some_iff.1 e
        exact hm (x, y) (by rw [hl]; simp)
      | none =>
        rw [e] at h
        simp only at h
        cases e' : copyFields (copyObj n) (s.heap x).fields (newModel s (s.heap x)) with
        | none => rw [e'] at h; cases h
        | some r =>
          obtain ⟨fs, s2⟩ := r
          rw [e'] at h
          simp only at h
          cases h
          rw [hs x hx] at e'
          obtain ⟨a, b, c, d⟩ := copyFields_avoid (h0 := h0) (n0 := n0) (C := C) (ih) (h0 x).fields (by
            intro f hf w hw
            exact hcl x hx w ((mem_children _ _).2 ⟨f, hf, hw⟩)) (newModel s (h0 x)) (by
              intro z hz
              show (if z = s.next then _ else _) = _
              rw [if_neg (by omega)]
              exact hs z hz) (by show n0 ≤ s.next + 1; omega) hm fs s2 e'
          have hxC : ¬ C x := by
            intro hCx
            obtain ⟨w, hw, hCw⟩ := hC x hCx
            obtain ⟨f, hf, hfw⟩ := (mem_children _ _).1 hw
            exact a f hf w hfw hCw
          refine ⟨hxC, ?_, ?_, d⟩
          · intro e he
            rcases List.mem_cons.1 he with rfl | he
            · exact hxC
            · exact b e he
          · intro z hz
            show (if z = s.next then _ else _) = _
            rw [if_neg (by omega)]
            exact c z hz
  cases e : copyObj n ⟨h0, n0, [], count⟩ x with
  | none => rfl
  | some r =>
    obtain ⟨y', s'⟩ := r
    exact absurd ⟨hr, .refl x⟩ (key n _ x y' s' (fun _ _ => rfl) (le_refl _) hx (by simp) e).1
end

/-! ### Examples -/

/-- Equality by name does not depend on where models are stored. -/
theorem eqName_iso : EqIso (P := P) (I := I) (H := H) fun h x y => decide ((h x).name = (h y).name) := by
  intro f S h h' hi x y hx hy
  simp only [hi.obj x hx, hi.obj y hy]
  rfl

theorem sample_closed : Closed sampleHeap 4 := by
  refine ⟨?_, sample_wellFormed.acyclic.imp fun rk hrk x _ y hy => hrk x y hy⟩
  intro x hx y hy
  match x with
  | 0 => simp [sampleHeap, Obj.children] at hy
  | 1 => simp [sampleHeap, Obj.children] at hy; rcases hy with rfl | rfl <;> omega
  | 2 => simp [sampleHeap, Obj.children] at hy; omega
  | 3 => simp [sampleHeap, Obj.children] at hy; omega
  | _ + 4 => omega

/-- Saving the plan of C13 leaves its four objects alone, but two names are used up: saving is visible
in the names of nodes made later. -/
theorem save_uses_names_false : ∃ fuel r, save (fun h x y => decide ((h x).name = (h y).name)) fuel
    sampleHeap 4 (fun _ => 0) samplePlan = some r ∧ (∀ y, y < 4 → r.2.1 y = sampleHeap y) ∧
    r.2.2 () = 2 := by
  obtain ⟨b, hb⟩ := save_leaves_plan (fun h x y => decide ((h x).name = (h y).name)) eqName_iso sample_closed
    samplePlan (by simp [samplePlan]) (fun _ => 0)
  obtain ⟨c, hcc⟩ := loads_dumps (fun (h : Heap Nat Unit Unit) x y => decide ((h x).name = (h y).name))
    ⟨by simp, by simp⟩ (fun _ => true) ⟨false, [], (), []⟩ rfl sampleHeap samplePlan sample_wellFormed rfl
  obtain ⟨h1, h2⟩ := hb (max b c) (le_max_left _ _)
  obtain ⟨ser, h3, -⟩ := hcc (max b c) (le_max_right _ _)
  rw [h3] at h1
  cases e : save (fun h x y => decide ((h x).name = (h y).name)) (max b c) sampleHeap 4 (fun _ => 0) samplePlan with
  | none => rw [e] at h1; cases h1
  | some r =>
    obtain ⟨k1, l, k2, k3, k4⟩ := h2 r e
    refine ⟨_, r, e, k1, ?_⟩
    rw [k4 (), Nat.zero_add]
    have r3 : PlanReach sampleHeap samplePlan 3 := ⟨3, by simp [samplePlan], .refl 3⟩
    have r1 : PlanReach sampleHeap samplePlan 1 :=
      planReach_step r3 (.step (by simp [sampleHeap, Obj.children]) (.refl 1))
    have r0 : PlanReach sampleHeap samplePlan 0 :=
      planReach_step r1 (.step (by simp [sampleHeap, Obj.children]) (.refl 0))
    unfold nodesOf
    rw [List.countP_eq_length_filter]
    have hperm : (l.filter fun x => decide ((sampleHeap x).isNode = true ∧ (sampleHeap x).hdr = ())).Perm [0, 1] := by
      rw [List.perm_ext_iff_of_nodup (k2.filter _) (by decide)]
      intro x
      rw [List.mem_filter, decide_eq_true_eq]
      constructor
      · rintro ⟨-, hx, -⟩
        rcases sample_nodes x hx with rfl | rfl <;> simp
      · intro hx
        simp at hx
        rcases hx with rfl | rfl
        · exact ⟨(k3 0).2 r0, rfl, rfl⟩
        · exact ⟨(k3 1).2 r1, rfl, rfl⟩
    refine Eq.trans ?_ hperm.length_eq
    congr!

/-- A node that refers to itself. -/
example (count : Unit → Nat) (n : Nat) : copyObj n (⟨fun _ => ⟨true, ['a'], (), [⟨(), true, [.obj 0]⟩]⟩, 1, [], count⟩ :
    CopySt Nat Unit Unit) 0 = none :=
  cycle_not_copied (n0 := 1) (by intro x _ y hy; simp [Obj.children] at hy; omega) (by omega) (y := 0)
    (by simp [Obj.children]) (.refl 0) count n

end Verif.Schema
