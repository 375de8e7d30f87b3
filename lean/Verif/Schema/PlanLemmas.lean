import Verif.Schema.PlanSpec
import Verif.Schema.NamesProps
/-
Lemmas about the traversals.
-/
set_option linter.unusedSectionVars false
namespace Verif.Schema
variable {P I H : Type}

theorem mem_children (o : Obj P I H) (y : Nat) :
    y ∈ o.children ↔ ∃ f ∈ o.fields, Item.obj y ∈ f.items := by
  unfold Obj.children
  simp only [List.mem_filterMap, List.mem_flatMap]
  constructor
  · rintro ⟨i, ⟨f, hf, hi⟩, h⟩
    cases i with
    | obj z => simp only [Option.some.injEq] at h; subst h; exact ⟨f, hf, hi⟩
    | prim _ => cases h
    | str _ => cases h
  · rintro ⟨f, hf, hi⟩
    exact ⟨_, ⟨f, hf, hi⟩, rfl⟩

theorem Reach.trans {h : Heap P I H} {x y z : Nat} (h1 : Reach h x y) (h2 : Reach h y z) :
    Reach h x z := by
  induction h1 with
  | refl => exact h2
  | step h _ ih => exact .step h (ih h2)

theorem Reach.rank {h : Heap P I H} {rk : Nat → Nat} (hrk : ∀ x y, y ∈ (h x).children → rk y < rk x)
    {x y : Nat} (hr : Reach h x y) : rk y ≤ rk x := by
  induction hr with
  | refl => exact Nat.le_refl _
  | step h' _ ih => exact Nat.le_trans ih (Nat.le_of_lt (hrk _ _ h'))

/-! ### Iteration -/

section Iter
variable (h0 : Heap P I H) (rk : Nat → Nat)
  (pf : Heap P I H → Item P → Option (Item P)) (rn : Item P → Item P) (Dom : Nat → Prop)

/-- A field with its references replaced. -/
def renField (rn : Item P → Item P) (f : Field P I) : Field P I :=
  if f.isRef then { f with items := f.items.map rn } else f

/-- An object with the references of its first `k` fields replaced. -/
def renUpTo (rn : Item P → Item P) (k : Nat) (o : Obj P I H) : Obj P I H :=
  { o with fields := (o.fields.take k).map (renField rn) ++ o.fields.drop k }

def ren (rn : Item P → Item P) (o : Obj P I H) : Obj P I H :=
  { o with fields := o.fields.map (renField rn) }

theorem renUpTo_all (rn : Item P → Item P) (k : Nat) (o : Obj P I H) (hk : o.fields.length ≤ k) :
    renUpTo rn k o = ren rn o := by
  simp [renUpTo, ren, List.take_of_length_le hk, List.drop_eq_nil_of_le hk]

theorem renUpTo_zero (rn : Item P → Item P) (o : Obj P I H) : renUpTo rn 0 o = o := by
  simp [renUpTo]

/-- What holds between calls; objects of rank `r` and more may be half done. -/
structure Inv (r : Nat) (s : IterSt P I H) : Prop where
  untouched : ∀ x, x ∉ s.visited → s.heap x = h0 x
  done : ∀ x ∈ s.visited, rk x < r → s.heap x = ren rn (h0 x)
  closed : ∀ x ∈ s.visited, rk x < r → ∀ y ∈ (h0 x).children, y ∈ s.visited
  names : ∀ x, (s.heap x).name = (h0 x).name

/-- What a call on objects of rank at most `m` changes. -/
structure Frame (m : Nat) (s s' : IterSt P I H) : Prop where
  mono : ∀ x ∈ s.visited, x ∈ s'.visited
  keep : ∀ x ∈ s.visited, s'.heap x = s.heap x
  low : ∀ x ∈ s'.visited, x ∈ s.visited ∨ rk x < m

variable {h0 rk pf rn Dom}

theorem Frame.refl (m : Nat) (s : IterSt P I H) : Frame rk m s s :=
  ⟨fun _ h => h, fun _ _ => rfl, fun _ h => Or.inl h⟩

theorem Frame.trans {m : Nat} {s s' s'' : IterSt P I H} (h1 : Frame rk m s s')
    (h2 : Frame rk m s' s'') : Frame rk m s s'' :=
  ⟨fun x h => h2.mono x (h1.mono x h),
   fun x h => (h2.keep x (h1.mono x h)).trans (h1.keep x h),
   fun x h => (h2.low x h).elim (fun h => h1.low x h) Or.inr⟩

theorem Frame.weaken {m m' : Nat} {s s' : IterSt P I H} (h1 : Frame rk m s s') (hm : m ≤ m') :
    Frame rk m' s s' :=
  ⟨h1.mono, h1.keep, fun x h => (h1.low x h).imp id (fun h => Nat.lt_of_lt_of_le h hm)⟩

/-- The statement proved about a recursive call. -/
def RecOk (h0 : Heap P I H) (rk : Nat → Nat) (rn : Item P → Item P) (Dom : Nat → Prop) (m : Nat)
    (rec : IterSt P I H → Nat → Option (IterSt P I H)) : Prop :=
  ∀ s x, Dom x → rk x < m → ∀ r, rk x < r → Inv h0 rk rn r s →
    ∃ s', rec s x = some s' ∧ Inv h0 rk rn r s' ∧ x ∈ s'.visited ∧ Frame rk (rk x + 1) s s'

theorem iterItems_ok {m : Nat} {rec : IterSt P I H → Nat → Option (IterSt P I H)}
    (hrec : RecOk h0 rk rn Dom m rec) (is : List (Item P))
    (his : ∀ y, Item.obj y ∈ is → Dom y ∧ rk y < m) (s : IterSt P I H) (hs : Inv h0 rk rn m s) :
    ∃ s', iterItems rec is s = some s' ∧ Inv h0 rk rn m s' ∧ Frame rk m s s' ∧
      ∀ y, Item.obj y ∈ is → y ∈ s'.visited := by
  induction is generalizing s with
  | nil => exact ⟨s, rfl, hs, Frame.refl _ _, fun y h => by cases h⟩
  | cons i is ih =>
    cases i with
    | obj y =>
      obtain ⟨hd, hr⟩ := his y (by simp)
      obtain ⟨s1, e1, i1, v1, f1⟩ := hrec s y hd hr m hr hs
      obtain ⟨s2, e2, i2, f2, v2⟩ := ih (fun y h => his y (List.mem_cons_of_mem _ h)) s1 i1
      refine ⟨s2, by simp [iterItems, e1, e2], i2, (f1.weaken hr).trans f2, ?_⟩
      intro z hz
      rcases List.mem_cons.1 hz with h | h
      · cases h; exact f2.mono _ v1
      · exact v2 z h
    | prim p =>
      obtain ⟨s2, e2, i2, f2, v2⟩ := ih (fun y h => his y (List.mem_cons_of_mem _ h)) s hs
      refine ⟨s2, by simp [iterItems, e2], i2, f2, ?_⟩
      intro z hz
      rcases List.mem_cons.1 hz with h | h
      · cases h
      · exact v2 z h
    | str p =>
      obtain ⟨s2, e2, i2, f2, v2⟩ := ih (fun y h => his y (List.mem_cons_of_mem _ h)) s hs
      refine ⟨s2, by simp [iterItems, e2], i2, f2, ?_⟩
      intro z hz
      rcases List.mem_cons.1 hz with h | h
      · cases h
      · exact v2 z h

theorem processItems_ok (h : Heap P I H) (is : List (Item P))
    (hpf : ∀ i ∈ is, pf h i = some (rn i)) : processItems pf h is = some (is.map rn) := by
  induction is with
  | nil => rfl
  | cons i is ih =>
    simp [processItems, hpf i (by simp), ih (fun j hj => hpf j (List.mem_cons_of_mem _ hj))]

/-- `process_field` succeeds and acts as `rn` on the references that occur. -/
def PfOk (h0 : Heap P I H) (pf : Heap P I H → Item P → Option (Item P)) (rn : Item P → Item P)
    (Dom : Nat → Prop) : Prop :=
  ∀ h : Heap P I H, (∀ x, (h x).name = (h0 x).name) → ∀ x, Dom x → ∀ f ∈ (h0 x).fields,
    f.isRef = true → ∀ i ∈ f.items, pf h i = some (rn i)

theorem getElem?_renUpTo (o : Obj P I H) (k : Nat) :
    (renUpTo rn k o).fields[k]? = o.fields[k]? := by
  unfold renUpTo
  by_cases hk : k ≤ o.fields.length
  · have : ((o.fields.take k).map (renField rn)).length = k := by
      simp [Nat.min_eq_left hk]
    rw [List.getElem?_append_right (by omega), this]
    simp
  · rw [List.getElem?_eq_none (by simp; omega), List.getElem?_eq_none (by omega)]

theorem modify_renUpTo (o : Obj P I H) (k : Nat) (f : Field P I) (hf : o.fields[k]? = some f)
    (hr : f.isRef = true) :
    { renUpTo rn k o with
      fields := (renUpTo rn k o).fields.modify k
        (fun g => { g with items := f.items.map rn }) } = renUpTo rn (k + 1) o := by
  have hk : k < o.fields.length := (List.getElem?_eq_some_iff.1 hf).1
  have hfk : o.fields[k] = f := (List.getElem?_eq_some_iff.1 hf).2
  unfold renUpTo
  simp only [Obj.mk.injEq, true_and]
  have hlen : ((o.fields.take k).map (renField rn)).length = k := by
    simp [Nat.min_eq_left (Nat.le_of_lt hk)]
  rw [List.take_add_one, hf, List.drop_eq_getElem_cons hk, hfk]
  have key : ∀ (l : List (Field P I)) (g : Field P I → Field P I) (r : List (Field P I)),
      (l ++ f :: r).modify l.length g = l ++ g f :: r := by
    intro l g r
    induction l with
    | nil => rfl
    | cons a l ih => simp [List.modify_succ_cons, ih]
  have := key ((o.fields.take k).map (renField rn)) (fun g => { g with items := f.items.map rn })
    (o.fields.drop (k + 1))
  rw [hlen] at this
  rw [this]
  simp [renField, hr]

theorem renUpTo_succ_nonref (o : Obj P I H) (k : Nat) (f : Field P I)
    (hf : o.fields[k]? = some f) (hr : f.isRef = false) : renUpTo rn (k + 1) o = renUpTo rn k o := by
  have hk : k < o.fields.length := (List.getElem?_eq_some_iff.1 hf).1
  have hfk : o.fields[k] = f := (List.getElem?_eq_some_iff.1 hf).2
  unfold renUpTo
  simp only [Obj.mk.injEq, true_and]
  rw [List.take_add_one, hf, List.drop_eq_getElem_cons hk, hfk]
  simp [renField, hr]

theorem iterFields_ok {rec : IterSt P I H → Nat → Option (IterSt P I H)}
    (hpf : PfOk h0 pf rn Dom) (x : Nat) (hx : Dom x)
    (hdom : ∀ y ∈ (h0 x).children, Dom y) (hrk : ∀ y ∈ (h0 x).children, rk y < rk x)
    (hrec : RecOk h0 rk rn Dom (rk x) rec)
    (n k : Nat) (hn : k + n = (h0 x).fields.length) (s : IterSt P I H) (hs : Inv h0 rk rn (rk x) s)
    (hv : x ∈ s.visited) (hk : s.heap x = renUpTo rn k (h0 x)) :
    ∃ s', iterFields rec pf x (List.range' k n) s = some s' ∧ Inv h0 rk rn (rk x) s' ∧
      (∀ y ∈ s.visited, y ∈ s'.visited) ∧
      (∀ y ∈ s.visited, y ≠ x → s'.heap y = s.heap y) ∧
      (∀ y ∈ s'.visited, y ∈ s.visited ∨ rk y < rk x) ∧
      s'.heap x = ren rn (h0 x) ∧
      ∀ j, k ≤ j → ∀ f, (h0 x).fields[j]? = some f → ∀ y, Item.obj y ∈ f.items → y ∈ s'.visited := by
  induction n generalizing k s with
  | zero =>
    refine ⟨s, rfl, hs, fun _ h => h, fun _ _ _ => rfl, fun _ h => Or.inl h, ?_, ?_⟩
    · rw [hk, renUpTo_all _ _ _ (by omega)]
    · intro j hj f hf
      rw [List.getElem?_eq_none (by omega)] at hf
      cases hf
  | succ n ih =>
    have hk' : k < (h0 x).fields.length := by omega
    obtain ⟨f, hf⟩ : ∃ f, (h0 x).fields[k]? = some f := ⟨_, List.getElem?_eq_getElem hk'⟩
    have hfm : f ∈ (h0 x).fields := List.mem_of_getElem? hf
    have hchild : ∀ y, Item.obj y ∈ f.items → y ∈ (h0 x).children :=
      fun y hy => (mem_children _ _).2 ⟨f, hfm, hy⟩
    obtain ⟨s1, e1, i1, f1, v1⟩ := iterItems_ok hrec f.items
      (fun y hy => ⟨hdom y (hchild y hy), hrk y (hchild y hy)⟩) s hs
    have hk1 : s1.heap x = renUpTo rn k (h0 x) := (f1.keep x hv).trans hk
    have hr1 : (s.heap x).fields[k]? = some f := by rw [hk, getElem?_renUpTo, hf]
    have hr2 : (s1.heap x).fields[k]? = some f := by rw [hk1, getElem?_renUpTo, hf]
    have hlast : ∀ s', (∀ y ∈ s1.visited, y ∈ s'.visited) →
        (∀ j, k + 1 ≤ j → ∀ f, (h0 x).fields[j]? = some f → ∀ y, Item.obj y ∈ f.items →
          y ∈ (s' : IterSt P I H).visited) →
        ∀ j, k ≤ j → ∀ f, (h0 x).fields[j]? = some f → ∀ y, Item.obj y ∈ f.items → y ∈ s'.visited := by
      intro s' hm hrest j hj g hg y hy
      rcases Nat.lt_or_eq_of_le hj with h | h
      · exact hrest j h g hg y hy
      · subst h
        rw [hf] at hg
        cases hg
        exact hm y (v1 y hy)
    rw [List.range'_succ, iterFields, hr1]
    simp only [e1, Option.bind_some, hr2]
    cases href : f.isRef with
    | false =>
      simp only [Bool.false_eq_true, if_false]
      obtain ⟨s2, e2, i2, m2, k2, l2, d2, c2⟩ := ih (k + 1) (by omega) s1 i1 (f1.mono x hv)
        (by rw [hk1, renUpTo_succ_nonref _ _ _ hf href])
      exact ⟨s2, e2, i2, fun y hy => m2 y (f1.mono y hy),
        fun y hy hne => (k2 y (f1.mono y hy) hne).trans (f1.keep y hy),
        fun y hy => (l2 y hy).elim (fun h => f1.low y h) Or.inr, d2, hlast s2 m2 c2⟩
    | true =>
      simp only [if_true]
      rw [processItems_ok _ _ (hpf s1.heap i1.names x hx f hfm href)]
      simp only [Option.bind_some]
      have hheap : (setField s1.heap x k (f.items.map rn)) x = renUpTo rn (k + 1) (h0 x) := by
        simp only [setField, Heap.upd, if_true, hk1]
        exact modify_renUpTo _ _ _ hf href
      have hother : ∀ y, y ≠ x → (setField s1.heap x k (f.items.map rn)) y = s1.heap y := by
        intro y hy
        simp [setField, Heap.upd, hy]
      obtain ⟨s2, e2, i2, m2, k2, l2, d2, c2⟩ := ih (k + 1) (by omega)
        { s1 with heap := setField s1.heap x k (f.items.map rn) }
        ⟨fun y hy => by
            show setField s1.heap x k (f.items.map rn) y = _
            rw [hother y (fun e => hy (e ▸ f1.mono x hv))]
            exact i1.untouched y hy,
          fun y hy hr => by
            show setField s1.heap x k (f.items.map rn) y = _
            rw [hother y (fun e => by subst e; omega)]
            exact i1.done y hy hr,
          i1.closed,
          fun y => by
            by_cases e : y = x
            · subst e
              have := congrArg Obj.name hheap
              simpa [renUpTo] using this
            · show (setField s1.heap x k (f.items.map rn) y).name = _
              rw [hother y e]
              exact i1.names y⟩
        (f1.mono x hv) hheap
      exact ⟨s2, e2, i2, fun y hy => m2 y (f1.mono y hy),
        fun y hy hne => ((k2 y (f1.mono y hy) hne).trans (hother y hne)).trans (f1.keep y hy),
        fun y hy => (l2 y hy).elim (fun h => f1.low y h) Or.inr, d2, hlast s2 m2 c2⟩

theorem iterObj_ok (hpf : PfOk h0 pf rn Dom) (hdom : ∀ x, Dom x → ∀ y ∈ (h0 x).children, Dom y)
    (hrk : ∀ x y, y ∈ (h0 x).children → rk y < rk x) (n : Nat) :
    RecOk h0 rk rn Dom n (iterObj pf n) := by
  induction n with
  | zero => intro s x _ h; omega
  | succ n ih =>
    intro s x hx hm r hr hs
    rw [iterObj]
    by_cases hv : x ∈ s.visited
    · rw [if_pos hv]
      exact ⟨s, rfl, hs, hv, Frame.refl _ _⟩
    · rw [if_neg hv]
      have hrec : RecOk h0 rk rn Dom (rk x) (iterObj pf n) :=
        fun s y hy hym r hyr hs => ih s y hy (by omega) r hyr hs
      have hlen : (s.heap x).fields.length = (h0 x).fields.length := by
        rw [hs.untouched x hv]
      rw [hlen, List.range_eq_range']
      obtain ⟨s', e, i, m, k, l, d, c⟩ := iterFields_ok hpf x hx (hdom x hx) (hrk x) hrec
        (h0 x).fields.length 0 (by omega) { s with visited := x :: s.visited }
        ⟨fun y hy => hs.untouched y (fun h => hy (List.mem_cons_of_mem _ h)),
          fun y hy hr' => by
            rcases List.mem_cons.1 hy with rfl | hy
            · omega
            · exact hs.done y hy (by omega),
          fun y hy hr' z hz => by
            rcases List.mem_cons.1 hy with rfl | hy
            · omega
            · exact List.mem_cons_of_mem _ (hs.closed y hy (by omega) z hz),
          hs.names⟩
        (by simp) (by simp [renUpTo_zero, hs.untouched x hv])
      refine ⟨s', e, ⟨i.untouched, ?_, ?_, i.names⟩, m x (by simp), ?_⟩
      · intro y hy hyr
        by_cases hlt : rk y < rk x
        · exact i.done y hy hlt
        · rcases l y hy with h | h
          · rcases List.mem_cons.1 h with rfl | h'
            · exact d
            · have hne : y ≠ x := fun e => hv (e ▸ h')
              exact (k y h hne).trans (hs.done y h' hyr)
          · omega
      · intro y hy hyr z hz
        by_cases hlt : rk y < rk x
        · exact i.closed y hy hlt z hz
        · rcases l y hy with h | h
          · rcases List.mem_cons.1 h with rfl | h'
            · obtain ⟨f, hf, hfz⟩ := (mem_children _ _).1 hz
              obtain ⟨j, hj⟩ := List.getElem?_of_mem hf
              exact c j (Nat.zero_le _) f hj z hfz
            · exact m z (List.mem_cons_of_mem _ (hs.closed y h' hyr z hz))
          · omega
      · refine ⟨fun y hy => m y (List.mem_cons_of_mem _ hy), ?_, ?_⟩
        · intro y hy
          exact k y (List.mem_cons_of_mem _ hy) (fun e => hv (e ▸ hy))
        · intro y hy
          rcases l y hy with h | h
          · rcases List.mem_cons.1 h with rfl | h'
            · exact Or.inr (by omega)
            · exact Or.inl h'
          · exact Or.inr (by omega)

/-- Iterating over a list of roots replaces the references of everything reachable. -/
theorem iterAll_ok (hpf : PfOk h0 pf rn Dom) (hdom : ∀ x, Dom x → ∀ y ∈ (h0 x).children, Dom y)
    (hrk : ∀ x y, y ∈ (h0 x).children → rk y < rk x) (n r : Nat) (xs : List Nat)
    (hxs : ∀ x ∈ xs, Dom x ∧ rk x < n ∧ rk x < r) (s : IterSt P I H) (hs : Inv h0 rk rn r s) :
    ∃ s', iterAll pf n xs s = some s' ∧ Inv h0 rk rn r s' ∧ (∀ x ∈ s.visited, x ∈ s'.visited) ∧
      (∀ x ∈ xs, x ∈ s'.visited) ∧ ∀ x ∈ s'.visited, x ∈ s.visited ∨ rk x < r := by
  induction xs generalizing s with
  | nil => exact ⟨s, rfl, hs, fun _ h => h, fun _ h => (by cases h), fun _ h => Or.inl h⟩
  | cons x xs ih =>
    obtain ⟨h1, h2, h3⟩ := hxs x (by simp)
    obtain ⟨s1, e1, i1, v1, f1⟩ := iterObj_ok hpf hdom hrk n s x h1 h2 r h3 hs
    obtain ⟨s2, e2, i2, m2, v2, l2⟩ := ih (fun y hy => hxs y (List.mem_cons_of_mem _ hy)) s1 i1
    refine ⟨s2, by simp [iterAll, e1, e2], i2, fun y hy => m2 y (f1.mono y hy), ?_, ?_⟩
    · intro y hy
      rcases List.mem_cons.1 hy with rfl | hy
      · exact m2 _ v1
      · exact v2 y hy
    · intro y hy
      rcases l2 y hy with h | h
      · exact (f1.low y h).imp id (fun h => by omega)
      · exact Or.inr h

end Iter

/-! ### Extraction -/

section Extract
variable (eq : Heap P I H → Nat → Nat → Bool) (h : Heap P I H) (rk : Nat → Nat) (Dom : Nat → Prop)

/-- Everything below a listed node of rank less than `r` is listed. -/
def ExInv (r : Nat) (l : List Nat) : Prop :=
  ∀ x ∈ l, rk x < r → ∀ y, Reach h x y → (h y).isNode = true → y ∈ l

/-- The statement proved about a call. -/
def ExOk (m : Nat) (rec : List Nat → Nat → Option (List Nat)) : Prop :=
  ∀ l x, Dom x → (∀ y ∈ l, Dom y ∧ (h y).isNode = true) → l.Nodup → rk x < m →
    ∀ r, rk x < r → ExInv h rk r l →
    ∃ l', rec l x = some l' ∧ ExInv h rk r l' ∧ l'.Nodup ∧ (∀ y ∈ l, y ∈ l') ∧
      (∀ y, Reach h x y → (h y).isNode = true → y ∈ l') ∧
      ∀ y ∈ l', y ∈ l ∨ ((h y).isNode = true ∧ Reach h x y)

variable {eq h rk Dom}

theorem extractList_ok {m : Nat} {rec : List Nat → Nat → Option (List Nat)}
    (hrec : ExOk h rk Dom m rec) (hdom : ∀ x, Dom x → ∀ y, Reach h x y → Dom y)
    (xs : List Nat) (r : Nat) (hxs : ∀ x ∈ xs, Dom x ∧ rk x < m ∧ rk x < r)
    (l : List Nat) (hl : ∀ y ∈ l, Dom y ∧ (h y).isNode = true) (hnd : l.Nodup)
    (hi : ExInv h rk r l) :
    ∃ l', extractList rec xs l = some l' ∧ ExInv h rk r l' ∧ l'.Nodup ∧ (∀ y ∈ l, y ∈ l') ∧
      (∀ x ∈ xs, ∀ y, Reach h x y → (h y).isNode = true → y ∈ l') ∧
      ∀ y ∈ l', y ∈ l ∨ ((h y).isNode = true ∧ ∃ x ∈ xs, Reach h x y) := by
  induction xs generalizing l with
  | nil => exact ⟨l, rfl, hi, hnd, fun _ h => h, fun _ h => (by cases h), fun _ h => Or.inl h⟩
  | cons x xs ih =>
    obtain ⟨h1, h2, h3⟩ := hxs x (by simp)
    obtain ⟨l1, e1, i1, n1, m1, c1, o1⟩ := hrec l x h1 hl hnd h2 r h3 hi
    have hl1 : ∀ y ∈ l1, Dom y ∧ (h y).isNode = true := by
      intro y hy
      rcases o1 y hy with h | h
      · exact hl y h
      · exact ⟨hdom x h1 y h.2, h.1⟩
    obtain ⟨l2, e2, i2, n2, m2, c2, o2⟩ := ih (fun y hy => hxs y (List.mem_cons_of_mem _ hy)) l1
      hl1 n1 i1
    refine ⟨l2, by simp [extractList, e1, e2], i2, n2, fun y hy => m2 y (m1 y hy), ?_, ?_⟩
    · intro y hy z hz hzn
      rcases List.mem_cons.1 hy with rfl | hy
      · exact m2 z (c1 z hz hzn)
      · exact c2 y hy z hz hzn
    · intro y hy
      rcases o2 y hy with h | h
      · rcases o1 y h with h | h
        · exact Or.inl h
        · exact Or.inr ⟨h.1, x, by simp, h.2⟩
      · obtain ⟨hn, z, hz, hr⟩ := h
        exact Or.inr ⟨hn, z, List.mem_cons_of_mem _ hz, hr⟩

theorem extract_ok (hrefl : ∀ x, eq h x x = true)
    (hname : ∀ x y, eq h x y = true → (h x).name = (h y).name)
    (huniq : ∀ x y, Dom x → Dom y → (h x).isNode = true → (h y).isNode = true →
      (h x).name = (h y).name → x = y)
    (hdom : ∀ x, Dom x → ∀ y, Reach h x y → Dom y)
    (hrk : ∀ x y, y ∈ (h x).children → rk y < rk x) (n : Nat) :
    ExOk h rk Dom n (extract eq h n) := by
  induction n with
  | zero => intro l x _ _ _ h; omega
  | succ n ih =>
    intro l x hx hl hnd hm r hr hi
    have hrec : ExOk h rk Dom (rk x) (extract eq h n) :=
      fun l y hy hl hnd hym r hyr hi => ih l y hy hl hnd (by omega) r hyr hi
    have hch : ∀ y ∈ (h x).children, Dom y ∧ rk y < rk x ∧ rk y < rk x :=
      fun y hy => ⟨hdom x hx y (.step hy (.refl y)), hrk x y hy, hrk x y hy⟩
    rw [extract]
    by_cases hnode : (h x).isNode = true
    · rw [if_pos hnode]
      by_cases hany : l.any (fun y => eq h y x) = true
      · rw [if_pos hany]
        obtain ⟨y, hy, hyx⟩ := List.any_eq_true.1 hany
        have : y = x := huniq y x (hl y hy).1 hx (hl y hy).2 hnode (hname y x hyx)
        subst this
        exact ⟨l, rfl, hi, hnd, fun _ h => h, fun z hz hzn => hi y hy hr z hz hzn,
          fun _ h => Or.inl h⟩
      · rw [if_neg hany]
        have hnot : x ∉ l := fun hxl => hany (List.any_eq_true.2 ⟨x, hxl, hrefl x⟩)
        have hinv1 : ExInv h rk (rk x) (l ++ [x]) := by
          intro y hy hyr z hz hzn
          rcases List.mem_append.1 hy with hy | hy
          · exact List.mem_append_left _ (hi y hy (by omega) z hz hzn)
          · rw [List.mem_singleton] at hy
            subst hy; omega
        obtain ⟨l2, e2, i2, n2, m2, c2, o2⟩ := extractList_ok hrec hdom (h x).children (rk x) hch
          (l ++ [x])
          (fun y hy => by
            rcases List.mem_append.1 hy with hy | hy
            · exact hl y hy
            · rw [List.mem_singleton] at hy
              subst hy; exact ⟨hx, hnode⟩)
          (List.nodup_append.2 ⟨hnd, by simp, fun a ha b hb => by
            rw [List.mem_singleton] at hb
            subst hb
            exact fun e => hnot (e ▸ ha)⟩)
          hinv1
        have hall : ∀ y, Reach h x y → (h y).isNode = true → y ∈ l2 := by
          intro y hy hyn
          cases hy with
          | refl => exact m2 x (by simp)
          | step h1 h2 => exact c2 _ h1 y h2 hyn
        refine ⟨l2, e2, ?_, n2, fun y hy => m2 y (List.mem_append_left _ hy), hall, ?_⟩
        · intro y hy hyr z hz hzn
          rcases o2 y hy with h' | h'
          · rcases List.mem_append.1 h' with h'' | h''
            · exact m2 z (List.mem_append_left _ (hi y h'' hyr z hz hzn))
            · rw [List.mem_singleton] at h''
              subst h''
              exact hall z hz hzn
          · obtain ⟨_, w, hw, hr'⟩ := h'
            exact hall z (.step hw (hr'.trans hz)) hzn
        · intro y hy
          rcases o2 y hy with h' | h'
          · rcases List.mem_append.1 h' with h'' | h''
            · exact Or.inl h''
            · rw [List.mem_singleton] at h''
              subst h''
              exact Or.inr ⟨hnode, .refl y⟩
          · obtain ⟨hn, w, hw, hr'⟩ := h'
            exact Or.inr ⟨hn, .step hw hr'⟩
    · rw [if_neg hnode]
      obtain ⟨l2, e2, i2, n2, m2, c2, o2⟩ := extractList_ok hrec hdom (h x).children (rk x) hch
        l hl hnd (fun y hy hyr => hi y hy (by omega))
      have hall : ∀ y, Reach h x y → (h y).isNode = true → y ∈ l2 := by
        intro y hy hyn
        cases hy with
        | refl => exact absurd hyn hnode
        | step h1 h2 => exact c2 _ h1 y h2 hyn
      refine ⟨l2, e2, ?_, n2, m2, hall, ?_⟩
      · intro y hy hyr z hz hzn
        rcases o2 y hy with h' | h'
        · exact m2 z (hi y h' hyr z hz hzn)
        · obtain ⟨_, w, hw, hr'⟩ := h'
          exact hall z (.step hw (hr'.trans hz)) hzn
      · intro y hy
        rcases o2 y hy with h' | h'
        · exact Or.inl h'
        · obtain ⟨hn, w, hw, hr'⟩ := h'
          exact Or.inr ⟨hn, .step hw hr'⟩

end Extract

/-! ### Reading what was written -/

mutual
/-- The items in heap `h` are what the text says. -/
def RepItems (h : Heap P I H) : J P I H → List (Item P) → Prop
  | .nil, is => is = []
  | .leaf (.inl p) rest, .prim q :: is => q = p ∧ RepItems h rest is
  | .leaf (.inr s) rest, .str t :: is => t = s ∧ RepItems h rest is
  | .sub isNode name hdr fields rest, .obj y :: is =>
    (h y).isNode = isNode ∧ (h y).name = name ∧ (h y).hdr = hdr ∧
      RepFields h fields (h y).fields ∧ RepItems h rest is
  | _, _ => False

/-- The fields in heap `h` are what the text says. -/
def RepFields (h : Heap P I H) : J P I H → List (Field P I) → Prop
  | .nil, fs => fs = []
  | .field info isRef items rest, f :: fs =>
    f.info = info ∧ f.isRef = isRef ∧ RepItems h items f.items ∧ RepFields h rest fs
  | _, _ => False
end

mutual
/-- The text is a list of items. -/
def IsItems : J P I H → Prop
  | .nil => True
  | .leaf _ rest => IsItems rest
  | .sub _ _ _ fields rest => IsFields fields ∧ IsItems rest
  | .field _ _ _ _ => False

/-- The text is a list of fields. -/
def IsFields : J P I H → Prop
  | .nil => True
  | .field _ _ items rest => IsItems items ∧ IsFields rest
  | _ => False
end

/-- Objects only refer to objects stored before them. -/
def Sorted (h : Heap P I H) : Prop := ∀ x y, y ∈ (h x).children → y < x

mutual
theorem repItems_frame {h h' : Heap P I H} {n : Nat} (hs : Sorted h)
    (he : ∀ y, y < n → h' y = h y) (j : J P I H) (is : List (Item P))
    (hn : ∀ y, Item.obj y ∈ is → y < n) (hr : RepItems h j is) : RepItems h' j is := by
  cases j with
  | nil => unfold RepItems at hr ⊢; exact hr
  | leaf i rest =>
    cases is with
    | nil => cases i <;> (unfold RepItems at hr; exact hr.elim)
    | cons a is =>
      have hn' : ∀ y, Item.obj y ∈ is → y < n := fun y hy => hn y (List.mem_cons_of_mem _ hy)
      cases i with
      | inl p =>
        cases a with
        | prim q =>
          unfold RepItems at hr ⊢
          exact ⟨hr.1, repItems_frame hs he rest is hn' hr.2⟩
        | str q => unfold RepItems at hr; exact hr.elim
        | obj q => unfold RepItems at hr; exact hr.elim
      | inr p =>
        cases a with
        | str q =>
          unfold RepItems at hr ⊢
          exact ⟨hr.1, repItems_frame hs he rest is hn' hr.2⟩
        | prim q => unfold RepItems at hr; exact hr.elim
        | obj q => unfold RepItems at hr; exact hr.elim
  | sub b nm hd fields rest =>
    cases is with
    | nil => unfold RepItems at hr; exact hr.elim
    | cons a is =>
      cases a with
      | obj y =>
        unfold RepItems at hr ⊢
        have hy : y < n := hn y (by simp)
        rw [he y hy]
        refine ⟨hr.1, hr.2.1, hr.2.2.1, ?_,
          repItems_frame hs he rest is (fun y hy => hn y (List.mem_cons_of_mem _ hy)) hr.2.2.2.2⟩
        refine repFields_frame hs he fields _ ?_ hr.2.2.2.1
        intro f hf z hz
        exact Nat.lt_trans (hs y z ((mem_children _ _).2 ⟨f, hf, hz⟩)) hy
      | prim q => unfold RepItems at hr; exact hr.elim
      | str q => unfold RepItems at hr; exact hr.elim
  | field a b c d => cases is <;> (unfold RepItems at hr; exact hr.elim)

theorem repFields_frame {h h' : Heap P I H} {n : Nat} (hs : Sorted h)
    (he : ∀ y, y < n → h' y = h y) (j : J P I H) (fs : List (Field P I))
    (hn : ∀ f ∈ fs, ∀ y, Item.obj y ∈ f.items → y < n) (hr : RepFields h j fs) :
    RepFields h' j fs := by
  cases j with
  | nil => unfold RepFields at hr ⊢; exact hr
  | field info b items rest =>
    cases fs with
    | nil => unfold RepFields at hr; exact hr.elim
    | cons f fs =>
      unfold RepFields at hr ⊢
      exact ⟨hr.1, hr.2.1, repItems_frame hs he items _ (hn f (by simp)) hr.2.2.1,
        repFields_frame hs he rest fs (fun g hg => hn g (List.mem_cons_of_mem _ hg)) hr.2.2.2⟩
  | leaf a b => cases fs <;> (unfold RepFields at hr; exact hr.elim)
  | sub a b c d e => cases fs <;> (unfold RepFields at hr; exact hr.elim)
end

mutual
theorem impItems_ok (j : J P I H) (a : Alloc P I H) (hj : IsItems j) (hs : Sorted a.heap) :
    Sorted (impItems j a).2.heap ∧ a.next ≤ (impItems j a).2.next ∧
    (∀ y, y < a.next → (impItems j a).2.heap y = a.heap y) ∧
    (∀ y, Item.obj y ∈ (impItems j a).1 → y < (impItems j a).2.next) ∧
    RepItems (impItems j a).2.heap j (impItems j a).1 := by
  cases j with
  | nil =>
    refine ⟨hs, Nat.le_refl _, fun _ _ => rfl, fun y h => ?_, ?_⟩
    · unfold impItems at h; cases h
    · unfold impItems RepItems; rfl
  | leaf i rest =>
    unfold IsItems at hj
    obtain ⟨h1, h2, h3, h4, h5⟩ := impItems_ok rest a hj hs
    cases i with
    | inl p =>
      unfold impItems
      refine ⟨h1, h2, h3, ?_, ?_⟩
      · intro y hy
        rcases List.mem_cons.1 hy with h | h
        · cases h
        · exact h4 y h
      · unfold RepItems; exact ⟨rfl, h5⟩
    | inr p =>
      unfold impItems
      refine ⟨h1, h2, h3, ?_, ?_⟩
      · intro y hy
        rcases List.mem_cons.1 hy with h | h
        · cases h
        · exact h4 y h
      · unfold RepItems; exact ⟨rfl, h5⟩
  | sub b nm hd fields rest =>
    unfold IsItems at hj
    obtain ⟨h1, h2, h3, h4, h5⟩ := impFields_ok fields a hj.1 hs
    unfold impItems
    simp only
    revert h1 h2 h3 h4 h5
    generalize impFields fields a = r
    intro h1 h2 h3 h4 h5
    have hs' : Sorted (r.2.heap.upd r.2.next ⟨b, nm, hd, r.1⟩) := by
      intro x y hy
      unfold Heap.upd at hy
      by_cases hx : x = r.2.next
      · rw [if_pos hx, mem_children] at hy
        obtain ⟨f, hf, hfy⟩ := hy
        rw [hx]
        exact h4 f hf y hfy
      · rw [if_neg hx] at hy
        exact h1 x y hy
    obtain ⟨g1, g2, g3, g4, g5⟩ := impItems_ok rest
      ⟨r.2.heap.upd r.2.next ⟨b, nm, hd, r.1⟩, r.2.next + 1⟩ hj.2 hs'
    simp only at g2 g3
    have hnew : (impItems rest ⟨r.2.heap.upd r.2.next ⟨b, nm, hd, r.1⟩, r.2.next + 1⟩).2.heap
        r.2.next = ⟨b, nm, hd, r.1⟩ := by
      rw [g3 r.2.next (Nat.lt_succ_self _)]
      simp [Heap.upd]
    refine ⟨g1, by omega, ?_, ?_, ?_⟩
    · intro y hy
      rw [g3 y (by omega)]
      have : y ≠ r.2.next := by omega
      simp only [Heap.upd, this, if_false]
      exact h3 y hy
    · intro y hy
      rcases List.mem_cons.1 hy with h | h
      · cases h; omega
      · exact g4 y h
    · unfold RepItems
      rw [hnew]
      refine ⟨rfl, rfl, rfl, ?_, g5⟩
      refine repFields_frame h1 (n := r.2.next) ?_ fields r.1 h4 h5
      intro y hy
      rw [g3 y (by omega)]
      have : y ≠ r.2.next := by omega
      simp [Heap.upd, this]
  | field a b c d => unfold IsItems at hj; exact hj.elim

theorem impFields_ok (j : J P I H) (a : Alloc P I H) (hj : IsFields j) (hs : Sorted a.heap) :
    Sorted (impFields j a).2.heap ∧ a.next ≤ (impFields j a).2.next ∧
    (∀ y, y < a.next → (impFields j a).2.heap y = a.heap y) ∧
    (∀ f ∈ (impFields j a).1, ∀ y, Item.obj y ∈ f.items → y < (impFields j a).2.next) ∧
    RepFields (impFields j a).2.heap j (impFields j a).1 := by
  cases j with
  | nil =>
    refine ⟨hs, Nat.le_refl _, fun _ _ => rfl, fun y h => ?_, ?_⟩
    · unfold impFields at h; cases h
    · unfold impFields RepFields; rfl
  | field info b items rest =>
    unfold IsFields at hj
    obtain ⟨h1, h2, h3, h4, h5⟩ := impItems_ok items a hj.1 hs
    obtain ⟨g1, g2, g3, g4, g5⟩ := impFields_ok rest (impItems items a).2 hj.2 h1
    unfold impFields
    simp only
    refine ⟨g1, by omega, fun y hy => (g3 y (by omega)).trans (h3 y hy), ?_, ?_⟩
    · intro f hf y hy
      rcases List.mem_cons.1 hf with rfl | hf
      · have := h4 y hy
        omega
      · exact g4 f hf y hy
    · unfold RepFields
      exact ⟨rfl, rfl, repItems_frame h1 (n := (impItems items a).2.next) g3 items _ h4 h5, g5⟩
  | leaf a b => unfold IsFields at hj; exact hj.elim
  | sub a b c d e => unfold IsFields at hj; exact hj.elim
end

theorem isItems_exp {rec : Nat → J P I H} (hrec : ∀ x, IsFields (rec x)) (h : Heap P I H)
    (is : List (Item P)) : IsItems (expItems rec h is) := by
  induction is with
  | nil => unfold expItems IsItems; trivial
  | cons i is ih =>
    cases i with
    | prim p => unfold expItems IsItems; exact ih
    | str s => unfold expItems IsItems; exact ih
    | obj y => unfold expItems IsItems; exact ⟨hrec y, ih⟩

theorem isFields_exp {rec : Nat → J P I H} (hrec : ∀ x, IsFields (rec x)) (h : Heap P I H)
    (fs : List (Field P I)) : IsFields (expFields rec h fs) := by
  induction fs with
  | nil => unfold expFields IsFields; trivial
  | cons f fs ih => unfold expFields IsFields; exact ⟨isItems_exp hrec h f.items, ih⟩

theorem isFields_expObj (h : Heap P I H) (n x : Nat) : IsFields (expObj h n x) := by
  induction n generalizing x with
  | zero => unfold expObj IsFields; trivial
  | succ n ih => exact isFields_exp ih h _

/-- `x'` in `h2` was read from the text written for `x` in `h1`. -/
def Read (h1 h2 : Heap P I H) (m x x' : Nat) : Prop :=
  (h2 x').isNode = (h1 x).isNode ∧ (h2 x').name = (h1 x).name ∧ (h2 x').hdr = (h1 x).hdr ∧
  RepFields h2 (expObj h1 m x) (h2 x').fields

theorem repItems_exp {h1 h2 : Heap P I H} {m : Nat} (is is' : List (Item P))
    (hr : RepItems h2 (expItems (expObj h1 m) h1 is) is') :
    List.Forall₂ (ItemSame (Read h1 h2 m)) is is' := by
  induction is generalizing is' with
  | nil => unfold expItems RepItems at hr; subst hr; exact .nil
  | cons i is ih =>
    cases is' with
    | nil => cases i <;> (unfold expItems RepItems at hr; exact hr.elim)
    | cons i' is' =>
      cases i with
      | prim p =>
        cases i' with
        | prim q => unfold expItems RepItems at hr; exact .cons hr.1.symm (ih is' hr.2)
        | str q => unfold expItems RepItems at hr; exact hr.elim
        | obj q => unfold expItems RepItems at hr; exact hr.elim
      | str p =>
        cases i' with
        | prim q => unfold expItems RepItems at hr; exact hr.elim
        | str q => unfold expItems RepItems at hr; exact .cons hr.1.symm (ih is' hr.2)
        | obj q => unfold expItems RepItems at hr; exact hr.elim
      | obj p =>
        cases i' with
        | prim q => unfold expItems RepItems at hr; exact hr.elim
        | str q => unfold expItems RepItems at hr; exact hr.elim
        | obj q =>
          unfold expItems RepItems at hr
          exact .cons ⟨hr.1, hr.2.1, hr.2.2.1, hr.2.2.2.1⟩ (ih is' hr.2.2.2.2)

theorem repFields_exp {h1 h2 : Heap P I H} {m : Nat} (fs fs' : List (Field P I))
    (hr : RepFields h2 (expFields (expObj h1 m) h1 fs) fs') :
    List.Forall₂ (fun f f' => f'.info = f.info ∧ f'.isRef = f.isRef ∧
      List.Forall₂ (ItemSame (Read h1 h2 m)) f.items f'.items) fs fs' := by
  induction fs generalizing fs' with
  | nil => unfold expFields RepFields at hr; subst hr; exact .nil
  | cons f fs ih =>
    cases fs' with
    | nil => unfold expFields RepFields at hr; exact hr.elim
    | cons f' fs' =>
      unfold expFields RepFields at hr
      exact .cons ⟨hr.1, hr.2.1, repItems_exp _ _ hr.2.2.1⟩ (ih fs' hr.2.2.2)

end Verif.Schema
