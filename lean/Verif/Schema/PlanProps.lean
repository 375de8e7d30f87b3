import Verif.Schema.PlanLemmas
/-
Property C13.
-/
namespace Verif.Schema
variable {P I H : Type}

/-- What is assumed of the equality of `schematics` models: it is reflexive and compares names. -/
structure EqOk (eq : Heap P I H → Nat → Nat → Bool) : Prop where
  refl : ∀ h x, eq h x x = true
  name : ∀ h x y, eq h x y = true → (h x).name = (h y).name

/-- A reference replaced by the name. -/
def nameOf (h : Heap P I H) : Item P → Item P
  | .obj y => .str (h y).name
  | i => i

theorem forall₂_mem_right {A B : Type} {R : A → B → Prop} {l : List A} {l' : List B}
    (h : List.Forall₂ R l l') {b : B} (hb : b ∈ l') : ∃ a ∈ l, R a b := by
  induction h with
  | nil => cases hb
  | cons h _ ih =>
    rcases List.mem_cons.1 hb with rfl | hb
    · exact ⟨_, by simp, h⟩
    · obtain ⟨a, ha, hr⟩ := ih hb
      exact ⟨a, List.mem_cons_of_mem _ ha, hr⟩

theorem forall₂_mem_left {A B : Type} {R : A → B → Prop} {l : List A} {l' : List B}
    (h : List.Forall₂ R l l') {a : A} (ha : a ∈ l) : ∃ b ∈ l', R a b := by
  induction h with
  | nil => cases ha
  | cons h _ ih =>
    rcases List.mem_cons.1 ha with rfl | ha
    · exact ⟨_, by simp, h⟩
    · obtain ⟨b, hb, hr⟩ := ih ha
      exact ⟨b, List.mem_cons_of_mem _ hb, hr⟩

theorem forall₂_imp_mem {A B : Type} {R S : A → B → Prop} {l : List A} {l' : List B}
    (h : List.Forall₂ R l l') (hi : ∀ a ∈ l, ∀ b ∈ l', R a b → S a b) : List.Forall₂ S l l' := by
  induction h with
  | nil => exact .nil
  | cons h _ ih =>
    refine .cons (hi _ (by simp) _ (by simp) h) (ih ?_)
    exact fun a ha b hb => hi a (List.mem_cons_of_mem _ ha) b (List.mem_cons_of_mem _ hb)

theorem forall₂_map_obj {R : Nat → Nat → Prop} (l : List Nat) (is : List (Item P))
    (h : List.Forall₂ (ItemSame R) (l.map .obj) is) : List.Forall₂ R l (itemIds is) := by
  induction l generalizing is with
  | nil => cases h; exact .nil
  | cons x l ih =>
    cases h with
    | cons h1 h2 =>
      rename_i i is
      cases i with
      | obj y => exact .cons h1 (ih _ h2)
      | prim q => exact h1.elim
      | str q => exact h1.elim

theorem exists_bound (rk : Nat → Nat) (l : List Nat) : ∃ n, ∀ x ∈ l, rk x < n := by
  induction l with
  | nil => exact ⟨0, fun _ h => by cases h⟩
  | cons a l ih =>
    obtain ⟨n, hn⟩ := ih
    refine ⟨n + rk a + 1, fun x hx => ?_⟩
    rcases List.mem_cons.1 hx with rfl | hx
    · omega
    · have := hn x hx; omega

section Main
variable {h : Heap P I H} {p : PlanObj} {rk : Nat → Nat} {h1 h2 h3 : Heap P I H}

theorem planReach_step {x y : Nat} (hx : PlanReach h p x) (hy : Reach h x y) : PlanReach h p y := by
  obtain ⟨r, hr, hrx⟩ := hx
  exact ⟨r, hr, hrx.trans hy⟩

/-- The fields of an object that was written and read, compared with the original ones. -/
theorem read_fields (hrk : ∀ x y, y ∈ (h x).children → rk y < rk x) {x x' m : Nat}
    (h1x : h1 x = ren (nameOf h) (h x)) (hm : rk x < m) (hr : Read h1 h2 m x x') :
    ∃ m', (∀ y ∈ (h x).children, rk y < m') ∧
    List.Forall₂ (fun f f' => f'.info = f.info ∧ f'.isRef = f.isRef ∧
      List.Forall₂ (fun i i' => if f.isRef then ItemSame (Read h1 h2 m') (nameOf h i) i'
        else ItemSame (Read h1 h2 m') i i') f.items f'.items) (h x).fields (h2 x').fields := by
  cases m with
  | zero => omega
  | succ m =>
    refine ⟨m, fun y hy => ?_, ?_⟩
    · have := hrk x y hy
      omega
    · obtain ⟨_, _, _, hf⟩ := hr
      unfold expObj at hf
      have := repFields_exp _ _ hf
      rw [h1x] at this
      simp only [ren] at this
      rw [List.forall₂_map_left_iff] at this
      refine this.imp ?_
      rintro f f' ⟨a1, a2, a3⟩
      unfold renField at a1 a2 a3
      cases href : f.isRef with
      | true =>
        simp only [href, if_true] at a1 a2 a3 ⊢
        rw [List.forall₂_map_left_iff] at a3
        exact ⟨a1, a2, a3⟩
      | false =>
        simp only [href, Bool.false_eq_true, if_false] at a1 a2 a3 ⊢
        exact ⟨a1, a2, a3⟩

end Main

/-- C13: for every well-formed plan, `dumps` succeeds, `loads` succeeds on the result, and the plan
it returns is the same plan. -/
theorem loads_dumps (eq : Heap P I H → Nat → Nat → Bool) (heq : EqOk eq)
    (accept : List Int → Bool) (empty : Obj P I H) (hempty : empty.fields = [])
    (h : Heap P I H) (p : PlanObj) (hwf : WellFormed h p) (hv : accept p.version = true) :
    ∃ n₀, ∀ fuel, n₀ ≤ fuel → ∃ ser, dumps eq fuel h p = some ser ∧
      ∃ n₁, ∀ fuel', n₁ ≤ fuel' → ∃ h' p', loads accept fuel' empty ser = some (h', p') ∧
        SamePlan h p h' p' := by
  obtain ⟨rk, hrk⟩ := hwf.acyclic
  obtain ⟨n₀, hn₀⟩ := exists_bound rk (p.nodes ++ p.actions)
  refine ⟨n₀, fun fuel hfuel => ?_⟩
  have hroot : ∀ x ∈ p.nodes ++ p.actions, rk x < fuel := fun x hx =>
    Nat.lt_of_lt_of_le (hn₀ x hx) hfuel
  have hreachrk : ∀ x, PlanReach h p x → rk x < fuel := by
    rintro x ⟨r, hr, hrx⟩
    exact Nat.lt_of_le_of_lt (hrx.rank hrk) (hroot r hr)
  have hrootr : ∀ x ∈ p.nodes ++ p.actions, PlanReach h p x := fun x hx => ⟨x, hx, .refl x⟩
  -- extraction
  obtain ⟨l, el, _, nl, _, cl, ol⟩ := extractList_ok (rk := rk) (Dom := PlanReach h p)
    (extract_ok (heq.refl h) (heq.name h) hwf.unique
      (fun x hx y hy => planReach_step hx hy) hrk fuel)
    (fun x hx y hy => planReach_step hx hy) (p.nodes ++ p.actions) fuel
    (fun x hx => ⟨hrootr x hx, hroot x hx, hroot x hx⟩) [] (by simp) List.nodup_nil
    (fun x hx => by cases hx)
  have hl : ∀ x, x ∈ l ↔ PlanReach h p x ∧ (h x).isNode = true := by
    intro x
    constructor
    · intro hx
      rcases ol x hx with h' | ⟨hn, r, hr, hrx⟩
      · cases h'
      · exact ⟨⟨r, hr, hrx⟩, hn⟩
    · rintro ⟨⟨r, hr, hrx⟩, hn⟩
      exact cl r hr x hrx hn
  -- names
  have hpf1 : PfOk h (toName eq l) (nameOf h) (PlanReach h p) := by
    intro g hg x hx f hf href i hi
    rcases hwf.refs x hx f hf href i hi with ⟨y, rfl, hy⟩ | ⟨z, rfl, _, _⟩
    · have hyc : y ∈ (h x).children := (mem_children _ _).2 ⟨f, hf, hi⟩
      have hyr : PlanReach h p y := planReach_step hx (.step hyc (.refl y))
      have hyl : y ∈ l := (hl y).2 ⟨hyr, hy⟩
      simp only [toName, nameOf]
      cases hfind : l.find? (fun z => eq g z y) with
      | none =>
        have := List.find?_eq_none.1 hfind y hyl
        exact absurd (heq.refl g y) this
      | some z =>
        have hz := List.find?_some hfind
        have hzl := List.mem_of_find?_eq_some hfind
        have hnm := heq.name g z y hz
        rw [hg, hg] at hnm
        simp [hg, hnm]
    · rfl
  obtain ⟨s, es, is, _, vs, _⟩ := iterAll_ok (rk := rk) hpf1
    (fun x hx y hy => planReach_step hx (.step hy (.refl y))) hrk fuel fuel
    (p.nodes ++ p.actions) (fun x hx => ⟨hrootr x hx, hroot x hx, hroot x hx⟩) ⟨h, []⟩
    ⟨fun _ _ => rfl, fun _ hx => (by cases hx), fun _ hx => (by cases hx), fun _ => rfl⟩
  have hvis : ∀ x, PlanReach h p x → x ∈ s.visited := by
    rintro x ⟨r, hr, hrx⟩
    have hr' := vs r hr
    have hrp := hrootr r hr
    clear hr
    induction hrx with
    | refl => exact hr'
    | step hc _ ih =>
      exact ih (is.closed _ hr' (hreachrk _ hrp) _ hc) (planReach_step hrp (.step hc (.refl _)))
  have h1x : ∀ x, PlanReach h p x → s.heap x = ren (nameOf h) (h x) := fun x hx =>
    is.done x (hvis x hx) (hreachrk x hx)
  have hnd : (l.map (fun x => (h x).name)).Nodup := by
    refine List.Nodup.map_on ?_ nl
    intro x hx y hy hxy
    exact hwf.unique x y ((hl x).1 hx).1 ((hl y).1 hy).1 ((hl x).1 hx).2 ((hl y).1 hy).2 hxy
  have hnames : l.map (fun x => (s.heap x).name) = l.map (fun x => (h x).name) :=
    List.map_congr_left (fun x _ => is.names x)
  have hcheck : checkNames (l.map (fun x => (s.heap x).name)) [] = true := by
    rw [hnames, validate_names_iff_nodup]
    exact hnd
  refine ⟨_, by rw [dumps, el, Option.bind_some, es, Option.bind_some, if_pos hcheck], ?_⟩
  -- reading
  obtain ⟨a1, a2, a3, a4, a5⟩ := impItems_ok
    (expItems (expObj s.heap fuel) s.heap (l.map .obj)) ⟨fun _ => empty, 0⟩
    (isItems_exp (isFields_expObj _ _) _ _)
    (fun x y hy => by
      obtain ⟨f, hf, _⟩ := (mem_children _ _).1 hy
      simp only [hempty] at hf
      cases hf)
  revert a1 a2 a3 a4 a5
  generalize hrn : impItems (expItems (expObj s.heap fuel) s.heap (l.map .obj)) ⟨fun _ => empty, 0⟩ = rn
  intro a1 a2 a3 a4 a5
  obtain ⟨b1, b2, b3, b4, b5⟩ := impItems_ok
    (expItems (expObj s.heap fuel) s.heap (p.actions.map .obj)) rn.2
    (isItems_exp (isFields_expObj _ _) _ _) a1
  revert b1 b2 b3 b4 b5
  generalize hra : impItems (expItems (expObj s.heap fuel) s.heap (p.actions.map .obj)) rn.2 = ra
  intro b1 b2 b3 b4 b5
  have a6 : RepItems ra.2.heap _ rn.1 := repItems_frame a1 b3 _ _ a4 a5
  have fn : List.Forall₂ (Read s.heap ra.2.heap fuel) l (itemIds rn.1) :=
    forall₂_map_obj _ _ (repItems_exp _ _ a6)
  have fa : List.Forall₂ (Read s.heap ra.2.heap fuel) p.actions (itemIds ra.1) :=
    forall₂_map_obj _ _ (repItems_exp _ _ b5)
  have hnames2 : (itemIds rn.1).map (fun x => (ra.2.heap x).name) = l.map (fun x => (h x).name) := by
    have : ∀ (l l' : List Nat), List.Forall₂ (Read s.heap ra.2.heap fuel) l l' →
        l'.map (fun x => (ra.2.heap x).name) = l.map (fun x => (s.heap x).name) := by
      intro l l' hll
      induction hll with
      | nil => rfl
      | cons hr _ ih => simp [hr.2.1, ih]
    rw [this _ _ fn, hnames]
  -- objects that were read
  let Dom2 : Nat → Prop := fun x' => ∃ x m, PlanReach h p x ∧ rk x < m ∧ Read s.heap ra.2.heap m x x'
  have hdom2 : ∀ x', Dom2 x' → ∀ y' ∈ (ra.2.heap x').children, Dom2 y' := by
    rintro x' ⟨x, m, hx, hm, hr⟩ y' hy'
    obtain ⟨m', hm', hff⟩ := read_fields hrk (h1x x hx) hm hr
    obtain ⟨f', hf', hy'⟩ := (mem_children _ _).1 hy'
    obtain ⟨f, hf, _, _, hi⟩ := forall₂_mem_right hff hf'
    obtain ⟨i, hi, hii⟩ := forall₂_mem_right hi hy'
    cases href : f.isRef with
    | true =>
      rw [href, if_pos rfl] at hii
      cases i <;> exact hii.elim
    | false =>
      simp only [href, Bool.false_eq_true, if_false] at hii
      cases i with
      | obj y =>
        have hc : y ∈ (h x).children := (mem_children _ _).2 ⟨f, hf, hi⟩
        exact ⟨y, m', planReach_step hx (.step hc (.refl y)), hm' y hc, hii⟩
      | prim _ => exact hii.elim
      | str _ => exact hii.elim
  let rn2 : Item P → Item P := fun i => (toObj ra.2.heap (itemIds rn.1) ra.2.heap i).getD i
  -- a reference that was read is the name of a node
  have hrefs2 : ∀ x', Dom2 x' → ∀ f' ∈ (ra.2.heap x').fields, f'.isRef = true → ∀ i' ∈ f'.items,
      ∃ str y', i' = .str str ∧ y' ∈ itemIds rn.1 ∧ (ra.2.heap y').name = str ∧
        toObj ra.2.heap (itemIds rn.1) ra.2.heap i' = some (.obj y') := by
    rintro x' ⟨x, m, hx, hm, hr⟩ f' hf' href' i' hi'
    obtain ⟨m', hm', hff⟩ := read_fields hrk (h1x x hx) hm hr
    obtain ⟨f, hf, _, hrr, hi⟩ := forall₂_mem_right hff hf'
    obtain ⟨i, hi, hii⟩ := forall₂_mem_right hi hi'
    have href : f.isRef = true := by rw [← hrr]; exact href'
    rw [href, if_pos rfl] at hii
    have hz : ∃ z, nameOf h i = .str (h z).name ∧ z ∈ l := by
      rcases hwf.refs x hx f hf href i hi with ⟨y, rfl, hy⟩ | ⟨z, rfl, hz, hzn⟩
      · have hyc : y ∈ (h x).children := (mem_children _ _).2 ⟨f, hf, hi⟩
        exact ⟨y, rfl, (hl y).2 ⟨planReach_step hx (.step hyc (.refl y)), hy⟩⟩
      · exact ⟨z, rfl, (hl z).2 ⟨hz, hzn⟩⟩
    obtain ⟨z, hz1, hz2⟩ := hz
    rw [hz1] at hii
    cases i' with
    | obj _ => exact hii.elim
    | prim _ => exact hii.elim
    | str t =>
      have hii : (h z).name = t := hii
      obtain ⟨z', hz', hzz⟩ := forall₂_mem_left fn hz2
      have hname : (ra.2.heap z').name = t := by rw [hzz.2.1, is.names, hii]
      cases hfind : (itemIds rn.1).reverse.find? (fun x => (ra.2.heap x).name = t) with
      | none =>
        have := List.find?_eq_none.1 hfind z' (List.mem_reverse.2 hz')
        simp [hname] at this
      | some w =>
        have h1 := List.find?_some hfind
        have h2 := List.mem_of_find?_eq_some hfind
        refine ⟨t, w, rfl, List.mem_reverse.1 h2, by simpa using h1, ?_⟩
        simp [toObj, hfind]
  have hpf2 : PfOk ra.2.heap (toObj ra.2.heap (itemIds rn.1)) rn2 Dom2 := by
    intro g hg x' hx' f' hf' href' i' hi'
    obtain ⟨t, y', e1, _, _, e2⟩ := hrefs2 x' hx' f' hf' href' i' hi'
    have : toObj ra.2.heap (itemIds rn.1) g i' = toObj ra.2.heap (itemIds rn.1) ra.2.heap i' := by
      rw [e1]; rfl
    rw [this, e2]
    simp [rn2, e2]
  have hids : ∀ x ∈ itemIds ra.1 ++ itemIds rn.1, x < ra.2.next := by
    have hmem : ∀ (is : List (Item P)) x, x ∈ itemIds is → Item.obj x ∈ is := by
      intro is x hx
      unfold itemIds at hx
      obtain ⟨i, hi, he⟩ := List.mem_filterMap.1 hx
      cases i with
      | obj y => simp only [Option.some.injEq] at he; subst he; exact hi
      | prim _ => cases he
      | str _ => cases he
    intro x hx
    rcases List.mem_append.1 hx with hx | hx
    · exact b4 x (hmem _ _ hx)
    · exact Nat.lt_of_lt_of_le (a4 x (hmem _ _ hx)) b2
  have hdomroots : ∀ x ∈ itemIds ra.1 ++ itemIds rn.1, Dom2 x := by
    intro x' hx'
    rcases List.mem_append.1 hx' with hx' | hx'
    · obtain ⟨x, hx, hr⟩ := forall₂_mem_right fa hx'
      have := hrootr x (List.mem_append_right _ hx)
      exact ⟨x, fuel, this, hreachrk x this, hr⟩
    · obtain ⟨x, hx, hr⟩ := forall₂_mem_right fn hx'
      have := ((hl x).1 hx).1
      exact ⟨x, fuel, this, hreachrk x this, hr⟩
  refine ⟨ra.2.next, fun fuel' hfuel' => ?_⟩
  obtain ⟨t, et, it, _, vt, lt⟩ := iterAll_ok (rk := id) hpf2 hdom2 b1 fuel' fuel'
    (itemIds ra.1 ++ itemIds rn.1)
    (fun x hx => ⟨hdomroots x hx, Nat.lt_of_lt_of_le (hids x hx) hfuel',
      Nat.lt_of_lt_of_le (hids x hx) hfuel'⟩) ⟨ra.2.heap, []⟩
    ⟨fun _ _ => rfl, fun _ hx => (by cases hx), fun _ hx => (by cases hx), fun _ => rfl⟩
  have hrank2 : ∀ x ∈ t.visited, id x < fuel' := fun x hx =>
    (lt x hx).elim (fun h => by cases h) id
  have hcheck2 : (checkNames ((itemIds rn.1).map (fun x => (ra.2.heap x).name)) [] &&
      accept p.version) = true := by
    rw [hnames2, hv, Bool.and_true, validate_names_iff_nodup]
    exact hnd
  refine ⟨t.heap, { version := p.version, nodes := itemIds rn.1, actions := itemIds ra.1 }, ?_, ?_⟩
  · rw [loads]
    simp only [hrn, hra]
    rw [if_pos hcheck2, et, Option.bind_some]
  -- content
  have hsame : ∀ n x x' m, PlanReach h p x → rk x < m → Read s.heap ra.2.heap m x x' →
      x' ∈ t.visited → SameUpTo h t.heap n x x' := by
    intro n
    induction n with
    | zero => intro _ _ _ _ _ _ _; trivial
    | succ n ih =>
      intro x x' m hx hm hr hx'
      have ex' : t.heap x' = ren rn2 (ra.2.heap x') := it.done x' hx' (hrank2 x' hx')
      have ex := h1x x hx
      obtain ⟨m', hm', hff⟩ := read_fields hrk ex hm hr
      refine ⟨?_, ?_, ?_, ?_⟩
      · rw [ex']; simp only [ren]; rw [hr.1, ex]; rfl
      · rw [ex']; simp only [ren]; rw [hr.2.1, ex]; rfl
      · rw [ex']; simp only [ren]; rw [hr.2.2.1, ex]; rfl
      · rw [ex']
        simp only [ren]
        rw [List.forall₂_map_right_iff]
        refine forall₂_imp_mem hff ?_
        rintro f hf f' hf' ⟨c1, c2, c3⟩
        unfold renField
        cases href : f.isRef with
        | true =>
          have href' : f'.isRef = true := by rw [c2, href]
          simp only [href', if_true]
          refine ⟨c1.symm, trivial, ?_⟩
          rw [List.forall₂_map_right_iff]
          refine forall₂_imp_mem c3 ?_
          intro i hi i' hi' hii
          rw [href, if_pos rfl] at hii
          obtain ⟨str, y', e1, _, e3, e4⟩ := hrefs2 x' ⟨x, m, hx, hm, hr⟩ f' hf' href' i' hi'
          have e5 : rn2 i' = .obj y' := by simp [rn2, e4]
          rw [e5]
          subst e1
          simp only [refName, it.names, e3]
          cases i with
          | obj y => exact congrArg some hii
          | str q => exact congrArg some hii
          | prim q => exact hii.elim
        | false =>
          have href' : f'.isRef = false := by rw [c2, href]
          simp only [href', Bool.false_eq_true, if_false]
          refine ⟨c1.symm, trivial, ?_⟩
          refine forall₂_imp_mem c3 ?_
          intro i hi i' hi' hii
          simp only [href, Bool.false_eq_true, if_false] at hii
          cases i with
          | prim q => cases i' <;> exact hii
          | str q => cases i' <;> exact hii
          | obj y =>
            cases i' with
            | prim q => exact hii.elim
            | str q => exact hii.elim
            | obj y' =>
              have hc : y ∈ (h x).children := (mem_children _ _).2 ⟨f, hf, hi⟩
              have hc' : y' ∈ (ra.2.heap x').children := (mem_children _ _).2 ⟨f', hf', hi'⟩
              exact ih y y' m' (planReach_step hx (.step hc (.refl y))) (hm' y hc) hii
                (it.closed x' hx' (hrank2 x' hx') y' hc')
  have hreadnode : ∀ x x', Read s.heap ra.2.heap fuel x x' → PlanReach h p x → x' ∈ t.visited →
      Same h t.heap x x' := fun x x' hr hx hx' n => hsame n x x' fuel hx (hreachrk x hx) hr hx'
  refine ⟨rfl, ?_, ?_, ?_, ?_, ?_⟩
  · refine forall₂_imp_mem fa ?_
    intro x hx x' hx' hr
    exact hreadnode x x' hr (hrootr x (List.mem_append_right _ hx))
      (vt x' (List.mem_append_left _ hx'))
  · have : (itemIds rn.1).map (fun x => (t.heap x).name) = l.map (fun x => (h x).name) := by
      rw [← hnames2]
      exact List.map_congr_left (fun x _ => it.names x)
    rw [this]
    exact hnd
  · intro x hx hn
    obtain ⟨x', hx', hr⟩ := forall₂_mem_left fn ((hl x).2 ⟨hx, hn⟩)
    exact ⟨x', hx', hreadnode x x' hr hx (vt x' (List.mem_append_right _ hx'))⟩
  · intro x' hx'
    obtain ⟨x, hx, hr⟩ := forall₂_mem_right fn hx'
    obtain ⟨hxr, hxn⟩ := (hl x).1 hx
    exact ⟨x, hxr, hxn, hreadnode x x' hr hxr (vt x' (List.mem_append_right _ hx'))⟩
  · -- everything reachable was visited
    have hreach : ∀ r x', Reach t.heap r x' → r ∈ t.visited → Dom2 r →
        x' ∈ t.visited ∧ Dom2 x' := by
      intro r x' hr
      induction hr with
      | refl => exact fun a b => ⟨a, b⟩
      | @step x y z hc _ ih =>
        intro hxv hxd
        refine (fun (hy : y ∈ t.visited ∧ Dom2 y) => ih hy.1 hy.2) ?_
        rw [it.done x hxv (hrank2 x hxv)] at hc
        obtain ⟨f, hf, hfy⟩ := (mem_children _ _).1 hc
        simp only [ren] at hf
        obtain ⟨f', hf', rfl⟩ := List.mem_map.1 hf
        unfold renField at hfy
        cases href : f'.isRef with
        | true =>
          simp only [href, if_true] at hfy
          obtain ⟨i', hi', e⟩ := List.mem_map.1 hfy
          obtain ⟨str, y', e1, e2, _, e4⟩ := hrefs2 x hxd f' hf' href i' hi'
          have e5 : rn2 i' = .obj y' := by simp [rn2, e4]
          rw [e5] at e
          cases e
          exact ⟨vt y (List.mem_append_right _ e2), hdomroots y (List.mem_append_right _ e2)⟩
        | false =>
          simp only [href, Bool.false_eq_true, if_false] at hfy
          have hc' : y ∈ (ra.2.heap x).children := (mem_children _ _).2 ⟨f', hf', hfy⟩
          exact ⟨it.closed x hxv (hrank2 x hxv) y hc', hdom2 x hxd y hc'⟩
    rintro x' ⟨r, hr, hrx⟩ f hf href i hi
    have hr' : r ∈ itemIds ra.1 ++ itemIds rn.1 := by
      rcases List.mem_append.1 hr with h | h
      · exact List.mem_append_right _ h
      · exact List.mem_append_left _ h
    obtain ⟨hxv, hxd⟩ := hreach r x' hrx (vt r hr') (hdomroots r hr')
    rw [it.done x' hxv (hrank2 x' hxv)] at hf
    simp only [ren] at hf
    obtain ⟨f', hf', rfl⟩ := List.mem_map.1 hf
    unfold renField at href hi
    cases href' : f'.isRef with
    | true =>
      simp only [href', if_true] at hi
      obtain ⟨i', hi', e⟩ := List.mem_map.1 hi
      obtain ⟨str, y', e1, e2, _, e4⟩ := hrefs2 x' hxd f' hf' href' i' hi'
      refine ⟨y', e2, ?_⟩
      rw [← e]
      simp [rn2, e4]
    | false =>
      simp only [href', Bool.false_eq_true, if_false] at href

/-! ### A plan with sharing -/

/-- Node `a`; node `b` that refers to `a` twice, once inside a nested model; an action that refers to
`b`, and to `a` by name. -/
def sampleHeap : Heap Nat Unit Unit
  | 0 => ⟨true, ['a'], (), [⟨(), false, [.prim 7]⟩]⟩
  | 1 => ⟨true, ['b'], (), [⟨(), true, [.obj 0]⟩, ⟨(), false, [.obj 2]⟩]⟩
  | 2 => ⟨false, [], (), [⟨(), true, [.obj 0]⟩]⟩
  | 3 => ⟨false, ['c'], (), [⟨(), true, [.obj 1, .str ['a']]⟩]⟩
  | _ => ⟨false, [], (), []⟩

def samplePlan : PlanObj := { version := [0, 3, 0], nodes := [], actions := [3] }

theorem sample_nodes (x : Nat) (hx : (sampleHeap x).isNode = true) : x = 0 ∨ x = 1 := by
  match x with
  | 0 => exact Or.inl rfl
  | 1 => exact Or.inr rfl
  | 2 => cases hx
  | 3 => cases hx
  | _ + 4 => cases hx

theorem sample_wellFormed : WellFormed sampleHeap samplePlan := by
  have r3 : PlanReach sampleHeap samplePlan 3 := ⟨3, by simp [samplePlan], .refl 3⟩
  have r1 : PlanReach sampleHeap samplePlan 1 :=
    planReach_step r3 (.step (by simp [sampleHeap, Obj.children]) (.refl 1))
  have r0 : PlanReach sampleHeap samplePlan 0 :=
    planReach_step r1 (.step (by simp [sampleHeap, Obj.children]) (.refl 0))
  refine ⟨⟨fun x => match x with | 0 => 0 | 1 => 2 | 2 => 1 | x => x, ?_⟩, ?_, ?_, ?_⟩
  · intro x y hy
    match x with
    | 0 => simp [sampleHeap, Obj.children] at hy
    | 1 =>
      simp only [sampleHeap, Obj.children] at hy
      simp at hy
      rcases hy with rfl | rfl <;> simp
    | 2 => simp [sampleHeap, Obj.children] at hy; subst hy; simp
    | 3 => simp [sampleHeap, Obj.children] at hy; subst hy; simp
    | _ + 4 => simp [sampleHeap, Obj.children] at hy
  · intro x y _ _ hx hy hn
    rcases sample_nodes x hx with rfl | rfl <;> rcases sample_nodes y hy with rfl | rfl
    · rfl
    · simp [sampleHeap] at hn
    · simp [sampleHeap] at hn
    · rfl
  · intro x _ f hf href i hi
    match x with
    | 0 => simp [sampleHeap] at hf; subst hf; cases href
    | 1 =>
      simp [sampleHeap] at hf
      rcases hf with rfl | rfl
      · simp at hi; subst hi; exact Or.inl ⟨0, rfl, rfl⟩
      · cases href
    | 2 => simp [sampleHeap] at hf; subst hf; simp at hi; subst hi; exact Or.inl ⟨0, rfl, rfl⟩
    | 3 =>
      simp [sampleHeap] at hf
      subst hf
      simp at hi
      rcases hi with rfl | rfl
      · exact Or.inl ⟨1, rfl, rfl⟩
      · exact Or.inr ⟨0, rfl, r0, rfl⟩
    | _ + 4 => simp [sampleHeap] at hf
  · intro x hx; simp [samplePlan] at hx

example : EqOk (fun (h : Heap Nat Unit Unit) x y => decide ((h x).name = (h y).name)) :=
  ⟨by simp, by simp⟩

/-! ### C15 for `dumps` and `loads` -/

/-- The names of the models in a text. -/
def topNames : J P I H → List Str
  | .sub _ name _ _ rest => name :: topNames rest
  | .leaf _ rest => topNames rest
  | _ => []

/-- C15: a text written by `dumps` has distinct node names. -/
theorem dumps_only_distinct (eq : Heap P I H → Nat → Nat → Bool) (fuel : Nat) (h : Heap P I H)
    (p : PlanObj) (ser : Serialised P I H) (hd : dumps eq fuel h p = some ser) :
    (topNames ser.nodes).Nodup := by
  unfold dumps at hd
  cases hl : extractList (extract eq h fuel) (p.nodes ++ p.actions) [] with
  | none => rw [hl] at hd; cases hd
  | some l =>
    rw [hl, Option.bind_some] at hd
    cases hs : iterAll (toName eq l) fuel (p.nodes ++ p.actions) ⟨h, []⟩ with
    | none => rw [hs] at hd; cases hd
    | some s =>
      rw [hs, Option.bind_some] at hd
      split at hd
      · rename_i hc
        rw [validate_names_iff_nodup] at hc
        simp only [Option.some.injEq] at hd
        rw [← hd]
        have : ∀ l : List Nat, topNames (expItems (expObj s.heap fuel) s.heap (l.map .obj)) =
            l.map (fun x => (s.heap x).name) := by
          intro l
          induction l with
          | nil => rfl
          | cons x l ih => simp [expItems, topNames, ih]
        rw [this]
        exact hc
      · cases hd

theorem setField_name (h : Heap P I H) (x k : Nat) (items : List (Item P)) (y : Nat) :
    (setField h x k items y).name = (h y).name := by
  unfold setField Heap.upd
  by_cases e : y = x
  · simp [e]
  · simp [e]

theorem iterItems_name {rec : IterSt P I H → Nat → Option (IterSt P I H)}
    (hrec : ∀ s x s', rec s x = some s' → ∀ y, (s'.heap y).name = (s.heap y).name)
    (is : List (Item P)) (s s' : IterSt P I H) (h : iterItems rec is s = some s') (y : Nat) :
    (s'.heap y).name = (s.heap y).name := by
  induction is generalizing s with
  | nil => simp only [iterItems, Option.some.injEq] at h; rw [h]
  | cons i is ih =>
    cases i with
    | obj z =>
      simp only [iterItems] at h
      obtain ⟨s1, h1, h2⟩ := Option.bind_eq_some_iff.1 h
      rw [ih s1 h2, hrec s z s1 h1]
    | prim p => exact ih s h
    | str p => exact ih s h

theorem iterFields_name {rec : IterSt P I H → Nat → Option (IterSt P I H)}
    (hrec : ∀ s x s', rec s x = some s' → ∀ y, (s'.heap y).name = (s.heap y).name)
    (pf : Heap P I H → Item P → Option (Item P)) (x : Nat) (ks : List Nat) (s s' : IterSt P I H)
    (h : iterFields rec pf x ks s = some s') (y : Nat) :
    (s'.heap y).name = (s.heap y).name := by
  induction ks generalizing s with
  | nil => simp only [iterFields, Option.some.injEq] at h; rw [h]
  | cons k ks ih =>
    rw [iterFields] at h
    split at h
    · exact ih s h
    · obtain ⟨s1, h1, h2⟩ := Option.bind_eq_some_iff.1 h
      have e1 := iterItems_name hrec _ s s1 h1 y
      split at h2
      · rw [ih s1 h2, e1]
      · split at h2
        · obtain ⟨items, _, h3⟩ := Option.bind_eq_some_iff.1 h2
          rw [ih _ h3, ← e1]
          exact setField_name _ _ _ _ _
        · rw [ih s1 h2, e1]

theorem iterObj_name (pf : Heap P I H → Item P → Option (Item P)) (n : Nat) :
    ∀ s x s', iterObj pf n s x = some s' → ∀ y, (s'.heap y).name = (s.heap y).name := by
  induction n with
  | zero => intro s x s' h; cases h
  | succ n ih =>
    intro s x s' h y
    rw [iterObj] at h
    split at h
    · simp only [Option.some.injEq] at h; rw [h]
    · exact iterFields_name ih pf x _ _ s' h y

theorem iterAll_name (pf : Heap P I H → Item P → Option (Item P)) (n : Nat) (xs : List Nat)
    (s s' : IterSt P I H) (h : iterAll pf n xs s = some s') (y : Nat) :
    (s'.heap y).name = (s.heap y).name := by
  induction xs generalizing s with
  | nil => simp only [iterAll, Option.some.injEq] at h; rw [h]
  | cons x xs ih =>
    rw [iterAll] at h
    obtain ⟨s1, h1, h2⟩ := Option.bind_eq_some_iff.1 h
    rw [ih s1 h2, iterObj_name pf n s x s1 h1]

/-- C15: a plan returned by `loads`, from whatever text, has distinct node names. -/
theorem loads_only_distinct (accept : List Int → Bool) (fuel : Nat) (empty : Obj P I H)
    (ser : Serialised P I H) (h' : Heap P I H) (p' : PlanObj)
    (hl : loads accept fuel empty ser = some (h', p')) :
    (p'.nodes.map (fun x => (h' x).name)).Nodup ∧ accept p'.version = true := by
  unfold loads at hl
  simp only at hl
  split at hl
  · rename_i hc
    rw [Bool.and_eq_true, validate_names_iff_nodup] at hc
    obtain ⟨s, hs, he⟩ := Option.bind_eq_some_iff.1 hl
    simp only [Option.some.injEq, Prod.mk.injEq] at he
    obtain ⟨e1, e2⟩ := he
    subst e1 e2
    refine ⟨?_, hc.2⟩
    have := iterAll_name _ _ _ _ _ hs
    simp only [this]
    exact hc.1
  · cases hl

end Verif.Schema
