import Verif.Schema.RebuildSpec
import Verif.Schema.RebuildLemmas
/-
C101: saving a plan and loading it makes its nodes again.
-/
set_option linter.unusedVariables false
set_option linter.unusedSectionVars false
set_option linter.unusedSimpArgs false
namespace Verif.Schema.Rebuild
variable {P : Type}

/-! ### Helpers -/

theorem model_mem (file : List (SNode P)) (hn : (file.map SNode.name).Nodup) (m : SNode P)
    (hm : m ∈ file) : model file m.name = some m := by
  induction file with
  | nil => cases hm
  | cons a l ih =>
    simp only [List.map_cons, List.nodup_cons] at hn
    unfold model
    rcases List.mem_cons.1 hm with rfl | hm'
    · simp
    · have hne : a.name ≠ m.name := fun h' => hn.1 (by rw [h']; exact List.mem_map_of_mem hm')
      rw [List.find?_cons_of_neg (by simpa using hne)]
      exact ih hn.2 hm'

theorem iterKids_same (rec : St P → Str → Option (St P)) (cs : List Str) (st : St P)
    (h : ∀ c ∈ cs, rec st c = some st) : iterKids rec cs st = some st := by
  induction cs with
  | nil => rfl
  | cons c cs ih =>
    rw [iterKids, h c (by simp)]
    exact ih fun d hd => h d (by simp [hd])

theorem makeKids_same (mk : St P → Str → Option (St P × Nat)) (look : Str → Option Nat)
    (cs : List Str) (st : St P) (h : ∀ c ∈ cs, ∃ x, look c = some x ∧ mk st c = some (st, x)) :
    ∃ xs, makeKids mk cs st = some (st, xs) ∧ cs.map look = xs.map some := by
  induction cs with
  | nil => exact ⟨[], rfl, rfl⟩
  | cons c cs ih =>
    obtain ⟨x, hx, hmk⟩ := h c (by simp)
    obtain ⟨xs, hxs, hl⟩ := ih fun d hd => h d (by simp [hd])
    refine ⟨x :: xs, ?_, by simp [hx, hl]⟩
    rw [makeKids, hmk]
    simp [hxs]

/-- Filling in the nodes that a list of names stands for. -/
theorem fill_matches (look : Str → Option Nat) (a : SArg P) (xs : List Nat)
    (h : a.kids.map look = xs.map some) :
    Matches look a (a.fill xs) ∧ (a.fill xs).plain = a.plain ∧ (a.fill xs).ids = xs ∨
    ∃ p, a = .val p ∧ Matches look a (a.fill xs) ∧ (a.fill xs).plain = a.plain ∧
      (a.fill xs).ids = [] := by
  cases a with
  | val p => exact Or.inr ⟨p, rfl, rfl, rfl, rfl⟩
  | ref c =>
    cases xs with
    | nil => simp [SArg.kids] at h
    | cons x xs =>
      simp only [SArg.kids, List.map_cons, List.map_nil, List.cons.injEq] at h
      have : xs = [] := by simpa using h.2.symm
      subst this
      exact Or.inl ⟨h.1, rfl, rfl⟩
  | refs cs => exact Or.inl ⟨h, rfl, rfl⟩

theorem fieldLoop_same (rec : St P → Str → Option (St P)) (mk : St P → Str → Option (St P × Nat))
    (look : Str → Option Nat) (fs : List (Str × SArg P)) (st : St P)
    (h : ∀ f ∈ fs, ∀ c ∈ f.2.kids, rec st c = some st ∧
      ∃ x, look c = some x ∧ mk st c = some (st, x)) :
    ∃ as, fieldLoop rec mk fs st = some (st, as) ∧
      List.Forall₂ (fun f a => a.1 = f.1 ∧ Matches look f.2 a.2) fs as ∧
      as.map Prod.fst = fs.map Prod.fst ∧
      (as.map fun e => (e.1, e.2.plain)) = (fs.map fun e => (e.1, e.2.plain)) ∧
      ∀ a ∈ as, ∀ x ∈ a.2.ids, ∃ f ∈ fs, ∃ c ∈ f.2.kids, look c = some x := by
  induction fs with
  | nil => exact ⟨[], rfl, .nil, rfl, rfl, by simp⟩
  | cons f fs ih =>
    obtain ⟨k, a⟩ := f
    obtain ⟨as, h1, h2, h3, h4, h5⟩ := ih fun g hg => h g (by simp [hg])
    have h0 := h (k, a) (by simp)
    obtain ⟨xs, hx, hl⟩ := makeKids_same mk look a.kids st fun c hc => (h0 c hc).2
    have hm : Matches look a (a.fill xs) ∧ (a.fill xs).plain = a.plain ∧
        ∀ x ∈ (a.fill xs).ids, x ∈ xs := by
      rcases fill_matches look a xs hl with ⟨p, q, r⟩ | ⟨_, _, p, q, r⟩
      · exact ⟨p, q, by rw [r]; exact fun x hx => hx⟩
      · exact ⟨p, q, by rw [r]; simp⟩
    refine ⟨(k, a.fill xs) :: as, ?_, .cons ⟨rfl, hm.1⟩ h2, by simp [h3], ?_, ?_⟩
    · rw [fieldLoop, iterKids_same rec a.kids st fun c hc => (h0 c hc).1]
      simp only [Option.bind_some, hx, h1, Option.map_some]
    · rw [List.map_cons, List.map_cons, h4, hm.2.1]
    · intro b hb x hxb
      rcases List.mem_cons.1 hb with rfl | hb
      · have hxx := hm.2.2 x hxb
        have : some x ∈ a.kids.map look := by rw [hl]; exact List.mem_map_of_mem hxx
        obtain ⟨c, hc, hcx⟩ := List.mem_map.1 this
        exact ⟨(k, a), by simp, c, hc, hcx⟩
      · obtain ⟨f, hf, c, hc, hcx⟩ := h5 b hb x hxb
        exact ⟨f, by simp [hf], c, hc, hcx⟩

theorem Matches.mono {look look' : Str → Option Nat} {s : SArg P} {a : Arg P}
    (h : Matches look s a) (hl : ∀ c x, look c = some x → look' c = some x) : Matches look' s a := by
  cases s <;> cases a <;> try exact h
  · exact hl _ _ h
  · rename_i cs xs
    show cs.map look' = xs.map some
    have h' : cs.map look = xs.map some := h
    clear h
    induction cs generalizing xs with
    | nil => simpa using h'
    | cons c cs ih =>
      cases xs with
      | nil => simp at h'
      | cons x xs =>
        simp only [List.map_cons, List.cons.injEq] at h' ⊢
        exact ⟨hl _ _ h'.1, ih xs h'.2⟩

theorem Is.mono {look look' : Str → Option Nat} {m : SNode P} {o : Obj P}
    (h : Is look m o) (hl : ∀ c x, look c = some x → look' c = some x) : Is look' m o :=
  ⟨h.type, h.name, h.args.imp fun f a hfa => ⟨hfa.1, hfa.2.mono hl⟩⟩

theorem auxOf_append (lib : Lib P) (t : Str) (l l' : List (SNode P)) :
    auxOf lib t (l ++ l') = auxOf lib t l + auxOf lib t l' := by
  simp [auxOf]

theorem auxOf_single (lib : Lib P) (t : Str) (m : SNode P) (c : Cls P) (h : lib m.type = some c) :
    auxOf lib t [m] = countT t (c.aux (m.fields.map fun e => (e.1, e.2.plain))) := by
  simp [auxOf, h, countT]

/-! ### Loading in the order of the file -/

/-- The nodes of `pre` have been made, those of `post` have not. -/
structure Done (lib : Lib P) (c0 : Counters) (pre post : List (SNode P)) (st : St P) : Prop where
  made : ∀ m ∈ pre, m.name ∈ st.visited ∧
    ∃ x o, get st.map m.name = some x ∧ st.objs[x]? = some o ∧ Is (get st.map) m o
  open_ : ∀ m ∈ post, m.name ∉ st.visited ∧ get st.map m.name = none
  counters : ∀ t, num st.counters t = num c0 t + auxOf lib t pre

theorem load_step (lib : Lib P) (hlib : Sound lib) (isDef : Bool) (c0 : Counters)
    (file pre post : List (SNode P)) (m : SNode P) (hf : file = pre ++ m :: post)
    (hr : Readable lib file)
    (hrefs : ∀ f ∈ m.fields, ∀ c ∈ f.2.kids, ∃ m' ∈ pre, m'.name = c)
    (hfresh : ∀ t k, num c0 t ≤ k → k < num c0 t + auxOf lib t (pre ++ [m]) →
      ∀ m' ∈ m :: post, m'.name ≠ gen t k)
    (fuel : Nat) (st : St P) (hd : Done lib c0 pre (m :: post) st) :
    ∃ r, createNode lib isDef file (fuel + 3) st m.name = some r ∧
      Done lib c0 (pre ++ [m]) post (addNode (r.1.objs.length + 1) r.1 r.2) := by
  have hmem : m ∈ file := by rw [hf]; simp
  have hpre : ∀ q ∈ pre, q ∈ file := fun q hq => by rw [hf]; simp [hq]
  have hmod := model_mem file hr.names m hmem
  obtain ⟨hmv, hmg⟩ := hd.open_ m (by simp)
  obtain ⟨c, hc, hkeys, hreb⟩ := hr.classes m hmem
  set s0 : St P := { st with visited := m.name :: st.visited } with hs0
  obtain ⟨as, h1, h2, h3, h4, h5⟩ := fieldLoop_same
    (fun s c => iterNode lib isDef file (fuel + 1) s c)
    (fun s c => createNode lib isDef file (fuel + 1) s c) (get st.map) m.fields s0 (by
      intro f hf' c' hc'
      obtain ⟨q, hq, rfl⟩ := hrefs f hf' c' hc'
      obtain ⟨hqv, x, o, hx, ho, his⟩ := hd.made q hq
      have hq' := model_mem file hr.names q (hpre q hq)
      refine ⟨?_, x, hx, ?_⟩
      · show iterNode lib isDef file (fuel + 1) s0 q.name = some s0
        rw [iterNode, hq', Option.bind_some, if_pos (by simp [hs0, hqv])]
      · show createNode lib isDef file (fuel + 1) s0 q.name = some (s0, x)
        rw [createNode, hq', Option.bind_some]
        show (match get st.map q.name with
          | some x => some (s0, x)
          | none => _) = _
        rw [hx])
  set s1 : St P := { s0 with filled := fun y => if y = m.name then as else s0.filled y } with hs1
  have hiter : iterNode lib isDef file (fuel + 2) st m.name = some s1 := by
    rw [iterNode, hmod, Option.bind_some, if_neg hmv, h1]
    rfl
  have hcall : callArgs c.params [] as = some as :=
    callArgs_self c.params as (h3.trans hkeys) (hlib.params _ _ hc)
  have hcreate : createNode lib isDef file (fuel + 3) st m.name =
      some (construct c isDef m.type (some m.name) as s1) := by
    have hfill : s1.filled m.name = as := by simp [hs1]
    rw [createNode, hmod, Option.bind_some, hmg]
    simp only [hiter, Option.bind_some, hc, hfill, hcall, h4, hreb, if_true]
  have hin : ∀ x ∈ c.inputs as, ∃ o, s1.objs[x]? = some o ∧ (get s1.map o.name).isSome = true := by
    intro x hx
    obtain ⟨e, he, hxe⟩ := hlib.inputs _ _ hc as x hx
    have hxi : x ∈ e.2.ids := by
      rcases h : e.2 with p | y | ys | ys <;> rw [h] at hxe <;> exact hxe
    obtain ⟨f, hf', c', hc', hl⟩ := h5 e he x hxi
    obtain ⟨q, hq, rfl⟩ := hrefs f hf' c' hc'
    obtain ⟨_, y, o, hy, ho, his⟩ := hd.made q hq
    have : y = x := by rw [hy] at hl; exact Option.some.inj hl
    subst this
    exact ⟨o, ho, by show (get st.map o.name).isSome = true; rw [his.name, hy]; rfl⟩
  have hcnt : ∀ u, num s1.counters u + countT u (c.aux (as.map fun e => (e.1, e.2.plain))) =
      num c0 u + auxOf lib u (pre ++ [m]) := by
    intro u
    have := hd.counters u
    rw [h4, auxOf_append, auxOf_single lib u m c hc]
    show num st.counters u + _ = _
    rw [this]
    omega
  have hge : ∀ u, num c0 u ≤ num s1.counters u := by
    intro u
    have := hd.counters u
    show _ ≤ num st.counters u
    omega
  obtain ⟨os, e, st', x, k1, -, -, -, -, -, k2, k3, k4, k5, k6, k7, k8, k9, ins, k10, k11⟩ :=
    construct_spec c isDef m.type m.name as s1 (hr.named m hmem) hin hmg (by
      intro u k hk1 hk2
      rw [hcnt u] at hk2
      exact fun h => hfresh u k (Nat.le_trans (hge u) hk1) hk2 m (by simp) h.symm)
  refine ⟨(st', x), by rw [hcreate, k1], ?_⟩
  show Done lib c0 (pre ++ [m]) post (addNode (st'.objs.length + 1) st' x)
  have hnames : ∀ p ∈ e, ∀ m' ∈ post, p.1 ≠ m'.name := by
    intro p hp m' hm' heq
    rcases k8 p hp with h | ⟨u, k, hk1, hk2, h⟩
    · have hnd := hr.names
      rw [hf, List.map_append, List.map_cons] at hnd
      have := (List.nodup_append.1 hnd).2.1
      rw [List.nodup_cons] at this
      exact this.1 (by rw [← h, heq]; exact List.mem_map_of_mem hm')
    · rw [hcnt u] at hk2
      exact hfresh u k (Nat.le_trans (hge u) hk1) hk2 m' (by simp [hm']) (by rw [← heq, h])
  have hlook : ∀ c y, get st.map c = some y → get (st.map ++ e) c = some y :=
    fun c y h => get_append_some _ _ _ _ h
  refine ⟨?_, ?_, ?_⟩
  · intro q hq
    rw [k5, k4]
    rcases List.mem_append.1 hq with hq | hq
    · obtain ⟨hqv, y, o, hy, ho, his⟩ := hd.made q hq
      refine ⟨by show q.name ∈ m.name :: st.visited; simp [hqv], y, o, hlook _ _ hy, ?_,
        his.mono hlook⟩
      rw [k3]
      exact getElem?_append_left' _ _ _ _ ho
    · have : q = m := by simpa using hq
      subst this
      refine ⟨by show q.name ∈ q.name :: st.visited; simp, x, _, k9, k11, rfl, rfl, ?_⟩
      exact h2.imp fun f a hfa => ⟨hfa.1, hfa.2.mono hlook⟩
  · intro q hq
    rw [k5, k4]
    obtain ⟨hqv, hqg⟩ := hd.open_ q (by simp [hq])
    refine ⟨?_, ?_⟩
    · show q.name ∉ m.name :: st.visited
      rw [List.mem_cons, not_or]
      refine ⟨fun heq => ?_, hqv⟩
      have hnd := hr.names
      rw [hf, List.map_append, List.map_cons] at hnd
      have := (List.nodup_append.1 hnd).2.1
      rw [List.nodup_cons] at this
      exact this.1 (by rw [← heq]; exact List.mem_map_of_mem hq)
    · show get (st.map ++ e) q.name = none
      rw [get_append_none _ _ _ (fun p hp => hnames p hp q hq)]
      exact hqg
  · intro u
    rw [k7, k2 u, hcnt u]

theorem loadAll_done (lib : Lib P) (hlib : Sound lib) (isDef : Bool) (c0 : Counters)
    (file : List (SNode P)) (hr : Readable lib file) (fuel : Nat)
    (hrefs : ∀ pre m post, file = pre ++ m :: post → ∀ f ∈ m.fields, ∀ c ∈ f.2.kids,
      ∃ m' ∈ pre, m'.name = c)
    (hfresh : ∀ pre m post, file = pre ++ m :: post → ∀ t k, num c0 t ≤ k →
      k < num c0 t + auxOf lib t (pre ++ [m]) → ∀ m' ∈ m :: post, m'.name ≠ gen t k)
    (post pre : List (SNode P)) (hf : file = pre ++ post) (st : St P)
    (hd : Done lib c0 pre post st) :
    ∃ st', loadAll lib isDef file (fuel + 3) (post.map SNode.name) st = some st' ∧
      Done lib c0 file [] st' := by
  induction post generalizing pre st with
  | nil =>
    refine ⟨st, rfl, ?_⟩
    rw [hf, List.append_nil]; exact hd
  | cons m post ih =>
    obtain ⟨r, h1, h2⟩ := load_step lib hlib isDef c0 file pre post m hf hr
      (hrefs pre m post hf) (hfresh pre m post hf) fuel st hd
    obtain ⟨st', h3, h4⟩ := ih (pre ++ [m]) (by rw [hf]; simp) _ h2
    refine ⟨st', ?_, h4⟩
    rw [List.map_cons, loadAll, h1]
    exact h3

/-- C101 (part): loading a file in which every node comes after the nodes it refers to makes every
node again, whether or not the plan is the current plan, provided the names that constructors
generate for nodes of their own (numbered from the state `counters` of this process) are not names
of nodes of the file that are still to be made. -/
theorem load_in_order_partial (lib : Lib P) (hlib : Sound lib) (isDef : Bool) (counters : Counters)
    (file : List (SNode P)) (hr : Readable lib file)
    (hrefs : ∀ pre m post, file = pre ++ m :: post → ∀ f ∈ m.fields, ∀ c ∈ f.2.kids,
      ∃ m' ∈ pre, m'.name = c)
    (hfresh : ∀ pre m post, file = pre ++ m :: post → ∀ t k, (counters t).getD 0 ≤ k →
      k < (counters t).getD 0 + auxOf lib t (pre ++ [m]) →
      ∀ m' ∈ m :: post, m'.name ≠ t ++ ['.'] ++ decimal k)
    (fuel : Nat) (hfuel : 3 ≤ fuel) :
    ∃ st, load lib isDef counters fuel file = some st ∧ Rebuilt file st := by
  obtain ⟨n, rfl⟩ : ∃ n, fuel = n + 3 := ⟨fuel - 3, by omega⟩
  obtain ⟨st', h1, h2⟩ := loadAll_done lib hlib isDef counters file hr n hrefs hfresh file [] rfl
    ⟨[], [], counters, [], fun _ => []⟩
    ⟨by simp, by simp [get], by simp [auxOf]⟩
  exact ⟨st', h1, fun m hm => (h2.made m hm).2⟩

end Verif.Schema.Rebuild
