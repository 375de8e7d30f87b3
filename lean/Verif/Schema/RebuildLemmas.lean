import Verif.Schema.Rebuild
import Verif.Schema.NamesProps
import Mathlib.Data.List.Forall2
import Mathlib.Data.List.Nodup
/-
Lemmas about the model of `save` and `load`.
-/
set_option linter.unusedVariables false
set_option linter.unusedSectionVars false
set_option linter.unusedSimpArgs false
namespace Verif.Schema.Rebuild
variable {P : Type}

/-! ### The node map -/

theorem get_append (m e : List (Str × Nat)) (n : Str) :
    get (m ++ e) n = (get m n).or (get e n) := by
  unfold get
  rw [List.find?_append]
  cases m.find? (fun e => decide (e.1 = n)) <;> simp

theorem get_none (m : List (Str × Nat)) (n : Str) : get m n = none ↔ ∀ e ∈ m, e.1 ≠ n := by
  unfold get
  rw [Option.map_eq_none_iff, List.find?_eq_none]
  simp

theorem get_append_none (m e : List (Str × Nat)) (n : Str) (h : ∀ p ∈ e, p.1 ≠ n) :
    get (m ++ e) n = get m n := by
  rw [get_append, (get_none e n).2 h]
  cases get m n <;> rfl

theorem get_append_some (m e : List (Str × Nat)) (n : Str) (x : Nat) (h : get m n = some x) :
    get (m ++ e) n = some x := by
  rw [get_append, h]; rfl

theorem get_append_new (m e : List (Str × Nat)) (n : Str) (x : Nat) (h : get m n = none) :
    get (m ++ (n, x) :: e) n = some x := by
  rw [get_append, h]
  simp [get]

/-! ### Counters -/

/-- The next number for a type. -/
def num (c : Counters) (t : Str) : Nat := (c t).getD 0

/-- The generated name. -/
def gen (t : Str) (k : Nat) : Str := t ++ ['.'] ++ decimal k

theorem generate_name (c : Counters) (t : Str) : (generateName c t).1 = gen t (num c t) :=
  (generateName_eq c t).1

theorem generate_num (c : Counters) (t s : Str) :
    num (generateName c t).2 s = if s = t then num c t + 1 else num c s :=
  (generateName_eq c t).2 s

/-- How many of the nodes made by a constructor have type `t`. -/
def countT (t : Str) (l : List (Str × List (Str × P))) : Nat :=
  l.countP (fun a => decide (a.1 = t))

/-! ### `add_node` -/

theorem addNode_known (n : Nat) (st : St P) (x : Nat) (o : Obj P) (ho : st.objs[x]? = some o)
    (h : (get st.map o.name).isSome = true) : addNode n st x = st := by
  cases n with
  | zero => rfl
  | succ n =>
    show (match st.objs[x]? with
      | none => st
      | some o =>
        if (get st.map o.name).isSome then st
        else o.inputs.foldl (addNode n) { st with map := st.map ++ [(o.name, x)] }) = st
    rw [ho]
    simp [h]

theorem addNode_new (n : Nat) (st : St P) (x : Nat) (o : Obj P) (ho : st.objs[x]? = some o)
    (h : get st.map o.name = none) : addNode (n + 1) st x =
      o.inputs.foldl (addNode n) { st with map := st.map ++ [(o.name, x)] } := by
  show (match st.objs[x]? with
      | none => st
      | some o =>
        if (get st.map o.name).isSome then st
        else o.inputs.foldl (addNode n) { st with map := st.map ++ [(o.name, x)] }) = _
  rw [ho]
  simp [h]

/-- Nodes that the plan has already are not added again. -/
theorem fold_known (n : Nat) (st : St P) (l : List Nat)
    (h : ∀ y ∈ l, ∃ o, st.objs[y]? = some o ∧ (get st.map o.name).isSome = true) :
    l.foldl (addNode n) st = st := by
  induction l with
  | nil => rfl
  | cons y l ih =>
    obtain ⟨o, ho, hg⟩ := h y (by simp)
    rw [List.foldl_cons, addNode_known n st y o ho hg]
    exact ih fun z hz => h z (by simp [hz])

/-- A node without inputs adds at most itself. -/
theorem addNode_leaf (n : Nat) (st : St P) (x : Nat) (o : Obj P) (ho : st.objs[x]? = some o)
    (hi : o.inputs = []) : ∃ e, addNode n st x = { st with map := st.map ++ e } ∧
      ∀ p ∈ e, p.1 = o.name := by
  cases n with
  | zero => exact ⟨[], by simp [addNode], by simp⟩
  | succ n =>
    cases hg : get st.map o.name with
    | some y => exact ⟨[], by rw [addNode_known _ _ _ o ho (by simp [hg])]; simp, by simp⟩
    | none =>
      refine ⟨[(o.name, x)], ?_, by simp⟩
      rw [addNode_new n st x o ho hg, hi]
      rfl

theorem fold_leaves (n : Nat) (S : Str → Prop) (l : List Nat) (st : St P)
    (h : ∀ y ∈ l, ∃ o, st.objs[y]? = some o ∧ o.inputs = [] ∧ S o.name) :
    ∃ e, l.foldl (addNode n) st = { st with map := st.map ++ e } ∧ ∀ p ∈ e, S p.1 := by
  induction l generalizing st with
  | nil => exact ⟨[], by simp, by simp⟩
  | cons y l ih =>
    obtain ⟨o, ho, hi, hs⟩ := h y (by simp)
    obtain ⟨e, he, hn⟩ := addNode_leaf n st y o ho hi
    obtain ⟨e', he', hn'⟩ := ih { st with map := st.map ++ e }
      (fun z hz => h z (List.mem_cons_of_mem _ hz))
    refine ⟨e ++ e', ?_, ?_⟩
    · rw [List.foldl_cons, he, he']
      simp
    · intro p hp
      rcases List.mem_append.1 hp with hp | hp
      · rw [hn p hp]; exact hs
      · exact hn' p hp

/-- A node whose inputs the plan has, except for some without inputs of their own. -/
theorem addNode_step (n : Nat) (S : Str → Prop) (st : St P) (x : Nat) (o : Obj P) (ins aux : List Nat)
    (ho : st.objs[x]? = some o) (hin : o.inputs = ins ++ aux)
    (h1 : ∀ y ∈ ins, ∃ o', st.objs[y]? = some o' ∧ (get st.map o'.name).isSome = true)
    (h2 : ∀ y ∈ aux, ∃ o', st.objs[y]? = some o' ∧ o'.inputs = [] ∧ S o'.name) :
    ∃ e, addNode (n + 1) st x = { st with map := st.map ++ e } ∧
      (∀ p ∈ e, p.1 = o.name ∨ S p.1) ∧ (get (st.map ++ e) o.name).isSome = true ∧
      (get st.map o.name = none → get (st.map ++ e) o.name = some x) := by
  cases hg : get st.map o.name with
  | some y =>
    refine ⟨[], by rw [addNode_known _ _ _ o ho (by simp [hg])]; simp, by simp, by simp [hg],
      by simp⟩
  | none =>
    have hk : ins.foldl (addNode n) { st with map := st.map ++ [(o.name, x)] } =
        { st with map := st.map ++ [(o.name, x)] } := by
      apply fold_known
      intro y hy
      obtain ⟨o', ho', hs⟩ := h1 y hy
      refine ⟨o', ho', ?_⟩
      obtain ⟨z, hz⟩ := Option.isSome_iff_exists.1 hs
      show (get (st.map ++ [(o.name, x)]) o'.name).isSome = true
      rw [get_append_some _ _ _ z hz]
      rfl
    rw [addNode_new n st x o ho hg, hin, List.foldl_append, hk]
    obtain ⟨e, he, hn⟩ := fold_leaves n S aux { st with map := st.map ++ [(o.name, x)] } h2
    have hx : get (st.map ++ (o.name, x) :: e) o.name = some x := get_append_new _ _ _ _ hg
    refine ⟨(o.name, x) :: e, ?_, ?_, by rw [hx]; rfl, fun _ => hx⟩
    · rw [he]; simp
    · intro p hp
      rcases List.mem_cons.1 hp with rfl | hp
      · exact Or.inl rfl
      · exact Or.inr (hn p hp)

/-! ### Making nodes -/

/-- `k` is one of the numbers used for type `t` between two states of the counters. -/
def Between (c c' : Counters) (s : Str) : Prop :=
  ∃ t k, num c t ≤ k ∧ k < num c' t ∧ s = gen t k

theorem makeAux_spec (isDef : Bool) (l : List (Str × List (Str × P))) (st : St P) :
    ∃ os e, (makeAux isDef l st).1.objs = st.objs ++ os ∧
      (makeAux isDef l st).1.map = st.map ++ e ∧
      (makeAux isDef l st).1.visited = st.visited ∧ (makeAux isDef l st).1.filled = st.filled ∧
      (∀ t, num (makeAux isDef l st).1.counters t = num st.counters t + countT t l) ∧
      (∀ p ∈ e, Between st.counters (makeAux isDef l st).1.counters p.1) ∧
      (∀ y ∈ (makeAux isDef l st).2, ∃ o, (makeAux isDef l st).1.objs[y]? = some o ∧
        o.inputs = [] ∧ Between st.counters (makeAux isDef l st).1.counters o.name) := by
  induction l generalizing st with
  | nil => exact ⟨[], [], by simp [makeAux], by simp [makeAux], rfl, rfl, by simp [makeAux, countT],
      by simp, by simp [makeAux]⟩
  | cons a l ih =>
    obtain ⟨t, fs⟩ := a
    set o : Obj P := ⟨t, (generateName st.counters t).1, fs.map (fun f => (f.1, .val f.2)), []⟩
      with hodef
    set s0 : St P := { st with counters := (generateName st.counters t).2 } with hs0
    have hreg : ∃ e0, register isDef o s0 =
        { s0 with objs := st.objs ++ [o], map := st.map ++ e0 } ∧
        ∀ p ∈ e0, p.1 = o.name := by
      unfold register
      cases isDef with
      | false => exact ⟨[], by simp [hs0], by simp⟩
      | true =>
        obtain ⟨e, he, hn⟩ := addNode_leaf (s0.objs.length + 1) { s0 with objs := s0.objs ++ [o] }
          s0.objs.length o (by simp) rfl
        exact ⟨e, by simpa [hs0] using he, hn⟩
    obtain ⟨e0, hr, he0⟩ := hreg
    obtain ⟨os, e, h1, h2, h3, h4, h5, h6, h7⟩ := ih (register isDef o s0)
    have hm : makeAux isDef ((t, fs) :: l) st =
        ((makeAux isDef l (register isDef o s0)).1,
          st.objs.length :: (makeAux isDef l (register isDef o s0)).2) := rfl
    rw [hm]
    have hc : (register isDef o s0).counters = (generateName st.counters t).2 := by rw [hr]
    have hge : ∀ u, num st.counters u ≤ num (register isDef o s0).counters u := by
      intro u
      rw [hc, generate_num]
      split
      · rename_i h; subst h; omega
      · exact Nat.le_refl _
    have hot : Between st.counters (makeAux isDef l (register isDef o s0)).1.counters o.name := by
      refine ⟨t, num st.counters t, Nat.le_refl _, ?_, generate_name _ _⟩
      rw [h5 t, hc, generate_num, if_pos rfl]
      omega
    have hlift : ∀ s, Between (register isDef o s0).counters
        (makeAux isDef l (register isDef o s0)).1.counters s →
        Between st.counters (makeAux isDef l (register isDef o s0)).1.counters s := by
      rintro s ⟨u, k, hk1, hk2, hs⟩
      exact ⟨u, k, Nat.le_trans (hge u) hk1, hk2, hs⟩
    refine ⟨o :: os, e0 ++ e, ?_, ?_, ?_, ?_, ?_, ?_, ?_⟩
    · rw [h1, hr]; simp
    · rw [h2, hr]; simp
    · rw [h3, hr]
    · rw [h4, hr]
    · intro u
      rw [h5 u, hc, generate_num]
      unfold countT
      by_cases h : u = t
      · subst h; simp; omega
      · rw [if_neg h, List.countP_cons_of_neg (by simpa using fun h' => h h'.symm)]
    · intro p hp
      rcases List.mem_append.1 hp with hp | hp
      · rw [he0 p hp]; exact hot
      · exact hlift _ (h6 p hp)
    · intro y hy
      rcases List.mem_cons.1 hy with rfl | hy
      · refine ⟨o, ?_, rfl, hot⟩
        rw [h1, hr]
        simp
      · obtain ⟨o', ho', hi', hb'⟩ := h7 y hy
        exact ⟨o', ho', hi', hlift _ hb'⟩

/-- The nodes an argument holds. -/
def Arg.ids : Arg P → List Nat
  | .val _ => []
  | .node x => [x]
  | .nodes xs => xs
  | .tuple xs => xs

theorem getElem?_append_left' {α : Type} (l m : List α) (i : Nat) (a : α) (h : l[i]? = some a) :
    (l ++ m)[i]? = some a := by
  obtain ⟨hi, h'⟩ := List.getElem?_eq_some_iff.1 h
  rw [List.getElem?_append_left hi]
  exact h

/-- One node is made with a given name and added to the plan. -/
theorem construct_spec (c : Cls P) (isDef : Bool) (t name : Str) (args : List (Str × Arg P))
    (st : St P) (hne : name ≠ [])
    (hin : ∀ x ∈ c.inputs args, ∃ o, st.objs[x]? = some o ∧ (get st.map o.name).isSome = true)
    (hnew : get st.map name = none)
    (hfresh : ∀ u k, num st.counters u ≤ k →
      k < num st.counters u + countT u (c.aux (args.map fun e => (e.1, e.2.plain))) →
      gen u k ≠ name) :
    ∃ os e st' x, construct c isDef t (some name) args st = (st', x) ∧
      (isDef = true → get st'.map name = some x) ∧
      (∃ os', st'.objs = st.objs ++ os') ∧ (∃ e', st'.map = st.map ++ e' ∧
        ∀ p ∈ e', p.1 = name ∨ ∃ u k, num st.counters u ≤ k ∧
        k < num st.counters u + countT u (c.aux (args.map fun e => (e.1, e.2.plain))) ∧
        p.1 = gen u k) ∧ st'.visited = st.visited ∧ st'.filled = st.filled ∧
      (∀ u, num st'.counters u =
        num st.counters u + countT u (c.aux (args.map fun e => (e.1, e.2.plain)))) ∧
      (addNode (st'.objs.length + 1) st' x).objs = st.objs ++ os ∧
      (addNode (st'.objs.length + 1) st' x).map = st.map ++ e ∧
      (addNode (st'.objs.length + 1) st' x).visited = st.visited ∧
      (addNode (st'.objs.length + 1) st' x).filled = st.filled ∧
      (addNode (st'.objs.length + 1) st' x).counters = st'.counters ∧
      (∀ p ∈ e, p.1 = name ∨ ∃ u k, num st.counters u ≤ k ∧
        k < num st.counters u + countT u (c.aux (args.map fun e => (e.1, e.2.plain))) ∧
        p.1 = gen u k) ∧
      get (st.map ++ e) name = some x ∧
      ∃ ins, st'.objs[x]? = some ⟨t, name, args, ins⟩ ∧
        (addNode (st'.objs.length + 1) st' x).objs[x]? = some ⟨t, name, args, ins⟩ := by
  obtain ⟨os, e, h1, h2, h3, h4, h5, h6, h7⟩ :=
    makeAux_spec isDef (c.aux (args.map fun e => (e.1, e.2.plain))) st
  set r := makeAux isDef (c.aux (args.map fun e => (e.1, e.2.plain))) st with hr
  have hB : ∀ s, Between st.counters r.1.counters s → ∃ u k, num st.counters u ≤ k ∧
      k < num st.counters u + countT u (c.aux (args.map fun e => (e.1, e.2.plain))) ∧
      s = gen u k := by
    rintro s ⟨u, k, hk1, hk2, hs⟩
    exact ⟨u, k, hk1, by rw [← h5 u]; exact hk2, hs⟩
  have hBn : ∀ s, Between st.counters r.1.counters s → s ≠ name := by
    rintro s hs
    obtain ⟨u, k, hk1, hk2, rfl⟩ := hB s hs
    exact hfresh u k hk1 hk2
  obtain ⟨ch, n', rfl⟩ := List.exists_cons_of_ne_nil hne
  set o : Obj P := ⟨t, ch :: n', args, c.inputs args ++ r.2⟩ with ho
  have hcon : construct c isDef t (some (ch :: n')) args st = (register isDef o r.1, r.1.objs.length) :=
    rfl
  set s1 : St P := { r.1 with objs := r.1.objs ++ [o] } with hs1
  have hox : s1.objs[r.1.objs.length]? = some o := by simp [hs1]
  have hnone : get s1.map o.name = none := by
    show get r.1.map (ch :: n') = none
    rw [h2, get_append_none _ _ _ (fun p hp => hBn _ (h6 p hp))]
    exact hnew
  have hI1 : ∀ y ∈ c.inputs args, ∃ o', s1.objs[y]? = some o' ∧ (get s1.map o'.name).isSome = true := by
    intro y hy
    obtain ⟨o', ho', hs⟩ := hin y hy
    obtain ⟨z, hz⟩ := Option.isSome_iff_exists.1 hs
    refine ⟨o', ?_, ?_⟩
    · show (r.1.objs ++ [o])[y]? = some o'
      rw [h1]
      exact getElem?_append_left' _ _ _ _ (getElem?_append_left' _ _ _ _ ho')
    · show (get r.1.map o'.name).isSome = true
      rw [h2, get_append_some _ _ _ z hz]; rfl
  have hI2 : ∀ y ∈ r.2, ∃ o', s1.objs[y]? = some o' ∧ o'.inputs = [] ∧
      Between st.counters r.1.counters o'.name := by
    intro y hy
    obtain ⟨o', ho', hi', hb'⟩ := h7 y hy
    exact ⟨o', getElem?_append_left' _ _ _ _ ho', hi', hb'⟩
  have hadd : ∀ n, ∃ e1, addNode (n + 1) s1 r.1.objs.length = { s1 with map := s1.map ++ e1 } ∧
      (∀ p ∈ e1, p.1 = o.name ∨ Between st.counters r.1.counters p.1) ∧
      get (s1.map ++ e1) o.name = some r.1.objs.length := by
    intro n
    obtain ⟨e1, ha, hb, -, hd⟩ := addNode_step n _ s1 r.1.objs.length o (c.inputs args) r.2 hox rfl
      hI1 hI2
    exact ⟨e1, ha, hb, hd hnone⟩
  cases isDef with
  | true =>
    obtain ⟨e1, ha, hb, hd⟩ := hadd r.1.objs.length
    have hreg : register true o r.1 = { s1 with map := s1.map ++ e1 } := by
      rw [← ha]; rfl
    rw [hcon, hreg]
    have hkn : ∀ n, addNode n { s1 with map := s1.map ++ e1 } r.1.objs.length =
        { s1 with map := s1.map ++ e1 } := fun n =>
      addNode_known n _ _ o hox (by show (get (s1.map ++ e1) o.name).isSome = true; rw [hd]; rfl)
    have hmap : s1.map ++ e1 = st.map ++ (e ++ e1) := by
      show r.1.map ++ e1 = _
      rw [h2]; simp
    have hmem : ∀ p ∈ e ++ e1, p.1 = ch :: n' ∨ ∃ u k, num st.counters u ≤ k ∧
        k < num st.counters u + countT u (c.aux (args.map fun e => (e.1, e.2.plain))) ∧
        p.1 = gen u k := by
      intro p hp
      rcases List.mem_append.1 hp with hp | hp
      · exact Or.inr (hB _ (h6 p hp))
      · rcases hb p hp with h | h
        · exact Or.inl h
        · exact Or.inr (hB _ h)
    refine ⟨os ++ [o], e ++ e1, _, _, rfl, fun _ => hd, ⟨os ++ [o], by simp [hs1, h1]⟩,
      ⟨e ++ e1, hmap, hmem⟩, h3, h4, h5, ?_, ?_, ?_, ?_, ?_, hmem, ?_, ?_⟩
    · rw [hkn]; simp [hs1, h1]
    · rw [hkn]; exact hmap
    · rw [hkn]; exact h3
    · rw [hkn]; exact h4
    · rw [hkn]
    · rw [← hmap]; exact hd
    · exact ⟨_, hox, by rw [hkn]; exact hox⟩
  | false =>
    have hreg : register false o r.1 = s1 := rfl
    rw [hcon, hreg]
    obtain ⟨e1, ha, hb, hd⟩ := hadd s1.objs.length
    have hmap : s1.map ++ e1 = st.map ++ (e ++ e1) := by
      show r.1.map ++ e1 = _
      rw [h2]; simp
    refine ⟨os ++ [o], e ++ e1, _, _, rfl, by simp, ⟨os ++ [o], by simp [hs1, h1]⟩,
      ⟨e, h2, fun p hp => Or.inr (hB _ (h6 p hp))⟩, h3, h4, h5, ?_, ?_, ?_, ?_, ?_, ?_, ?_, ?_⟩
    · rw [ha]; simp [hs1, h1]
    · rw [ha]; exact hmap
    · rw [ha]; exact h3
    · rw [ha]; exact h4
    · rw [ha]
    · intro p hp
      rcases List.mem_append.1 hp with hp | hp
      · exact Or.inr (hB _ (h6 p hp))
      · rcases hb p hp with h | h
        · exact Or.inl h
        · exact Or.inr (hB _ h)
    · rw [← hmap]; exact hd
    · exact ⟨_, hox, by rw [ha]; exact hox⟩

/-! ### Recorded calls -/

theorem keyword_self (l : List (Str × Arg P)) (h : (l.map Prod.fst).Nodup) (e : Str × Arg P)
    (he : e ∈ l) : keyword l e.1 = some e.2 := by
  induction l with
  | nil => cases he
  | cons a l ih =>
    simp only [List.map_cons, List.nodup_cons] at h
    unfold keyword
    rcases List.mem_cons.1 he with rfl | he'
    · simp
    · have hne : a.1 ≠ e.1 := fun h' => h.1 (by rw [h']; exact List.mem_map_of_mem he')
      rw [List.find?_cons_of_neg (by simpa using hne)]
      exact ih h.2 he'

theorem record_keywords (kw : List (Str × Arg P)) (ps : List (Param P))
    (f : Param P → Arg P) (h : ∀ p ∈ ps, keyword kw p.name = some (f p)) :
    record ps [] kw = ps.map fun p => (p.name, some (f p)) := by
  induction ps with
  | nil => rfl
  | cons p ps ih =>
    rw [record, h p (by simp), ih fun q hq => h q (by simp [hq])]
    rfl

/-- Calling with all arguments as keywords records them again. -/
theorem callArgs_self (ps : List (Param P)) (l : List (Str × Arg P))
    (hk : l.map Prod.fst = ps.map Param.name) (hn : (ps.map Param.name).Nodup) :
    callArgs ps [] l = some l := by
  have hl : (l.map Prod.fst).Nodup := by rw [hk]; exact hn
  have hkey : ∀ p ∈ ps, ∃ a, (p.name, a) ∈ l ∧ keyword l p.name = some a := by
    intro p hp
    have : p.name ∈ l.map Prod.fst := by rw [hk]; exact List.mem_map_of_mem hp
    obtain ⟨e, he, hen⟩ := List.mem_map.1 this
    exact ⟨e.2, by rw [← hen]; exact he, by rw [← hen]; exact keyword_self l hl e he⟩
  have hacc : accepts ps [] l = true := by
    unfold accepts
    simp only [List.length_nil, Nat.zero_le, decide_true, List.drop_zero, Bool.true_and,
      Bool.and_eq_true, List.all_eq_true]
    refine ⟨fun e he => ?_, fun p hp => ?_⟩
    · rw [List.contains_iff_mem, ← hk]; exact List.mem_map_of_mem he
    · obtain ⟨a, -, ha⟩ := hkey p hp
      simp [ha]
  unfold callArgs
  rw [if_pos hacc]
  -- by induction on the two lists, keeping the whole keyword list
  have gen : ∀ (kw : List (Str × Arg P)), (kw.map Prod.fst).Nodup → ∀ (qs : List (Param P))
      (m : List (Str × Arg P)), m.map Prod.fst = qs.map Param.name → (∀ e ∈ m, e ∈ kw) →
      (record qs [] kw).filterMap (fun e => e.2.map fun a => (e.1, a)) = m := by
    intro kw hkw qs
    induction qs with
    | nil =>
      intro m hm _
      simp only [List.map_nil, List.map_eq_nil_iff] at hm
      subst hm; rfl
    | cons q qs ih =>
      intro m hm hsub
      cases m with
      | nil => simp at hm
      | cons e m =>
        simp only [List.map_cons, List.cons.injEq] at hm
        have hq : keyword kw q.name = some e.2 := by
          rw [← hm.1]; exact keyword_self kw hkw e (hsub e (by simp))
        rw [record, hq]
        simp only [Option.orElse_some]
        rw [List.filterMap_cons_some (b := (q.name, e.2)) (by rfl),
          ih m hm.2 (fun x hx => hsub x (by simp [hx])), ← hm.1]
  rw [gen l hl ps l hk (fun e he => he)]

end Verif.Schema.Rebuild
