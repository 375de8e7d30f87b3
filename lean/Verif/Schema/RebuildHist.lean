import Verif.Schema.RebuildProps
/-
C101: a plan made node by node, saved and loaded in a new process.
-/
set_option linter.unusedVariables false
set_option linter.unusedSectionVars false
set_option linter.unusedSimpArgs false
namespace Verif.Schema.Rebuild
variable {P : Type}

/-! ### Recorded calls -/

theorem keyword_mem (kw : List (Str × Arg P)) (n : Str) (a : Arg P) (h : keyword kw n = some a) :
    (n, a) ∈ kw := by
  unfold keyword at h
  obtain ⟨e, he, rfl⟩ := Option.map_eq_some_iff.1 h
  have h1 := List.mem_of_find?_eq_some he
  have h2 := List.find?_some he
  simp only [decide_eq_true_eq] at h2
  rw [← h2]; exact h1

theorem record_spec (kw : List (Str × Arg P)) (ps : List (Param P)) (pos : List (Arg P))
    (hlen : pos.length ≤ ps.length)
    (hdef : ∀ p ∈ ps.drop pos.length, (p.default.isSome || (keyword kw p.name).isSome) = true) :
    ∃ args, (record ps pos kw).filterMap (fun e => e.2.map fun a => (e.1, a)) = args ∧
      args.map Prod.fst = ps.map Param.name ∧
      ∀ (i : Nat) (p : Param P), ps[i]? = some p → ∃ a : Arg P, args[i]? = some (p.name, a) ∧
        (∀ b, pos[i]? = some b → a = b) ∧
        (pos[i]? = none → ∀ b, keyword kw p.name = some b → a = b) ∧
        (pos[i]? = none → keyword kw p.name = none → ∃ d, p.default = some d ∧ a = .val d) := by
  induction ps generalizing pos with
  | nil => exact ⟨_, rfl, by simp [record], by simp⟩
  | cons p ps ih =>
    cases pos with
    | nil =>
      obtain ⟨args, h1, h2, h3⟩ := ih [] (Nat.zero_le _) (fun q hq => hdef q (by
        simp only [List.length_nil, List.drop_zero] at hq ⊢
        simp [hq]))
      have hp := hdef p (by simp)
      obtain ⟨v, hv, hv1, hv2⟩ : ∃ v, ((keyword kw p.name).orElse fun _ => p.default.map .val) = some v ∧
          (∀ b, keyword kw p.name = some b → v = b) ∧
          (keyword kw p.name = none → ∃ d, p.default = some d ∧ v = .val d) := by
        cases hk : keyword kw p.name with
        | some b => exact ⟨b, rfl, by simp, by simp⟩
        | none =>
          rw [hk] at hp
          cases hd : p.default with
          | none => simp [hd] at hp
          | some d => exact ⟨.val d, rfl, by simp, by simp⟩
      refine ⟨(p.name, v) :: args, ?_, by simp [h2], ?_⟩
      · rw [record, hv, List.filterMap_cons_some (b := (p.name, v)) (by rfl), h1]
      · intro i q hq
        cases i with
        | zero =>
          have : p = q := by simpa using hq
          subst this
          exact ⟨v, by simp, by simp, fun _ => hv1, fun _ => hv2⟩
        | succ i => simpa using h3 i q (by simpa using hq)
    | cons a pos =>
      obtain ⟨args, h1, h2, h3⟩ := ih pos (by simpa using hlen) (fun q hq => hdef q (by simpa using hq))
      refine ⟨(p.name, a) :: args, ?_, by simp [h2], ?_⟩
      · rw [record, List.filterMap_cons_some (b := (p.name, a)) (by rfl), h1]
      · intro i q hq
        cases i with
        | zero =>
          have : p = q := by simpa using hq
          subst this
          exact ⟨a, by simp, by simp, by simp, by simp⟩
        | succ i => simpa using h3 i q (by simpa using hq)

/-- C101 (record): the recorded arguments of an accepted call are those that Python binds: by
position, else by keyword, else the default; one for every parameter. -/
theorem call_records (ps : List (Param P)) (pos : List (Arg P)) (kw : List (Str × Arg P))
    (hkw : (kw.map Prod.fst).Nodup) (args : List (Str × Arg P)) (h : callArgs ps pos kw = some args) :
    args.map Prod.fst = ps.map Param.name ∧
      ∀ (i : Nat) (p : Param P), ps[i]? = some p → ∃ a : Arg P, args[i]? = some (p.name, a) ∧
        (∀ b, pos[i]? = some b → a = b) ∧
        (pos[i]? = none → ∀ b, (p.name, b) ∈ kw → a = b) ∧
        (pos[i]? = none → (∀ b, (p.name, b) ∉ kw) → ∃ d, p.default = some d ∧ a = .val d) := by
  unfold callArgs at h
  split at h
  · rename_i hacc
    unfold accepts at hacc
    simp only [Bool.and_eq_true, decide_eq_true_eq, List.all_eq_true] at hacc
    obtain ⟨args', h1, h2, h3⟩ := record_spec kw ps pos hacc.1.1 (fun p hp => hacc.2 p hp)
    have : args' = args := by rw [← h1]; exact Option.some.inj h
    subst this
    refine ⟨h2, fun i p hp => ?_⟩
    obtain ⟨a, ha, q1, q2, q3⟩ := h3 i p hp
    refine ⟨a, ha, q1, fun hn b hb => q2 hn b ?_, fun hn hb => q3 hn ?_⟩
    · exact keyword_self kw hkw (p.name, b) hb
    · cases hk : keyword kw p.name with
      | none => rfl
      | some b => exact absurd (keyword_mem kw _ _ hk) (hb b)
  · cases h

/-- C101 (record): the call repeated with the recorded arguments as keywords, as `load` does it, has
the same arguments. -/
theorem call_again (ps : List (Param P)) (hn : (ps.map Param.name).Nodup) (pos : List (Arg P))
    (kw : List (Str × Arg P)) (args : List (Str × Arg P)) (h : callArgs ps pos kw = some args) :
    callArgs ps [] args = some args := by
  refine callArgs_self ps args ?_ hn
  unfold callArgs at h
  split at h
  · rename_i hacc
    unfold accepts at hacc
    simp only [Bool.and_eq_true, decide_eq_true_eq, List.all_eq_true] at hacc
    obtain ⟨args', h1, h2, -⟩ := record_spec kw ps pos hacc.1.1 (fun p hp => hacc.2 p hp)
    rw [← h2, ← h1, Option.some.inj h]
  · cases h

/-- Every recorded argument was passed or is plain. -/
theorem callArgs_mem (ps : List (Param P)) (pos : List (Arg P)) (kw : List (Str × Arg P))
    (args : List (Str × Arg P)) (h : callArgs ps pos kw = some args) (e : Str × Arg P) (he : e ∈ args) :
    e.2 ∈ pos ∨ (∃ k, (k, e.2) ∈ kw) ∨ ∃ p, e.2 = .val p := by
  unfold callArgs at h
  split at h
  · rename_i hacc
    unfold accepts at hacc
    simp only [Bool.and_eq_true, decide_eq_true_eq, List.all_eq_true] at hacc
    obtain ⟨args', h1, h2, h3⟩ := record_spec kw ps pos hacc.1.1 (fun p hp => hacc.2 p hp)
    have : args' = args := by rw [← h1]; exact Option.some.inj h
    subst this
    obtain ⟨i, hi⟩ := List.mem_iff_getElem?.1 he
    have hlt : i < args'.length := (List.getElem?_eq_some_iff.1 hi).1
    have hl : args'.length = ps.length := by simpa using congrArg List.length h2
    have hp : ps[i]? = some ps[i] := List.getElem?_eq_getElem (by omega)
    obtain ⟨a, ha, q1, q2, q3⟩ := h3 i _ hp
    have hea : e.2 = a := by rw [hi] at ha; rw [Option.some.inj ha]
    cases hpos : pos[i]? with
    | some b => rw [hea, q1 b hpos]; exact Or.inl (List.mem_of_getElem? hpos)
    | none =>
      cases hk : keyword kw ps[i].name with
      | some b => rw [hea, q2 hpos b hk]; exact Or.inr (Or.inl ⟨_, keyword_mem _ _ _ hk⟩)
      | none =>
        obtain ⟨d, -, hd⟩ := q3 hpos hk
        exact Or.inr (Or.inr ⟨d, by rw [hea, hd]⟩)
  · cases h

/-! ### What holds while nodes are made -/

/-- The map with all objects. -/
def tab (objs : List (Obj P)) : List (Str × Nat) := objs.zipIdx.map fun p => (p.1.name, p.2)

theorem tab_snoc (objs : List (Obj P)) (o : Obj P) :
    tab (objs ++ [o]) = tab objs ++ [(o.name, objs.length)] := by
  simp [tab, List.zipIdx_append]

theorem tab_names (objs : List (Obj P)) : (tab objs).map Prod.fst = objs.map Obj.name := by
  unfold tab
  rw [List.map_map]
  have : (Prod.fst ∘ fun p : Obj P × Nat => (p.1.name, p.2)) = Obj.name ∘ Prod.fst := rfl
  rw [this, ← List.map_map]
  congr 1
  simp

theorem tab_known (objs : List (Obj P)) (o : Obj P) (h : o ∈ objs) :
    (get (tab objs) o.name).isSome = true := by
  cases hg : get (tab objs) o.name with
  | some x => rfl
  | none =>
    have h1 : o.name ∈ (tab objs).map Prod.fst := by
      rw [tab_names]; exact List.mem_map_of_mem h
    obtain ⟨e, he, hen⟩ := List.mem_map.1 h1
    exact absurd hen ((get_none _ _).1 hg e he)

/-- The nodes of type `t` that the constructor of an object made. -/
def auxObj (lib : Lib P) (t : Str) (o : Obj P) : Nat :=
  match lib o.type with
  | none => 0
  | some c => countT t (c.aux (o.args.map fun e => (e.1, e.2.plain)))

def auxObjs (lib : Lib P) (t : Str) (os : List (Obj P)) : Nat := (os.map (auxObj lib t)).sum

theorem auxObjs_snoc (lib : Lib P) (t : Str) (os : List (Obj P)) (o : Obj P) :
    auxObjs lib t (os ++ [o]) = auxObjs lib t os + auxObj lib t o := by
  simp [auxObjs]

theorem auxObjs_split (lib : Lib P) (t : Str) (os os' : List (Obj P)) :
    auxObjs lib t os ≤ auxObjs lib t (os ++ os') := by
  simp [auxObjs]

/-- What holds of the objects made so far, `d t` being the number of nodes of type `t` already made for
the constructor that is running. -/
structure Inv (lib : Lib P) (d : Str → Nat) (st : St P) : Prop where
  map : st.map = tab st.objs
  nodup : (st.objs.map Obj.name).Nodup
  named : ∀ o ∈ st.objs, o.name ≠ []
  older : ∀ pre o post, st.objs = pre ++ o :: post → ∀ e ∈ o.args, ∀ x ∈ e.2.ids, x < pre.length
  notuple : ∀ o ∈ st.objs, ∀ e ∈ o.args, ∀ xs, e.2 ≠ .tuple xs
  cls : ∀ o ∈ st.objs, ∃ c, lib o.type = some c ∧ o.args.map Prod.fst = c.params.map Param.name
  fresh : ∀ pre o post, st.objs = pre ++ o :: post → ∀ t k, k < auxObjs lib t (pre ++ [o]) →
    ∀ o' ∈ o :: post, o'.name ≠ gen t k
  cnt : ∀ t, auxObjs lib t st.objs + d t ≤ num st.counters t
  users : ∀ o ∈ st.objs, '.' ∉ o.name ∨ ∃ t k, k < num st.counters t ∧ o.name = gen t k

theorem dot_gen (t : Str) (k : Nat) : '.' ∈ gen t k := by simp [gen]

theorem gen_inj (t t' : Str) (k k' : Nat) (h : gen t k = gen t' k') : t = t' ∧ k = k' :=
  name_injective t t' k k' h

theorem split_snoc {α : Type} (l pre post : List α) (a b : α) (h : l ++ [a] = pre ++ b :: post) :
    (pre = l ∧ b = a ∧ post = []) ∨ ∃ post', post = post' ++ [a] ∧ l = pre ++ b :: post' := by
  rcases List.eq_nil_or_concat post with rfl | ⟨post', c, rfl⟩
  · left
    have := List.append_inj' h (by simp)
    exact ⟨this.1.symm, by simpa using this.2.symm, rfl⟩
  · right
    rw [List.concat_eq_append] at h ⊢
    have h' : l ++ [a] = (pre ++ b :: post') ++ [c] := by simpa using h
    have := List.append_inj' h' (by simp)
    refine ⟨post', ?_, this.1⟩
    have hac : a = c := by simpa using this.2
    rw [hac]

/-- One more object. -/
theorem push (lib : Lib P) (d d' : Str → Nat) (st : St P) (hi : Inv lib d st) (o : Obj P)
    (c' : Counters) (hmono : ∀ t, num st.counters t ≤ num c' t)
    (hcls : ∃ c, lib o.type = some c ∧ o.args.map Prod.fst = c.params.map Param.name)
    (hids : ∀ e ∈ o.args, (∀ x ∈ e.2.ids, x < st.objs.length) ∧ ∀ xs, e.2 ≠ .tuple xs)
    (hin : ∀ x ∈ o.inputs, x < st.objs.length)
    (haux : ∀ t, auxObj lib t o ≤ d t)
    (hd' : ∀ t, auxObjs lib t st.objs + auxObj lib t o + d' t ≤ num c' t)
    (hname : (o.name ≠ [] ∧ '.' ∉ o.name ∧ ∀ q ∈ st.objs, q.name ≠ o.name) ∨
      (o.name = gen o.type (num st.counters o.type) ∧ num st.counters o.type < num c' o.type)) :
    register true o { st with counters := c' } =
      { st with objs := st.objs ++ [o], map := tab (st.objs ++ [o]), counters := c' } ∧
    Inv lib d' { st with objs := st.objs ++ [o], map := tab (st.objs ++ [o]), counters := c' } := by
  have hnew : ∀ q ∈ st.objs, q.name ≠ o.name := by
    rcases hname with h | ⟨h, -⟩
    · exact h.2.2
    · intro q hq heq
      rcases hi.users q hq with hu | ⟨t, k, hk, hg⟩
      · rw [heq, h] at hu; exact hu (dot_gen _ _)
      · obtain ⟨h1, h2⟩ := gen_inj _ _ _ _ (hg.symm.trans (heq.trans h))
        subst h1; omega
  have hno : ∀ t k, k < auxObjs lib t (st.objs ++ [o]) → o.name ≠ gen t k := by
    intro t k hk heq
    rw [auxObjs_snoc] at hk
    have h1 := hi.cnt t
    have h2 := haux t
    rcases hname with h | ⟨h, -⟩
    · rw [heq] at h; exact h.2.1 (dot_gen _ _)
    · obtain ⟨h3, h4⟩ := gen_inj _ _ _ _ (h.symm.trans heq)
      subst h3; omega
  have hne : o.name ≠ [] := by
    rcases hname with h | ⟨h, -⟩
    · exact h.1
    · rw [h]; simp [gen]
  refine ⟨?_, rfl, ?_, ?_, ?_, ?_, ?_, ?_, ?_, ?_⟩
  · show addNode (st.objs.length + 1) { st with objs := st.objs ++ [o], counters := c' } st.objs.length
      = _
    rw [addNode_new st.objs.length _ _ o (by simp) ?_, fold_known]
    · show St.mk _ (st.map ++ [(o.name, st.objs.length)]) _ _ _ = _
      rw [tab_snoc, hi.map]
    · intro y hy
      have hy' := hin y hy
      refine ⟨st.objs[y], ?_, ?_⟩
      · show (st.objs ++ [o])[y]? = _
        rw [List.getElem?_append_left hy', List.getElem?_eq_getElem hy']
      · show (get (st.map ++ [(o.name, st.objs.length)]) _).isSome = true
        have := tab_known st.objs st.objs[y] (List.getElem_mem hy')
        obtain ⟨z, hz⟩ := Option.isSome_iff_exists.1 this
        rw [hi.map, get_append_some _ _ _ z hz]; rfl
    · show get st.map o.name = none
      rw [hi.map, get_none]
      intro e he heq
      have : e.1 ∈ (tab st.objs).map Prod.fst := List.mem_map_of_mem he
      rw [tab_names] at this
      obtain ⟨q, hq, hqn⟩ := List.mem_map.1 this
      exact hnew q hq (hqn.trans heq)
  · show ((st.objs ++ [o]).map Obj.name).Nodup
    rw [List.map_append, List.nodup_append]
    refine ⟨hi.nodup, by simp, ?_⟩
    intro a ha b hb
    obtain ⟨q, hq, rfl⟩ := List.mem_map.1 ha
    have : b = o.name := by simpa using hb
    rw [this]; exact hnew q hq
  · intro q hq
    rcases List.mem_append.1 hq with hq | hq
    · exact hi.named q hq
    · have : q = o := by simpa using hq
      rw [this]; exact hne
  · intro pre q post hs
    rcases split_snoc _ _ _ _ _ hs with ⟨rfl, rfl, -⟩ | ⟨post', -, hs'⟩
    · exact fun e he => (hids e he).1
    · exact hi.older pre q post' hs'
  · intro q hq
    rcases List.mem_append.1 hq with hq | hq
    · exact hi.notuple q hq
    · have : q = o := by simpa using hq
      rw [this]; exact fun e he => (hids e he).2
  · intro q hq
    rcases List.mem_append.1 hq with hq | hq
    · exact hi.cls q hq
    · have : q = o := by simpa using hq
      rw [this]; exact hcls
  · intro pre q post hs t k hk o' ho'
    rcases split_snoc _ _ _ _ _ hs with ⟨rfl, rfl, rfl⟩ | ⟨post', rfl, hs'⟩
    · have : o' = q := by simpa using ho'
      rw [this]; exact hno t k hk
    · have hk' : k < auxObjs lib t (st.objs ++ [o]) := by
        have h1 := auxObjs_split lib t (pre ++ [q]) post'
        have h2 : pre ++ [q] ++ post' = st.objs := by rw [hs']; simp
        rw [h2] at h1
        rw [auxObjs_snoc]; omega
      have : o' ∈ q :: post' ∨ o' = o := by
        simp only [List.mem_cons, List.mem_append, List.mem_singleton, List.not_mem_nil, or_false]
          at ho' ⊢
        tauto
      rcases this with h | h
      · exact hi.fresh pre q post' hs' t k hk o' h
      · rw [h]; exact hno t k hk'
  · intro t
    show auxObjs lib t (st.objs ++ [o]) + d' t ≤ num c' t
    rw [auxObjs_snoc]; exact hd' t
  · intro q hq
    rcases List.mem_append.1 hq with hq | hq
    · rcases hi.users q hq with h | ⟨t, k, hk, hg⟩
      · exact Or.inl h
      · exact Or.inr ⟨t, k, Nat.lt_of_lt_of_le hk (hmono t), hg⟩
    · have : q = o := by simpa using hq
      rw [this]
      rcases hname with h | ⟨h, hlt⟩
      · exact Or.inl h.2.1
      · exact Or.inr ⟨_, _, hlt, h⟩

theorem makeAux_inv (lib : Lib P) (hlib : Sound lib) (t0 : Str) (c : Cls P) (hc : lib t0 = some c)
    (pl : Plain P) (l : List (Str × List (Str × P))) (hl : ∀ a ∈ l, a ∈ c.aux pl) (st : St P)
    (d : Str → Nat) (hi : Inv lib d st) :
    Inv lib (fun t => d t + countT t l) (makeAux true l st).1 ∧
    (∀ t, num st.counters t ≤ num (makeAux true l st).1.counters t) ∧
    (∃ os, (makeAux true l st).1.objs = st.objs ++ os ∧ ∀ q ∈ os, '.' ∈ q.name) ∧
    ∀ x ∈ (makeAux true l st).2, x < (makeAux true l st).1.objs.length := by
  induction l generalizing st d with
  | nil => exact ⟨by simpa [makeAux, countT] using hi, fun t => Nat.le_refl _, ⟨[], by simp [makeAux], by simp⟩,
      by simp [makeAux]⟩
  | cons a l ih =>
    obtain ⟨t, fs⟩ := a
    obtain ⟨c', hc', hk, ha, -⟩ := hlib.aux _ _ hc pl (t, fs) (hl _ (by simp))
    set o : Obj P := ⟨t, (generateName st.counters t).1, fs.map (fun f => (f.1, .val f.2)), []⟩
      with ho
    have h0 : ∀ u, auxObj lib u o = 0 := by
      intro u
      show (match lib t with
        | none => 0
        | some c => countT u (c.aux ((fs.map (fun f => (f.1, Arg.val f.2))).map
          fun e => (e.1, e.2.plain)))) = 0
      rw [hc']
      have : ((fs.map (fun f => (f.1, Arg.val f.2))).map fun e => (e.1, e.2.plain)) =
          fs.map fun e => (e.1, some e.2) := by simp [Arg.plain]
      show countT u (c'.aux _) = 0
      rw [this, ha]; rfl
    have hm : ∀ u, num st.counters u ≤ num (generateName st.counters t).2 u := by
      intro u
      rw [generate_num]
      split
      · rename_i h; subst h; omega
      · exact Nat.le_refl _
    obtain ⟨hr, hinv⟩ := push lib d (fun u => d u + countT u [(t, fs)]) st hi o
      (generateName st.counters t).2 hm ⟨c', hc', by simpa [ho, Function.comp_def] using hk⟩
      (by
        intro e he
        simp only [ho, List.mem_map] at he
        obtain ⟨f, -, rfl⟩ := he
        exact ⟨by simp [Arg.ids], by simp⟩)
      (by simp [ho]) (fun u => by rw [h0]; exact Nat.zero_le _)
      (by
        intro u
        have := hi.cnt u
        rw [h0, generate_num]
        by_cases hu : u = t
        · subst hu; simp [countT]; omega
        · rw [if_neg hu]
          have : countT u [(t, fs)] = 0 := by
            simp [countT]; exact fun h => hu h.symm
          omega)
      (Or.inr ⟨generate_name _ _, by rw [generate_num, if_pos rfl]; exact Nat.lt_succ_self _⟩)
    have hmk : makeAux true ((t, fs) :: l) st =
        ((makeAux true l (register true o { st with counters := (generateName st.counters t).2 })).1,
          st.objs.length ::
            (makeAux true l (register true o { st with counters := (generateName st.counters t).2 })).2) :=
      rfl
    rw [hmk, hr]
    obtain ⟨i1, i2, ⟨os, i3, i5⟩, i4⟩ := ih (fun a ha => hl a (by simp [ha])) _ _ hinv
    refine ⟨?_, fun u => Nat.le_trans (hm u) (i2 u), ⟨o :: os, by rw [i3]; simp, ?_⟩, ?_⟩
    · convert i1 using 1
      funext u
      have : countT u ((t, fs) :: l) = countT u [(t, fs)] + countT u l := by
        simp [countT, List.countP_cons]; omega
      omega
    · intro q hq
      rcases List.mem_cons.1 hq with rfl | hq
      · show '.' ∈ (generateName st.counters t).1
        rw [generate_name]; exact dot_gen _ _
      · exact i5 q hq
    · intro x hx
      rcases List.mem_cons.1 hx with rfl | hx
      · rw [i3]; simp
      · exact i4 x hx

/-- What holds of every plan whose nodes have been made one after the other. -/
theorem history_inv (lib : Lib P) (hlib : Sound lib) (c0 : Counters) (st : St P)
    (h : History lib c0 st) : Inv lib (fun _ => 0) st := by
  induction h with
  | start fl => exact ⟨rfl, by simp, by simp, by simp, by simp, by simp, by simp, by simp [auxObjs],
      by simp⟩
  | step st st' op hh hrun hargs hname ih =>
    unfold runOp at hrun
    cases hc : lib op.type with
    | none => rw [hc] at hrun; cases hrun
    | some c =>
      rw [hc, Option.bind_some] at hrun
      obtain ⟨args, hca, hst'⟩ := Option.map_eq_some_iff.1 hrun
      have hkeys : args.map Prod.fst = c.params.map Param.name := by
        unfold callArgs at hca
        split at hca
        · rename_i hacc
          unfold accepts at hacc
          simp only [Bool.and_eq_true, decide_eq_true_eq, List.all_eq_true] at hacc
          obtain ⟨args', h1, h2, -⟩ := record_spec op.kw c.params op.pos hacc.1.1
            (fun p hp => hacc.2 p hp)
          rw [← h2, ← h1, Option.some.inj hca]
        · cases hca
      have hids : ∀ e ∈ args, (∀ x ∈ e.2.ids, x < st.objs.length) ∧ ∀ xs, e.2 ≠ .tuple xs := by
        intro e he
        have hpl : (∃ p, e.2 = .val p) ∨ (e.2 ∈ op.pos ∨ ∃ k, (k, e.2) ∈ op.kw) := by
          rcases callArgs_mem _ _ _ _ hca e he with h | h | h
          · exact Or.inr (Or.inl h)
          · exact Or.inr (Or.inr h)
          · exact Or.inl h
        rcases hpl with ⟨p, hp⟩ | hp
        · rw [hp]; exact ⟨by simp [Arg.ids], by simp⟩
        · obtain ⟨q1, q2, q3⟩ := hargs e.2 hp
          refine ⟨?_, q3⟩
          rcases he2 : e.2 with p | y | ys | ys
          · simp [Arg.ids]
          · simpa [Arg.ids] using q1 y he2
          · simpa [Arg.ids] using q2 ys he2
          · exact absurd he2 (q3 ys)
      set pl := args.map (fun e : Str × Arg P => (e.1, e.2.plain)) with hpl
      obtain ⟨i1, i2, ⟨os, i3, i5⟩, i4⟩ := makeAux_inv lib hlib op.type c hc pl (c.aux pl)
        (fun a ha => ha) st _ ih
      set r := makeAux true (c.aux pl) st with hr
      have hlen : ∀ x, x < st.objs.length → x < r.1.objs.length := by
        intro x hx; rw [i3, List.length_append]; omega
      have hin : ∀ x ∈ c.inputs args ++ r.2, x < r.1.objs.length := by
        intro x hx
        rcases List.mem_append.1 hx with hx | hx
        · obtain ⟨e, he, hxe⟩ := hlib.inputs _ _ hc args x hx
          refine hlen x ((hids e he).1 x ?_)
          rcases h : e.2 with p | y | ys | ys <;> rw [h] at hxe <;> exact hxe
        · exact i4 x hx
      -- the name
      have key : ∀ (nm : Str) (c' : Counters), (∀ t, num r.1.counters t ≤ num c' t) →
          ((nm ≠ [] ∧ '.' ∉ nm ∧ ∀ q ∈ r.1.objs, q.name ≠ nm) ∨
            (nm = gen op.type (num r.1.counters op.type) ∧
              num r.1.counters op.type < num c' op.type)) →
          Inv lib (fun _ => 0)
            (register true ⟨op.type, nm, args, c.inputs args ++ r.2⟩ { r.1 with counters := c' }) := by
        intro nm c' hm hn
        have haux : ∀ t, auxObj lib t (⟨op.type, nm, args, c.inputs args ++ r.2⟩ : Obj P) =
            countT t (c.aux pl) := by
          intro t
          show (match lib op.type with
            | none => 0
            | some c => countT t (c.aux (args.map fun e : Str × Arg P => (e.1, e.2.plain)))) = _
          rw [hc]
        obtain ⟨h1, h2⟩ := push lib _ (fun _ => 0) r.1 i1
          (⟨op.type, nm, args, c.inputs args ++ r.2⟩ : Obj P) c' hm
          ⟨c, hc, hkeys⟩ (fun e he => ⟨fun x hx => hlen x ((hids e he).1 x hx), (hids e he).2⟩) hin
          (fun t => by rw [haux]; omega)
          (fun t => by
            have := i1.cnt t
            have := hm t
            rw [haux]; omega) hn
        rw [h1]; exact h2
      have hauto : Inv lib (fun _ => 0) (register true
          ⟨op.type, (generateName r.1.counters op.type).1, args, c.inputs args ++ r.2⟩
          { r.1 with counters := (generateName r.1.counters op.type).2 }) := by
        refine key _ _ ?_ (Or.inr ⟨generate_name _ _, ?_⟩)
        · intro u
          rw [generate_num]
          split
          · rename_i h; subst h; omega
          · exact Nat.le_refl _
        · rw [generate_num, if_pos rfl]; exact Nat.lt_succ_self _
      rw [← hst']
      cases hnm : op.name with
      | none => exact hauto
      | some n =>
        obtain ⟨n1, n2, n3⟩ := hname n hnm
        obtain ⟨ch, n', rfl⟩ := List.exists_cons_of_ne_nil n1
        refine key (ch :: n') r.1.counters (fun _ => Nat.le_refl _) (Or.inl ⟨n1, n2, ?_⟩)
        intro q hq heq
        rw [i3] at hq
        rcases List.mem_append.1 hq with hq | hq
        · exact n3 q hq heq
        · have := i5 q hq
          rw [heq] at this; exact n2 this

end Verif.Schema.Rebuild
