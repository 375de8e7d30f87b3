import Verif.Schema.RebuildHist
/-
C101: a plan is saved and loaded in a new process.
-/
set_option linter.unusedVariables false
set_option linter.unusedSectionVars false
set_option linter.unusedSimpArgs false
namespace Verif.Schema.Rebuild
variable {P : Type}

theorem allSome_map {α β : Type} (f : α → Option β) (l : List α) (bs : List β) :
    allSome (l.map f) = some bs ↔ List.Forall₂ (fun a b => f a = some b) l bs := by
  induction l generalizing bs with
  | nil =>
    constructor
    · intro h
      have : bs = [] := by simpa [allSome] using h.symm
      rw [this]; exact List.Forall₂.nil
    · intro h; cases h; rfl
  | cons a l ih =>
    cases hf : f a with
    | none =>
      constructor
      · intro h; simp [allSome, hf] at h
      · intro h; cases h with | cons h _ => rw [hf] at h; cases h
    | some b =>
      constructor
      · intro h
        simp only [List.map_cons, hf, allSome, Option.map_eq_some_iff] at h
        obtain ⟨bs', h1, rfl⟩ := h
        exact List.Forall₂.cons hf ((ih bs').1 h1)
      · intro h
        cases h with
        | cons h1 h2 =>
          rw [hf] at h1
          simp only [List.map_cons, hf, allSome, (ih _).2 h2, Option.map_some, Option.some.inj h1]

theorem allSome_ex {α β : Type} (f : α → Option β) (l : List α) (h : ∀ a ∈ l, ∃ b, f a = some b) :
    ∃ bs, allSome (l.map f) = some bs := by
  induction l with
  | nil => exact ⟨[], rfl⟩
  | cons a l ih =>
    obtain ⟨b, hb⟩ := h a (by simp)
    obtain ⟨bs, hbs⟩ := ih fun a ha => h a (by simp [ha])
    exact ⟨b :: bs, by simp [allSome, hb, hbs]⟩

theorem forall₂_trans {α β γ : Type} {R : α → β → Prop} {S : β → γ → Prop} {T : α → γ → Prop}
    (h : ∀ a b c, R a b → S b c → T a c) {l : List α} {m : List β} {n : List γ}
    (h1 : List.Forall₂ R l m) (h2 : List.Forall₂ S m n) : List.Forall₂ T l n := by
  induction h1 generalizing n with
  | nil => cases h2; exact List.Forall₂.nil
  | cons hab _ ih => cases h2 with | cons hbc h3 => exact List.Forall₂.cons (h _ _ _ hab hbc) (ih h3)

theorem forall₂_split {α β : Type} {R : α → β → Prop} {l : List α} {pre : List β} {b : β}
    {post : List β} (h : List.Forall₂ R l (pre ++ b :: post)) :
    ∃ pre' a post', l = pre' ++ a :: post' ∧ List.Forall₂ R pre' pre ∧ R a b ∧
      List.Forall₂ R post' post := by
  induction pre generalizing l with
  | nil => cases h with | cons h1 h2 => exact ⟨[], _, _, rfl, List.Forall₂.nil, h1, h2⟩
  | cons c pre ih =>
    cases h with
    | cons h1 h2 =>
      obtain ⟨pre', a, post', rfl, q1, q2, q3⟩ := ih h2
      exact ⟨_ :: pre', a, post', rfl, List.Forall₂.cons h1 q1, q2, q3⟩

theorem forall₂_mem {α β : Type} {R : α → β → Prop} {l : List α} {m : List β}
    (h : List.Forall₂ R l m) (b : β) (hb : b ∈ m) : ∃ a ∈ l, R a b := by
  induction h with
  | nil => cases hb
  | cons h1 _ ih =>
    rcases List.mem_cons.1 hb with rfl | hb
    · exact ⟨_, by simp, h1⟩
    · obtain ⟨a, ha, hr⟩ := ih hb; exact ⟨a, by simp [ha], hr⟩

theorem forall₂_mem' {α β : Type} {R : α → β → Prop} {l : List α} {m : List β}
    (h : List.Forall₂ R l m) (a : α) (ha : a ∈ l) : ∃ b ∈ m, R a b := by
  induction h with
  | nil => cases ha
  | cons h1 _ ih =>
    rcases List.mem_cons.1 ha with rfl | ha
    · exact ⟨_, by simp, h1⟩
    · obtain ⟨b, hb, hr⟩ := ih ha; exact ⟨b, by simp [hb], hr⟩

theorem forall₂_at {α β : Type} {R : α → β → Prop} {l : List α} {m : List β}
    (h : List.Forall₂ R l m) (i : Nat) (a : α) (ha : l[i]? = some a) : ∃ b, m[i]? = some b ∧ R a b := by
  induction h generalizing i with
  | nil => simp at ha
  | cons h1 _ ih =>
    cases i with
    | zero => simp at ha; subst ha; exact ⟨_, rfl, h1⟩
    | succ i => simpa using ih i (by simpa using ha)

theorem forall₂_map_eq {α β γ : Type} {R : α → β → Prop} {f : α → γ} {g : β → γ} {l : List α}
    {m : List β} (h : List.Forall₂ R l m) (hfg : ∀ a b, R a b → f a = g b) : l.map f = m.map g := by
  induction h with
  | nil => rfl
  | cons h1 _ ih => simp [hfg _ _ h1, ih]

/-- The file holds the objects in their order. -/
theorem save_objs (st : St P) (hmap : st.map = tab st.objs) :
    save st = allSome (st.objs.map (saveObj st)) := by
  unfold save
  rw [hmap, tab, List.map_map]
  congr 1
  apply List.ext_getElem?
  intro i
  simp only [List.getElem?_map, List.getElem?_zipIdx, Function.comp_def, Nat.zero_add]
  cases h : st.objs[i]? with
  | none => rfl
  | some o => simp [h]

/-- The record of an object. -/
structure Saved (st : St P) (o : Obj P) (m : SNode P) : Prop where
  type : m.type = o.type
  name : m.name = o.name
  fields : List.Forall₂ (fun e f => f.1 = e.1 ∧ saveArg st e.2 = some f.2) o.args m.fields

theorem saveObj_saved (st : St P) (o : Obj P) (m : SNode P) (h : saveObj st o = some m) :
    Saved st o m := by
  unfold saveObj at h
  obtain ⟨fs, h1, rfl⟩ := Option.map_eq_some_iff.1 h
  refine ⟨rfl, rfl, ?_⟩
  refine ((allSome_map _ _ _).1 h1).imp ?_
  intro e f hef
  obtain ⟨a, ha, rfl⟩ := Option.map_eq_some_iff.1 hef
  exact ⟨rfl, ha⟩

theorem saveArg_plain (st : St P) (a : Arg P) (s : SArg P) (h : saveArg st a = some s) :
    a.plain = s.plain := by
  cases a with
  | val p => cases Option.some.inj h; rfl
  | node x => obtain ⟨c, -, rfl⟩ := Option.map_eq_some_iff.1 h; rfl
  | nodes xs => obtain ⟨c, -, rfl⟩ := Option.map_eq_some_iff.1 h; rfl
  | tuple xs => cases h

theorem saveArg_kids (st : St P) (a : Arg P) (s : SArg P) (h : saveArg st a = some s) (c : Str)
    (hc : c ∈ s.kids) : ∃ x ∈ a.ids, nameOf st x = some c := by
  cases a with
  | val p => cases Option.some.inj h; cases hc
  | node x =>
    obtain ⟨d, hd, rfl⟩ := Option.map_eq_some_iff.1 h
    have : c = d := by simpa [SArg.kids] using hc
    exact ⟨x, by simp [Arg.ids], by rw [hd, this]⟩
  | nodes xs =>
    obtain ⟨cs, hcs, rfl⟩ := Option.map_eq_some_iff.1 h
    obtain ⟨x, hx, hxc⟩ := forall₂_mem ((allSome_map _ _ _).1 hcs) c hc
    exact ⟨x, by simpa [Arg.ids] using hx, hxc⟩
  | tuple xs => cases h

/-- A loaded argument is the saved one. -/
theorem sameArg (st : St P) (look : Str → Option Nat) (a : Arg P) (s : SArg P) (a' : Arg P)
    (h : saveArg st a = some s) (hm : Matches look s a') :
    SameArg (fun y y' => ∃ oy : Obj P, st.objs[y]? = some oy ∧ look oy.name = some y') a a' := by
  cases a with
  | val p => cases Option.some.inj h; cases a' <;> simp_all [Matches, SameArg]
  | node x =>
    obtain ⟨d, hd, rfl⟩ := Option.map_eq_some_iff.1 h
    cases a' with
    | node x' =>
      obtain ⟨o, ho, rfl⟩ := Option.map_eq_some_iff.1 hd
      exact ⟨o, ho, hm⟩
    | val p => cases hm
    | nodes p => cases hm
    | tuple p => cases hm
  | nodes xs =>
    obtain ⟨cs, hcs, rfl⟩ := Option.map_eq_some_iff.1 h
    cases a' with
    | nodes xs' =>
      have h1 := (allSome_map _ _ _).1 hcs
      have h2 : List.Forall₂ (fun c x => look c = some x) cs xs' := by
        have hm' : cs.map look = xs'.map some := hm
        clear h1 hm hcs h
        induction cs generalizing xs' with
        | nil => cases xs' with
          | nil => exact List.Forall₂.nil
          | cons => simp at hm'
        | cons c cs ih => cases xs' with
          | nil => simp at hm'
          | cons x xs' =>
            simp only [List.map_cons, List.cons.injEq] at hm'
            exact List.Forall₂.cons hm'.1 (ih _ hm'.2)
      refine forall₂_trans ?_ h1 h2
      intro x c x' hx hc
      obtain ⟨o, ho, rfl⟩ := Option.map_eq_some_iff.1 hx
      exact ⟨o, ho, hc⟩
    | val p => cases hm
    | node p => cases hm
    | tuple p => cases hm
  | tuple xs => cases h

theorem saved_aux (lib : Lib P) (t : Str) (st : St P) (os : List (Obj P)) (ms : List (SNode P))
    (h : List.Forall₂ (Saved st) os ms) : auxOf lib t ms = auxObjs lib t os := by
  induction h with
  | nil => rfl
  | @cons o m os ms h1 _ ih =>
    have : auxObj lib t o = match lib m.type with
        | none => 0
        | some c => (c.aux (m.fields.map fun e => (e.1, e.2.plain))).countP
          (fun a => decide (a.1 = t)) := by
      unfold auxObj
      rw [h1.type]
      have hp : o.args.map (fun e => (e.1, e.2.plain)) = m.fields.map fun e => (e.1, e.2.plain) :=
        forall₂_map_eq h1.fields fun e f hef => by rw [hef.1, saveArg_plain _ _ _ hef.2]
      rw [hp]; rfl
    unfold auxOf auxObjs at ih ⊢
    rw [List.map_cons, List.sum_cons, List.map_cons, List.sum_cons, ih, this]
    rfl

/-- C101: a plan whose nodes have been made one after the other while it was the current plan, the
creators of all its classes accepting the recorded arguments, can be saved, and `load` in a new
process, into a plan that is the current one or not, makes every node again under its name, of
its class, with its arguments. -/
theorem save_load (lib : Lib P) (hlib : Sound lib) (c0 : Counters) (st : St P)
    (hh : History lib c0 st)
    (hreb : ∀ o ∈ st.objs, ∀ c, lib o.type = some c →
      c.rebuildable (o.args.map fun e => (e.1, e.2.plain)) = true)
    (isDef : Bool) (fuel : Nat) (hfuel : 3 ≤ fuel) :
    ∃ file st', save st = some file ∧ load lib isDef (fun _ => none) fuel file = some st' ∧
      SameNodes st st' := by
  have hi := history_inv lib hlib c0 st hh
  -- it can be saved
  have hsave : ∃ file, save st = some file := by
    rw [save_objs st hi.map]
    refine allSome_ex _ _ fun o ho => ?_
    obtain ⟨pre, post, hs⟩ := List.append_of_mem ho
    have hex : ∃ fs, allSome (o.args.map fun e => (saveArg st e.2).map fun a => (e.1, a)) = some fs := by
      refine allSome_ex _ _ fun e he => ?_
      have hold := hi.older pre o post hs e he
      have hname : ∀ x ∈ e.2.ids, ∃ n, nameOf st x = some n := by
        intro x hx
        have hlt : x < st.objs.length := by
          have := hold x hx
          rw [hs, List.length_append]; omega
        exact ⟨(st.objs[x]).name, by unfold nameOf; rw [List.getElem?_eq_getElem hlt]; rfl⟩
      rcases h2 : e.2 with p | y | ys | ys
      · exact ⟨(e.1, .val p), by simp [saveArg]⟩
      · obtain ⟨n, hn⟩ := hname y (by rw [h2]; simp [Arg.ids])
        exact ⟨(e.1, .ref n), by simp [saveArg, hn]⟩
      · obtain ⟨ns, hns⟩ := allSome_ex (nameOf st) ys (fun y hy => hname y (by rw [h2]; exact hy))
        exact ⟨(e.1, .refs ns), by simp [saveArg, hns]⟩
      · exact absurd h2 (hi.notuple o ho e he ys)
    obtain ⟨fs, hfs⟩ := hex
    exact ⟨_, by unfold saveObj; rw [hfs, Option.map_some]⟩
  obtain ⟨file, hfile⟩ := hsave
  have hall : List.Forall₂ (Saved st) st.objs file := by
    have h1 := hfile
    rw [save_objs st hi.map] at h1
    exact ((allSome_map _ _ _).1 h1).imp fun o m h => saveObj_saved st o m h
  have hnames : file.map SNode.name = st.objs.map Obj.name :=
    (forall₂_map_eq hall fun o m h => h.name.symm).symm
  have hreadable : Readable lib file := by
    refine ⟨by rw [hnames]; exact hi.nodup, ?_, ?_⟩
    · intro m hm
      obtain ⟨o, ho, h⟩ := forall₂_mem hall m hm
      rw [h.name]; exact hi.named o ho
    · intro m hm
      obtain ⟨o, ho, h⟩ := forall₂_mem hall m hm
      obtain ⟨c, hc, hk⟩ := hi.cls o ho
      refine ⟨c, by rw [h.type]; exact hc, ?_, ?_⟩
      · rw [← hk]; exact (forall₂_map_eq h.fields fun e f hef => hef.1.symm).symm
      · have hp : o.args.map (fun e => (e.1, e.2.plain)) = m.fields.map fun e => (e.1, e.2.plain) :=
          forall₂_map_eq h.fields fun e f hef => by rw [hef.1, saveArg_plain _ _ _ hef.2]
        rw [← hp]; exact hreb o ho c hc
  obtain ⟨st', hload, hre⟩ := load_in_order_partial lib hlib isDef (fun _ => none) file hreadable
    (by
      intro pre m post hs f hf c hc
      rw [hs] at hall
      obtain ⟨pre', o, post', hs', h1, h2, h3⟩ := forall₂_split hall
      obtain ⟨e, he, -, hsv⟩ := forall₂_mem h2.fields f hf
      obtain ⟨x, hx, hxc⟩ := saveArg_kids st e.2 f.2 hsv c hc
      have hlt := hi.older pre' o post' hs' e he x hx
      have hxo : pre'[x]? = some pre'[x] := List.getElem?_eq_getElem hlt
      obtain ⟨m', hm', hsm⟩ := forall₂_at h1 x _ hxo
      refine ⟨m', List.mem_of_getElem? hm', ?_⟩
      rw [hsm.name]
      unfold nameOf at hxc
      rw [hs', List.getElem?_append_left hlt, hxo] at hxc
      exact Option.some.inj hxc)
    (by
      intro pre m post hs t k hk0 hk m' hm'
      have hall' := hall
      rw [hs] at hall'
      obtain ⟨pre', o, post', hs', h1, h2, h3⟩ := forall₂_split hall'
      have hk' : k < auxObjs lib t (pre' ++ [o]) := by
        rw [← saved_aux lib t st (pre' ++ [o]) (pre ++ [m])
          (List.rel_append h1 (List.Forall₂.cons h2 List.Forall₂.nil))]
        simpa using hk
      obtain ⟨o', ho', hsm⟩ := forall₂_mem (List.Forall₂.cons h2 h3) m' hm'
      rw [hsm.name]
      exact hi.fresh pre' o post' hs' t k hk' o' ho')
    fuel hfuel
  refine ⟨file, st', hfile, hload, ?_⟩
  intro x o hx
  obtain ⟨m, hm, hsm⟩ := forall₂_at hall x o hx
  obtain ⟨x', o', h1, h2, h3⟩ := hre m (List.mem_of_getElem? hm)
  refine ⟨x', o', by rw [← hsm.name]; exact h1, h2, by rw [h3.type, hsm.type],
    by rw [h3.name, hsm.name], ?_⟩
  refine forall₂_trans ?_ hsm.fields h3.args
  intro e f e' hef hfe
  exact ⟨by rw [hfe.1, hef.1], sameArg st _ _ _ _ hef.2 hfe.2⟩

end Verif.Schema.Rebuild
