import Verif.Exec.Sort
/-
Helper lemmas about `_eval_fun_vals`.
-/
namespace Verif.Exec
variable {V : Type} [DecidableEq V] {α : Type}

omit [DecidableEq V] in
theorem Evals.unique {N : Net V} {f : V → List α → α} {ov : V → Option α} {v : V} {a b : α}
    (h1 : Evals N f ov v a) (h2 : Evals N f ov v b) : a = b := by
  induction h1 generalizing b with
  | override h =>
    cases h2 with
    | override h' => rw [h] at h'; exact Option.some.inj h'
    | node h' => rw [h] at h'; cases h'
  | @node v as h hl _ ih =>
    cases h2 with
    | override h' => rw [h] at h'; cases h'
    | @node _ bs h' hl' hz =>
      have : as = bs := by
        have key : ∀ (us : List V) (as bs : List α), as.length = us.length → bs.length = us.length →
            (∀ p ∈ us.zip as, ∀ b, Evals N f ov p.1 b → p.2 = b) →
            (∀ p ∈ us.zip bs, Evals N f ov p.1 p.2) → as = bs := by
          intro us
          induction us with
          | nil =>
            intro as bs h1 h2 _ _
            simp at h1 h2; rw [h1, h2]
          | cons u us ih2 =>
            intro as bs h1 h2 h3 h4
            cases as with
            | nil => simp at h1
            | cons a as =>
              cases bs with
              | nil => simp at h2
              | cons b bs =>
                have e1 : a = b := h3 (u, a) (by simp) b (h4 (u, b) (by simp))
                have e2 := ih2 as bs (by simpa using h1) (by simpa using h2)
                  (fun p hp => h3 p (by simp [hp])) (fun p hp => h4 p (by simp [hp]))
                rw [e1, e2]
        exact key (N.inputs v) as bs hl hl' (fun p hp b hb => ih p hp hb) hz
      rw [this]

omit [DecidableEq V] in
theorem lookupAll_ok (vals : V → Option α) (us : List V) (P : V → α → Prop)
    (h : ∀ u ∈ us, ∃ a, vals u = some a ∧ P u a) :
    ∃ as, lookupAll vals us = .ok as ∧ as.length = us.length ∧ ∀ p ∈ us.zip as, P p.1 p.2 := by
  induction us with
  | nil => exact ⟨[], rfl, rfl, by simp⟩
  | cons u us ih =>
    obtain ⟨a, ha, hp⟩ := h u (by simp)
    obtain ⟨as, h1, h2, h3⟩ := ih (fun w hw => h w (List.mem_cons_of_mem _ hw))
    refine ⟨a :: as, by simp [lookupAll, ha, h1], by simp [h2], ?_⟩
    intro p hp'
    simp only [List.zip_cons_cons, List.mem_cons] at hp'
    rcases hp' with rfl | hp'
    · exact hp
    · exact h3 p hp'

theorem blockArgs_ok (g : List (V × List V)) (vals : V → Option α) (P : V → α → Prop)
    (blk : List V) (h : ∀ v ∈ blk, ∀ u ∈ adj g v, ∃ a, vals u = some a ∧ P u a) :
    ∃ args : List (V × List α), blockArgs g vals blk = .ok args ∧ args.map Prod.fst = blk ∧
      ∀ x ∈ args, x.2.length = (adj g x.1).length ∧ ∀ p ∈ (adj g x.1).zip x.2, P p.1 p.2 := by
  induction blk with
  | nil => exact ⟨[], rfl, rfl, by simp⟩
  | cons v vs ih =>
    obtain ⟨as, h1, h2, h3⟩ := lookupAll_ok vals (adj g v) P (h v (by simp))
    obtain ⟨args, h4, h5, h6⟩ := ih (fun w hw => h w (List.mem_cons_of_mem _ hw))
    refine ⟨(v, as) :: args, by simp [blockArgs, h1, h4], by simp [h5], ?_⟩
    intro x hx
    rcases List.mem_cons.1 hx with rfl | hx
    · exact ⟨h2, h3⟩
    · exact h6 x hx

theorem storeBlock_trace (f : V → List α → α) (args : List (V × List α)) (s : EvalState V α) :
    (storeBlock f args s).trace = s.trace ++ args.map Prod.fst := by
  induction args generalizing s with
  | nil => simp [storeBlock]
  | cons x args ih =>
    obtain ⟨v, as⟩ := x
    simp [storeBlock, ih]

theorem storeBlock_vals_not_mem (f : V → List α → α) (args : List (V × List α)) (s : EvalState V α)
    (v : V) (h : v ∉ args.map Prod.fst) : (storeBlock f args s).vals v = s.vals v := by
  induction args generalizing s with
  | nil => rfl
  | cons x args ih =>
    obtain ⟨w, as⟩ := x
    simp only [List.map_cons, List.mem_cons, not_or] at h
    rw [storeBlock, ih _ h.2]
    simp [upd, h.1]

theorem storeBlock_vals_mem (f : V → List α → α) (args : List (V × List α)) (s : EvalState V α)
    (hn : (args.map Prod.fst).Nodup) (x : V × List α) (hx : x ∈ args) :
    (storeBlock f args s).vals x.1 = some (f x.1 x.2) := by
  induction args generalizing s with
  | nil => simp at hx
  | cons y args ih =>
    obtain ⟨w, as⟩ := y
    simp only [List.map_cons, List.nodup_cons] at hn
    rcases List.mem_cons.1 hx with rfl | hx
    · rw [storeBlock, storeBlock_vals_not_mem _ _ _ _ hn.1]
      simp [upd]
    · rw [storeBlock]; exact ih _ hn.2 hx

/-- `done ++ todo` lists the nodes in evaluation order: inputs come first. -/
def RevTopo (N : Net V) (l : List V) : Prop :=
  ∀ l₁ v l₂, l = l₁ ++ v :: l₂ → ∀ u ∈ N.inputs v, u ∈ l₁

structure FInv (N : Net V) (f : V → List α → α) (ov : V → Option α) (done : List V)
    (s : EvalState V α) : Prop where
  mem : ∀ v ∈ done, ∃ a, s.vals v = some a ∧ Evals N f ov v a
  not_mem : ∀ v, v ∉ done → s.vals v = ov v
  trace : s.trace = done.filter (fun v => (ov v).isNone)

theorem forward_spec {N : Net V} {f : V → List α → α} {ov : V → Option α} {g : List (V × List V)}
    (n : Nat) (done todo : List V) (s : EvalState V α)
    (hadj : ∀ v ∈ todo, adj g v = N.inputs v)
    (hnd : (done ++ todo).Nodup) (ht : RevTopo N (done ++ todo))
    (hov : ∀ v ∈ todo, N.heavy v = true → ov v = none)
    (hhh : ∀ v ∈ todo, N.heavy v = true → ∀ u ∈ N.inputs v, N.heavy u = false)
    (hi : FInv N f ov done s) (hn : todo.length ≤ n) :
    ∃ s', forward g N.heavy f n todo s = .ok s' ∧ FInv N f ov (done ++ todo) s' := by
  induction n generalizing done todo s with
  | zero =>
    cases todo with
    | nil => exact ⟨s, rfl, by simpa using hi⟩
    | cons v rest => simp at hn
  | succ n ih =>
    cases todo with
    | nil => exact ⟨s, rfl, by simpa using hi⟩
    | cons v rest =>
      have hvd : v ∉ done := by
        intro h
        rw [List.nodup_append] at hnd
        exact hnd.2.2 v h v (by simp) rfl
      have hassoc : done ++ v :: rest = (done ++ [v]) ++ rest := by simp
      unfold forward
      by_cases hs : (s.vals v).isSome
      · rw [if_pos hs]
        rw [hi.not_mem v hvd] at hs
        obtain ⟨a, ha⟩ := Option.isSome_iff_exists.1 hs
        obtain ⟨s', h1, h2⟩ := ih (done ++ [v]) rest s
          (fun w hw => hadj w (List.mem_cons_of_mem _ hw)) (hassoc ▸ hnd) (hassoc ▸ ht)
          (fun w hw => hov w (List.mem_cons_of_mem _ hw))
          (fun w hw => hhh w (List.mem_cons_of_mem _ hw))
          ⟨fun w hw => by
              rcases List.mem_append.1 hw with hw | hw
              · exact hi.mem w hw
              · simp only [List.mem_singleton] at hw; subst hw
                exact ⟨a, by rw [hi.not_mem w hvd, ha], Evals.override ha⟩,
            fun w hw => hi.not_mem w (fun h => hw (List.mem_append_left _ h)),
            by rw [List.filter_append, hi.trace]; simp [ha]⟩
          (by simp at hn; omega)
        exact ⟨s', h1, hassoc ▸ h2⟩
      · rw [if_neg hs]
        have hvnone : ov v = none := by
          rw [← hi.not_mem v hvd]; simpa using hs
        by_cases hh : N.heavy v = true
        · rw [if_pos hh]
          -- heavy block
          have hsplit : (v :: rest).takeWhile N.heavy ++ (v :: rest).dropWhile N.heavy = v :: rest :=
            List.takeWhile_append_dropWhile
          have hblk_sub : ∀ w ∈ (v :: rest).takeWhile N.heavy, w ∈ v :: rest ∧ N.heavy w = true :=
            fun w hw => ⟨(List.takeWhile_prefix N.heavy).subset hw, by
              have := List.all_takeWhile (p := N.heavy) (l := v :: rest)
              rw [List.all_eq_true] at this
              exact this w hw⟩
          have hdrop_len : ((v :: rest).dropWhile N.heavy).length ≤ n := by
            have h1 := congrArg List.length hsplit
            have h2 : 1 ≤ ((v :: rest).takeWhile N.heavy).length := by
              simp [hh]
            simp only [List.length_append, List.length_cons] at h1 h2 hn
            omega
          generalize hblk : (v :: rest).takeWhile N.heavy = blk at *
          generalize hdrp : (v :: rest).dropWhile N.heavy = drp at *
          have hsplit' : done ++ (v :: rest) = (done ++ blk) ++ drp := by
            rw [← hsplit]; simp
          have hin : ∀ w ∈ blk, ∀ u ∈ adj g w, ∃ a, s.vals u = some a ∧ Evals N f ov u a := by
            intro w hw u hu
            rw [hadj w (hblk_sub w hw).1] at hu
            obtain ⟨b1, b2, hb⟩ := List.append_of_mem hw
            have : u ∈ done ++ b1 := ht (done ++ b1) w (b2 ++ drp) (by
              rw [hsplit', hb]; simp) u hu
            rcases List.mem_append.1 this with h | h
            · exact hi.mem u h
            · exfalso
              have h1 := (hblk_sub u (by rw [hb]; simp [h])).2
              rw [hhh w (hblk_sub w hw).1 (hblk_sub w hw).2 u hu] at h1
              cases h1
          obtain ⟨args, h1, h2, h3⟩ := blockArgs_ok g s.vals (Evals N f ov) blk hin
          have hblknd : blk.Nodup := by
            rw [hsplit', List.nodup_append] at hnd
            rw [List.nodup_append] at hnd
            exact hnd.1.2.1
          have hblkdone : ∀ w ∈ blk, w ∉ done := by
            intro w hw hd
            rw [hsplit', List.nodup_append, List.nodup_append] at hnd
            exact hnd.1.2.2 w hd w hw rfl
          have hdsub : ∀ w ∈ drp, w ∈ v :: rest := by
            intro w hw; rw [← hsplit]; exact List.mem_append_right _ hw
          obtain ⟨s', h4, h5⟩ := ih (done ++ blk) drp (storeBlock f args s)
            (fun w hw => hadj w (hdsub w hw)) (hsplit' ▸ hnd) (hsplit' ▸ ht)
            (fun w hw => hov w (hdsub w hw))
            (fun w hw => hhh w (hdsub w hw))
            ⟨fun w hw => by
                by_cases hwb : w ∈ blk
                · have hwb' := hwb
                  rw [← h2, List.mem_map] at hwb'
                  obtain ⟨x, hx, rfl⟩ := hwb'
                  refine ⟨f x.1 x.2, storeBlock_vals_mem f args s (h2 ▸ hblknd) x hx, ?_⟩
                  have h6 := h3 x hx
                  rw [hadj _ (hblk_sub _ hwb).1] at h6
                  exact Evals.node (hov _ (hblk_sub _ hwb).1 (hblk_sub _ hwb).2) h6.1 h6.2
                · rw [storeBlock_vals_not_mem f args s w (h2 ▸ hwb)]
                  rcases List.mem_append.1 hw with hw | hw
                  · exact hi.mem w hw
                  · exact absurd hw hwb,
              fun w hw => by
                simp only [List.mem_append, not_or] at hw
                rw [storeBlock_vals_not_mem f args s w (h2 ▸ hw.2)]
                exact hi.not_mem w hw.1,
              by
                rw [storeBlock_trace, List.filter_append, hi.trace, h2]
                congr 1
                symm
                rw [List.filter_eq_self]
                intro w hw
                rw [hov w (hblk_sub w hw).1 (hblk_sub w hw).2]; rfl⟩
            hdrop_len
          refine ⟨s', ?_, hsplit' ▸ h5⟩
          simp only [h1]; exact h4
        · rw [if_neg hh]
          have hin : ∀ u ∈ adj g v, ∃ a, s.vals u = some a ∧ Evals N f ov u a := by
            intro u hu
            rw [hadj v (by simp)] at hu
            exact hi.mem u (ht done v rest rfl u hu)
          obtain ⟨as, h1, h2, h3⟩ := lookupAll_ok s.vals (adj g v) (Evals N f ov) hin
          rw [hadj v (by simp)] at h2 h3
          rw [h1]
          obtain ⟨s', h4, h5⟩ := ih (done ++ [v]) rest ⟨upd s.vals v (some (f v as)), s.trace ++ [v]⟩
            (fun w hw => hadj w (List.mem_cons_of_mem _ hw)) (hassoc ▸ hnd) (hassoc ▸ ht)
            (fun w hw => hov w (List.mem_cons_of_mem _ hw))
            (fun w hw => hhh w (List.mem_cons_of_mem _ hw))
            ⟨fun w hw => by
                by_cases hwv : w = v
                · subst hwv
                  exact ⟨f w as, by simp [upd], Evals.node hvnone h2 h3⟩
                · simp only [List.mem_append, List.mem_singleton, hwv, or_false] at hw
                  obtain ⟨a, h6, h7⟩ := hi.mem w hw
                  exact ⟨a, by simp [upd, hwv, h6], h7⟩,
              fun w hw => by
                simp only [List.mem_append, List.mem_singleton, not_or] at hw
                simp only [upd, hw.2, if_false]
                exact hi.not_mem w hw.1,
              by simp [List.filter_append, hi.trace, hvnone]⟩
            (by simp at hn; omega)
          exact ⟨s', h4, hassoc ▸ h5⟩

omit [DecidableEq V] in
theorem revTopo_of_topo {N : Net V} {outs : List V} {g : List (V × List V)} {ts : List V}
    (hg : GraphOk N outs g) (hnd : ts.Nodup) (hm : ∀ v, v ∈ ts ↔ Reach N outs v)
    (ht : Topo g ts) : RevTopo N ts.reverse := by
  intro l₁ v l₂ heq u hu
  have hv : v ∈ ts := by rw [← List.mem_reverse, heq]; simp
  have hur : u ∈ ts := (hm u).2 (Reach.step ((hm v).1 hv) hu)
  have heq' : ts = l₂.reverse ++ v :: l₁.reverse := by
    have := congrArg List.reverse heq
    simpa using this
  obtain ⟨a, b, hab⟩ := List.append_of_mem hur
  have hvk : v ∈ g.map Prod.fst := (hg.keys v).2 ((hm v).1 hv)
  rw [List.mem_map] at hvk
  obtain ⟨e, he, hev⟩ := hvk
  have hva : v ∈ a := hev ▸ ht a u b hab e he (by rw [hg.entries e he, hev]; exact hu)
  rw [← List.mem_reverse]
  -- u lies after v
  have : u ∈ l₂.reverse ++ v :: l₁.reverse := heq' ▸ hur
  rcases List.mem_append.1 this with h | h
  · exfalso
    obtain ⟨c, d, hcd⟩ := List.append_of_mem h
    have h1 : ts = c ++ u :: (d ++ v :: l₁.reverse) := by rw [heq', hcd]; simp
    have hva' : v ∈ c := hev ▸ ht c u _ h1 e he (by rw [hg.entries e he, hev]; exact hu)
    rw [h1, List.nodup_append] at hnd
    exact hnd.2.2 v hva' v (by simp) rfl
  · rcases List.mem_cons.1 h with h | h
    · exfalso
      subst h
      rw [hab, List.nodup_append] at hnd
      exact hnd.2.2 u hva u (by simp) rfl
    · exact h

/-- Everything the forward pass guarantees, for a given graph. -/
theorem evalFun_of_graph {N : Net V} (hN : Acyclic N) (f : V → List α → α) (ov : V → Option α)
    (ord : List V → List V) (hord : ∀ l, (ord l).Perm l) (outs : List V)
    (hov : ∀ v, Reach N outs v → N.heavy v = true → ov v = none)
    (hhh : ∀ v, Reach N outs v → N.heavy v = true → ∀ u ∈ N.inputs v, N.heavy u = false)
    {n : Nat} {g : List (V × List V)} (hg : createGraph N n outs = some g) :
    ∃ vals trace, evalFun N f ord n ov outs = .ok (vals, trace) ∧
      vals.length = outs.length ∧ (∀ p ∈ outs.zip vals, Evals N f ov p.1 p.2) ∧
      trace.Nodup ∧ (∀ v, v ∈ trace ↔ Reach N outs v ∧ ov v = none) := by
  have hok := createGraph_ok hg
  obtain ⟨ts, h1, h2, h3, h4⟩ := topSort_spec hN hok N.heavy ord hord
  have hr := revTopo_of_topo hok h2 h3 h4
  have hmem : ∀ v ∈ ts.reverse, Reach N outs v := fun v hv => (h3 v).1 (List.mem_reverse.1 hv)
  obtain ⟨s, h5, h6⟩ := forward_spec (N := N) (f := f) (ov := ov) (g := g) ts.reverse.length []
    ts.reverse ⟨ov, []⟩
    (fun v hv => adj_of_mem hok.entries ((hok.keys v).2 (hmem v hv)))
    (by rw [List.nil_append]; exact (List.reverse_perm ts).symm.nodup_iff.1 h2) (by simpa using hr)
    (fun v hv => hov v (hmem v hv)) (fun v hv => hhh v (hmem v hv))
    ⟨by simp, by simp, by simp⟩ (Nat.le_refl _)
  obtain ⟨vals, h7, h8, h9⟩ := lookupAll_ok s.vals outs (Evals N f ov) (fun u hu =>
    h6.mem u (by rw [List.nil_append, List.mem_reverse]; exact (h3 u).2 (Reach.out hu)))
  refine ⟨vals, s.trace, ?_, h8, h9, ?_, ?_⟩
  · simp only [evalFun, hg, h1, h5, h7]
  · rw [h6.trace, List.nil_append]
    exact List.Pairwise.filter _ ((List.reverse_perm ts).symm.nodup_iff.1 h2)
  · intro v
    rw [h6.trace]
    simp [h3]

/-- Everything the forward pass guarantees, in one statement. -/
theorem evalFun_spec {N : Net V} (hN : Acyclic N) (f : V → List α → α) (ov : V → Option α)
    (ord : List V → List V) (hord : ∀ l, (ord l).Perm l) (outs : List V)
    (hov : ∀ v, Reach N outs v → N.heavy v = true → ov v = none)
    (hhh : ∀ v, Reach N outs v → N.heavy v = true → ∀ u ∈ N.inputs v, N.heavy u = false) :
    ∃ n₀, ∀ n, n₀ ≤ n → ∃ vals trace, evalFun N f ord n ov outs = .ok (vals, trace) ∧
      vals.length = outs.length ∧ (∀ p ∈ outs.zip vals, Evals N f ov p.1 p.2) ∧
      trace.Nodup ∧ (∀ v, v ∈ trace ↔ Reach N outs v ∧ ov v = none) := by
  obtain ⟨n₀, h₀⟩ := createGraph_terminates hN outs
  refine ⟨n₀, fun n hn => ?_⟩
  obtain ⟨g, hg⟩ := h₀ n hn
  exact evalFun_of_graph hN f ov ord hord outs hov hhh hg

end Verif.Exec
