import Verif.Exec.Forward
import Verif.Exec.GradModel
import Mathlib.Algebra.BigOperators.Group.List.Basic
import Mathlib.Tactic.Abel
/-
Helper lemmas about the backward pass.
-/
namespace Verif.Exec
variable {V : Type} [DecidableEq V] {α γ δ : Type} {E R : Type}

section
variable [AddCommMonoid γ] [AddCommMonoid R] (pair : γ → E → R) (τ : V → E)

/-- Total pairing of the accumulators of the listed nodes with their tangents. -/
def tot (L : List V) (G : V → γ) : R := (L.map (fun w => pair (G w) (τ w))).sum

omit [AddCommMonoid γ] in
theorem tot_upd_not_mem (L : List V) (G : V → γ) (u : V) (x : γ) (h : u ∉ L) :
    tot pair τ L (upd G u x) = tot pair τ L G := by
  unfold tot
  congr 1
  apply List.map_congr_left
  intro w hw
  have : w ≠ u := fun h' => h (h' ▸ hw)
  simp [upd, this]

theorem tot_upd_mem (hadd : ∀ a b t, pair (a + b) t = pair a t + pair b t)
    (L : List V) (hn : L.Nodup) (G : V → γ) (u : V) (x : γ) (h : u ∈ L) :
    tot pair τ L (upd G u (G u + x)) = tot pair τ L G + pair x (τ u) := by
  induction L with
  | nil => simp at h
  | cons w L ih =>
    rw [List.nodup_cons] at hn
    by_cases hw : u = w
    · subst hw
      have := tot_upd_not_mem pair τ L G u (G u + x) hn.1
      simp only [tot, List.map_cons, List.sum_cons] at *
      rw [this]
      simp only [upd, if_true, hadd]
      abel
    · have hu : u ∈ L := by
        rcases List.mem_cons.1 h with h | h
        · exact absurd h hw
        · exact h
      have := ih hn.2 hu
      simp only [tot, List.map_cons, List.sum_cons] at *
      rw [this]
      have hwu : w ≠ u := fun h => hw h.symm
      simp only [upd, hwu, if_false]
      abel

theorem tot_addGrads (hadd : ∀ a b t, pair (a + b) t = pair a t + pair b t)
    (L : List V) (hn : L.Nodup) (zs : List (V × γ)) (hz : ∀ z ∈ zs, z.1 ∈ L) (G : V → γ) :
    tot pair τ L (addGrads zs G) =
      tot pair τ L G + (zs.map (fun z => pair z.2 (τ z.1))).sum := by
  induction zs generalizing G with
  | nil => simp [addGrads]
  | cons z zs ih =>
    obtain ⟨u, x⟩ := z
    rw [addGrads, ih (fun z hz' => hz z (List.mem_cons_of_mem _ hz'))]
    rw [tot_upd_mem pair τ hadd L hn G u x (hz (u, x) (by simp))]
    simp only [List.map_cons, List.sum_cons]
    abel

omit [AddCommMonoid γ] in
theorem addGrads_not_mem [Add γ] (zs : List (V × γ)) (G : V → γ) (w : V)
    (h : ∀ z ∈ zs, z.1 ≠ w) : addGrads zs G w = G w := by
  induction zs generalizing G with
  | nil => rfl
  | cons z zs ih =>
    obtain ⟨u, x⟩ := z
    rw [addGrads, ih _ (fun z hz' => h z (List.mem_cons_of_mem _ hz'))]
    have : w ≠ u := fun h' => h (u, x) (by simp) h'.symm
    simp [upd, this]

end

omit [DecidableEq V] in
theorem lookupAll_eq (vals : V → Option α) (val : V → α) (us : List V)
    (h : ∀ u ∈ us, vals u = some (val u)) : lookupAll vals us = .ok (us.map val) := by
  induction us with
  | nil => rfl
  | cons u us ih =>
    have h1 := h u (by simp)
    have h2 := ih (fun w hw => h w (List.mem_cons_of_mem _ hw))
    simp [lookupAll, h1, h2]

theorem gradArgs_eq (g : List (V × List V)) (vals : V → Option α) (val : V → α) (G : V → γ)
    (blk : List V) (h : ∀ v ∈ blk, ∀ u ∈ adj g v, vals u = some (val u)) :
    gradArgs g vals G blk = .ok (blk.map (fun v => (v, (adj g v).map val, G v))) := by
  induction blk with
  | nil => rfl
  | cons v vs ih =>
    have h1 := lookupAll_eq vals val (adj g v) (h v (by simp))
    have h2 := ih (fun w hw => h w (List.mem_cons_of_mem _ hw))
    simp [gradArgs, h1, h2]

/-- What a correct backward order is for the loop invariant: inputs come later. -/
def LaterInputs (N : Net V) (l : List V) : Prop :=
  ∀ l₁ v l₂, l = l₁ ++ v :: l₂ → ∀ u ∈ N.inputs v, u ∈ l₂

variable [AddCommMonoid γ] [AddCommMonoid R]

structure BInv (pair : γ → E → R) (τ : V → E) (leaf : V → Bool) (ops : GradOps V α γ δ)
    (total : R) (done todo : List V) (G : V → γ) (os : List δ) : Prop where
  sum : total = tot pair τ (done.filter leaf) G + tot pair τ todo G
  olds : os = done.filterMap (fun v => (ops.old v).map (fun c => c (G v)))

theorem storeGrads_not_mem (g : List (V × List V)) (ops : GradOps V α γ δ)
    (args : List (V × List α × γ)) (G : V → γ) (w : V)
    (h : ∀ a ∈ args, w ∉ adj g a.1) : storeGrads g ops args G w = G w := by
  induction args generalizing G with
  | nil => rfl
  | cons a args ih =>
    obtain ⟨v, as, x⟩ := a
    rw [storeGrads, ih _ (fun a ha => h a (List.mem_cons_of_mem _ ha))]
    apply addGrads_not_mem
    intro z hz hzw
    apply h (v, as, x) (by simp)
    rw [← hzw]
    obtain ⟨z1, z2⟩ := z
    exact (List.of_mem_zip hz).1

theorem tot_storeGrads (pair : γ → E → R) (τ : V → E)
    (hadd : ∀ a b t, pair (a + b) t = pair a t + pair b t)
    (g : List (V × List V)) (ops : GradOps V α γ δ) (L : List V) (hn : L.Nodup)
    (args : List (V × List α × γ)) (G : V → γ)
    (hin : ∀ a ∈ args, ∀ u ∈ adj g a.1, u ∈ L)
    (hloc : ∀ a ∈ args, pair a.2.2 (τ a.1) =
      (((adj g a.1).zip (ops.grad a.1 a.2.1 a.2.2)).map (fun z => pair z.2 (τ z.1))).sum) :
    tot pair τ L (storeGrads g ops args G) =
      tot pair τ L G + (args.map (fun a => pair a.2.2 (τ a.1))).sum := by
  induction args generalizing G with
  | nil => simp [storeGrads]
  | cons a args ih =>
    obtain ⟨v, as, x⟩ := a
    rw [storeGrads, ih _ (fun a ha => hin a (List.mem_cons_of_mem _ ha))
      (fun a ha => hloc a (List.mem_cons_of_mem _ ha))]
    rw [tot_addGrads pair τ hadd L hn]
    · rw [← hloc (v, as, x) (by simp)]
      simp only [List.map_cons, List.sum_cons]
      abel
    · intro z hz
      obtain ⟨z1, z2⟩ := z
      exact hin (v, as, x) (by simp) z1 (List.of_mem_zip hz).1

omit [DecidableEq V] [AddCommMonoid γ] in
theorem tot_append (pair : γ → E → R) (τ : V → E) (L L' : List V) (G : V → γ) :
    tot pair τ (L ++ L') G = tot pair τ L G + tot pair τ L' G := by
  simp [tot]

omit [DecidableEq V] [AddCommMonoid γ] in
theorem tot_congr (pair : γ → E → R) (τ : V → E) (L : List V) (G G' : V → γ)
    (h : ∀ w ∈ L, G w = G' w) : tot pair τ L G = tot pair τ L G' := by
  unfold tot
  congr 1
  apply List.map_congr_left
  intro w hw; rw [h w hw]

theorem backward_spec {N : Net V} {g : List (V × List V)} (ops : GradOps V α γ δ)
    (vals : V → Option α) (val : V → α) (pair : γ → E → R) (τ : V → E) (leaf : V → Bool)
    (hadd : ∀ a b t, pair (a + b) t = pair a t + pair b t) (total : R)
    (n : Nat) (done todo : List V) (G : V → γ) (os : List δ)
    (hadj : ∀ v ∈ todo, adj g v = N.inputs v)
    (hvals : ∀ v ∈ todo, vals v = some (val v))
    (hnd : (done ++ todo).Nodup) (ht : LaterInputs N (done ++ todo))
    (hold : ∀ v ∈ todo, (ops.old v).isSome = true → leaf v = true ∧ N.heavy v = false)
    (hleaf : ∀ v ∈ todo, leaf v = true → N.inputs v = [] ∧ N.heavy v = false)
    (hloc : ∀ v ∈ todo, leaf v = false → ∀ x, pair x (τ v) =
      (((N.inputs v).zip (ops.grad v ((N.inputs v).map val) x)).map
        (fun z => pair z.2 (τ z.1))).sum)
    (hhh : ∀ v ∈ todo, N.heavy v = true → ∀ u ∈ N.inputs v, N.heavy u = false)
    (hi : BInv pair τ leaf ops total done todo G os) (hn : todo.length ≤ n) :
    ∃ G' os', backward g N.heavy ops vals n todo G os = .ok (G', os') ∧
      BInv pair τ leaf ops total (done ++ todo) [] G' os' := by
  induction n generalizing done todo G os with
  | zero =>
    cases todo with
    | nil => exact ⟨G, os, rfl, by simpa using hi⟩
    | cons v rest => simp at hn
  | succ n ih =>
    cases todo with
    | nil => exact ⟨G, os, rfl, by simpa using hi⟩
    | cons v rest =>
      have hassoc : done ++ v :: rest = (done ++ [v]) ++ rest := by simp
      have hrn : rest.Nodup := by
        rw [List.nodup_append] at hnd
        exact (List.nodup_cons.1 hnd.2.1).2
      have hvdone : v ∉ done := by
        intro h
        rw [List.nodup_append] at hnd
        exact hnd.2.2 v h v (by simp) rfl
      have hrdone : ∀ w ∈ rest, w ∉ done ++ [v] := by
        intro w hw h
        rw [hassoc, List.nodup_append] at hnd
        exact hnd.2.2 w h w hw rfl
      have hvin : ∀ u ∈ N.inputs v, u ∈ rest := fun u hu => ht done v rest rfl u hu
      unfold backward
      by_cases hh : N.heavy v = true
      · rw [if_pos hh]
        have hsplit : (v :: rest).takeWhile N.heavy ++ (v :: rest).dropWhile N.heavy = v :: rest :=
          List.takeWhile_append_dropWhile
        have hblk_sub : ∀ w ∈ (v :: rest).takeWhile N.heavy, w ∈ v :: rest ∧ N.heavy w = true :=
          fun w hw => ⟨(List.takeWhile_prefix N.heavy).subset hw, by
            have := List.all_takeWhile (p := N.heavy) (l := v :: rest)
            rw [List.all_eq_true] at this
            exact this w hw⟩
        have hdrop_len : ((v :: rest).dropWhile N.heavy).length ≤ n := by
          have h1 := congrArg List.length hsplit
          have h2 : 1 ≤ ((v :: rest).takeWhile N.heavy).length := by
            simp [hh]
          simp only [List.length_append, List.length_cons] at h1 h2 hn
          omega
        generalize hblk : (v :: rest).takeWhile N.heavy = blk at *
        generalize hdrp : (v :: rest).dropWhile N.heavy = drp at *
        have hsplit' : done ++ (v :: rest) = (done ++ blk) ++ drp := by
          rw [← hsplit]; simp
        have hdsub : ∀ w ∈ drp, w ∈ v :: rest := by
          intro w hw; rw [← hsplit]; exact List.mem_append_right _ hw
        have hnd' := hnd
        rw [hsplit', List.nodup_append, List.nodup_append] at hnd'
        -- inputs of the block lie behind the block
        have hin : ∀ w ∈ blk, ∀ u ∈ N.inputs w, u ∈ drp := by
          intro w hw u hu
          obtain ⟨b1, b2, hb⟩ := List.append_of_mem hw
          have : u ∈ b2 ++ drp := ht (done ++ b1) w (b2 ++ drp) (by
            rw [hsplit', hb]; simp) u hu
          rcases List.mem_append.1 this with h | h
          · exfalso
            have h1 := (hblk_sub u (by rw [hb]; simp [h])).2
            rw [hhh w (hblk_sub w hw).1 (hblk_sub w hw).2 u hu] at h1
            cases h1
          · exact h
        have hargs := gradArgs_eq g vals val G blk (by
          intro w hw u hu
          rw [hadj w (hblk_sub w hw).1] at hu
          exact hvals u (hdsub u (hin w hw u hu)))
        simp only [hargs]
        have hnot : ∀ w, w ∉ drp → storeGrads g ops
            (blk.map (fun v => (v, (adj g v).map val, G v))) G w = G w := by
          intro w hw
          apply storeGrads_not_mem
          intro a ha
          rw [List.mem_map] at ha
          obtain ⟨x, hx, rfl⟩ := ha
          simp only
          rw [hadj x (hblk_sub x hx).1]
          intro h
          exact hw (hin x hx w h)
        have hleafblk : ∀ w ∈ blk, leaf w = false := by
          intro w hw
          by_contra h
          have h1 := (hleaf w (hblk_sub w hw).1 (by simpa using h)).2
          rw [(hblk_sub w hw).2] at h1; cases h1
        have holdblk : ∀ w ∈ blk, ops.old w = none := by
          intro w hw
          by_contra h
          have h1 := (hold w (hblk_sub w hw).1 (by
            cases h' : ops.old w with
            | none => exact absurd h' h
            | some _ => rfl)).2
          rw [(hblk_sub w hw).2] at h1; cases h1
        obtain ⟨G', os', h1, h2⟩ := ih (done ++ blk) drp
          (storeGrads g ops (blk.map (fun v => (v, (adj g v).map val, G v))) G) os
          (fun w hw => hadj w (hdsub w hw)) (fun w hw => hvals w (hdsub w hw))
          (hsplit' ▸ hnd) (hsplit' ▸ ht)
          (fun w hw => hold w (hdsub w hw)) (fun w hw => hleaf w (hdsub w hw))
          (fun w hw => hloc w (hdsub w hw)) (fun w hw => hhh w (hdsub w hw))
          ⟨by
            have e1 : (done ++ blk).filter leaf = done.filter leaf := by
              rw [List.filter_append]
              have : blk.filter leaf = [] := by
                rw [List.filter_eq_nil_iff]
                intro w hw; simp [hleafblk w hw]
              rw [this, List.append_nil]
            rw [e1, tot_storeGrads pair τ hadd g ops drp hnd'.2.1]
            · rw [hi.sum, ← hsplit, tot_append]
              have e2 : tot pair τ (done.filter leaf) (storeGrads g ops
                  (blk.map (fun v => (v, (adj g v).map val, G v))) G) =
                  tot pair τ (done.filter leaf) G := by
                apply tot_congr
                intro w hw
                apply hnot
                intro hwd
                exact hnd'.2.2 w (List.mem_append_left _ (List.mem_filter.1 hw).1) w hwd rfl
              rw [e2]
              have e3 : (List.map (fun a => pair a.2.2 (τ a.1))
                  (blk.map (fun v => (v, (adj g v).map val, G v)))).sum = tot pair τ blk G := by
                simp only [tot, List.map_map]; rfl
              rw [e3]
              abel
            · intro a ha u hu
              rw [List.mem_map] at ha
              obtain ⟨x, hx, rfl⟩ := ha
              simp only at hu
              rw [hadj x (hblk_sub x hx).1] at hu
              exact hin x hx u hu
            · intro a ha
              rw [List.mem_map] at ha
              obtain ⟨x, hx, rfl⟩ := ha
              simp only
              rw [hadj x (hblk_sub x hx).1]
              exact hloc x (hblk_sub x hx).1 (hleafblk x hx) (G x),
           by
            rw [List.filterMap_append]
            have : blk.filterMap (fun v => (ops.old v).map (fun c => c (storeGrads g ops
                (blk.map (fun v => (v, (adj g v).map val, G v))) G v))) = [] := by
              rw [List.filterMap_eq_nil_iff]
              intro w hw; rw [holdblk w hw]; rfl
            rw [this, List.append_nil, hi.olds]
            apply List.filterMap_congr
            intro w hw
            rw [hnot]
            intro hwd
            exact hnd'.2.2 w (List.mem_append_left _ hw) w hwd rfl⟩
          hdrop_len
        exact ⟨G', os', h1, hsplit' ▸ h2⟩
      · rw [if_neg hh]
        cases ho : ops.old v with
        | some c =>
          simp only
          have hl := hold v (by simp) (by rw [ho]; rfl)
          obtain ⟨G', os', h1, h2⟩ := ih (done ++ [v]) rest G (os ++ [c (G v)])
            (fun w hw => hadj w (List.mem_cons_of_mem _ hw))
            (fun w hw => hvals w (List.mem_cons_of_mem _ hw))
            (hassoc ▸ hnd) (hassoc ▸ ht)
            (fun w hw => hold w (List.mem_cons_of_mem _ hw))
            (fun w hw => hleaf w (List.mem_cons_of_mem _ hw))
            (fun w hw => hloc w (List.mem_cons_of_mem _ hw))
            (fun w hw => hhh w (List.mem_cons_of_mem _ hw))
            ⟨by
              rw [hi.sum, List.filter_append]
              have : [v].filter leaf = [v] := by simp [hl.1]
              rw [this, tot_append]
              simp only [tot, List.map_cons, List.sum_cons, List.map_nil, List.sum_nil, add_zero]
              abel,
             by rw [List.filterMap_append, hi.olds]; simp [ho]⟩
            (by simp at hn; omega)
          exact ⟨G', os', h1, hassoc ▸ h2⟩
        | none =>
          simp only
          have hlk := lookupAll_eq vals val (adj g v) (by
            intro u hu
            rw [hadj v (by simp)] at hu
            exact hvals u (List.mem_cons_of_mem _ (hvin u hu)))
          rw [hlk]
          simp only
          rw [hadj v (by simp)]
          have hnot : ∀ w, w ∉ rest → addGrads ((N.inputs v).zip
              (ops.grad v ((N.inputs v).map val) (G v))) G w = G w := by
            intro w hw
            apply addGrads_not_mem
            intro z hz hzw
            obtain ⟨z1, z2⟩ := z
            simp only at hzw
            subst hzw
            exact hw (hvin z1 (List.of_mem_zip hz).1)
          obtain ⟨G', os', h1, h2⟩ := ih (done ++ [v]) rest
            (addGrads ((N.inputs v).zip (ops.grad v ((N.inputs v).map val) (G v))) G) os
            (fun w hw => hadj w (List.mem_cons_of_mem _ hw))
            (fun w hw => hvals w (List.mem_cons_of_mem _ hw))
            (hassoc ▸ hnd) (hassoc ▸ ht)
            (fun w hw => hold w (List.mem_cons_of_mem _ hw))
            (fun w hw => hleaf w (List.mem_cons_of_mem _ hw))
            (fun w hw => hloc w (List.mem_cons_of_mem _ hw))
            (fun w hw => hhh w (List.mem_cons_of_mem _ hw))
            ⟨by
              have e2 : tot pair τ ((done ++ [v]).filter leaf) (addGrads ((N.inputs v).zip
                  (ops.grad v ((N.inputs v).map val) (G v))) G) =
                  tot pair τ ((done ++ [v]).filter leaf) G := by
                apply tot_congr
                intro w hw
                apply hnot
                intro hwr
                exact hrdone w hwr (List.mem_filter.1 hw).1
              rw [e2, tot_addGrads pair τ hadd rest hrn _ (by
                intro z hz
                obtain ⟨z1, z2⟩ := z
                exact hvin z1 (List.of_mem_zip hz).1)]
              rw [hi.sum, List.filter_append, tot_append]
              by_cases hlf : leaf v = true
              · have : [v].filter leaf = [v] := by simp [hlf]
                rw [this, (hleaf v (by simp) hlf).1]
                simp only [tot, List.map_cons, List.sum_cons, List.map_nil, List.sum_nil, add_zero,
                  List.zip_nil_left]
                abel
              · have : [v].filter leaf = [] := by simp [hlf]
                rw [this, ← hloc v (by simp) (by simpa using hlf) (G v)]
                simp only [tot, List.map_cons, List.sum_cons, List.map_nil, List.sum_nil, add_zero]
                abel,
             by
              rw [List.filterMap_append, hi.olds]
              simp only [List.filterMap_cons, ho, Option.map_none, List.filterMap_nil,
                List.append_nil]
              apply List.filterMap_congr
              intro w hw
              rw [hnot]
              intro hwr
              exact hrdone w hwr (List.mem_append_left _ hw)⟩
            (by simp at hn; omega)
          exact ⟨G', os', h1, hassoc ▸ h2⟩

omit [DecidableEq V] in
theorem laterInputs_of_topo {N : Net V} {outs : List V} {g : List (V × List V)} {ts : List V}
    (hg : GraphOk N outs g) (hnd : ts.Nodup) (hm : ∀ v, v ∈ ts ↔ Reach N outs v)
    (ht : Topo g ts) : LaterInputs N ts := by
  intro l₁ v l₂ heq u hu
  have hr := revTopo_of_topo hg hnd hm ht
  have := hr l₂.reverse v l₁.reverse (by rw [heq]; simp) u hu
  simpa using this

omit [DecidableEq V] in
theorem Evals.congr {N : Net V} {f f' : V → List α → α} {ov ov' : V → Option α} {outs : List V}
    (hov : ∀ v, Reach N outs v → ov v = ov' v) (hf : ∀ v, Reach N outs v → f v = f' v)
    {v : V} (hv : Reach N outs v) {a : α} (h : Evals N f ov v a) : Evals N f' ov' v a := by
  induction h with
  | override h => exact Evals.override (by rw [← hov _ hv]; exact h)
  | @node v as h1 h2 _ ih =>
    rw [hf v hv]
    refine Evals.node (by rw [← hov _ hv]; exact h1) h2 (fun p hp => ih p hp ?_)
    obtain ⟨p1, p2⟩ := p
    exact Reach.step hv (List.of_mem_zip hp).1

omit [DecidableEq V] in
theorem evals_exists {N : Net V} (hN : Acyclic N) (f : V → List α → α) (ov : V → Option α) (v : V) :
    ∃ a, Evals N f ov v a := by
  obtain ⟨rank, hr⟩ := hN
  induction hk : rank v using Nat.strongRecOn generalizing v with
  | ind k ih =>
    cases hv : ov v with
    | some a => exact ⟨a, Evals.override hv⟩
    | none =>
      have : ∀ us : List V, (∀ u ∈ us, rank u < rank v) →
          ∃ as : List α, as.length = us.length ∧ ∀ p ∈ us.zip as, Evals N f ov p.1 p.2 := by
        intro us
        induction us with
        | nil => intro _; exact ⟨[], rfl, by simp⟩
        | cons u us ih2 =>
          intro hus
          obtain ⟨as, h1, h2⟩ := ih2 (fun w hw => hus w (List.mem_cons_of_mem _ hw))
          obtain ⟨a, ha⟩ := ih (rank u) (hk ▸ hus u (by simp)) u rfl
          refine ⟨a :: as, by simp [h1], ?_⟩
          intro p hp
          simp only [List.zip_cons_cons, List.mem_cons] at hp
          rcases hp with rfl | hp
          · exact ha
          · exact h2 p hp
      obtain ⟨as, h1, h2⟩ := this (N.inputs v) (fun u hu => hr v u hu)
      exact ⟨f v as, Evals.node hv h1 h2⟩

/-- The forward loop on a constructed graph leaves the specified value at every node. -/
theorem forward_final {N : Net V} (hN : Acyclic N) (f : V → List α → α) (ov : V → Option α)
    (ord : List V → List V) (hord : ∀ l, (ord l).Perm l) (outs : List V)
    (hov : ∀ v, Reach N outs v → N.heavy v = true → ov v = none)
    (hhh : ∀ v, Reach N outs v → N.heavy v = true → ∀ u ∈ N.inputs v, N.heavy u = false)
    {g : List (V × List V)} (hok : GraphOk N outs g) :
    ∃ ts s, topSort g N.heavy ord = some ts ∧ ts.Nodup ∧ (∀ v, v ∈ ts ↔ Reach N outs v) ∧
      Topo g ts ∧ forward g N.heavy f ts.reverse.length ts.reverse ⟨ov, []⟩ = .ok s ∧
      ∀ v, Reach N outs v → ∃ a, s.vals v = some a ∧ Evals N f ov v a := by
  obtain ⟨ts, h1, h2, h3, h4⟩ := topSort_spec hN hok N.heavy ord hord
  have hr := revTopo_of_topo hok h2 h3 h4
  have hmem : ∀ v ∈ ts.reverse, Reach N outs v := fun v hv => (h3 v).1 (List.mem_reverse.1 hv)
  obtain ⟨s, h5, h6⟩ := forward_spec (N := N) (f := f) (ov := ov) (g := g) ts.reverse.length []
    ts.reverse ⟨ov, []⟩
    (fun v hv => adj_of_mem hok.entries ((hok.keys v).2 (hmem v hv)))
    (by rw [List.nil_append]; exact (List.reverse_perm ts).symm.nodup_iff.1 h2) (by simpa using hr)
    (fun v hv => hov v (hmem v hv)) (fun v hv => hhh v (hmem v hv))
    ⟨by simp, by simp, by simp⟩ (Nat.le_refl _)
  exact ⟨ts, s, h1, h2, h3, h4, h5, fun v hv => h6.mem v (by
    rw [List.nil_append, List.mem_reverse]; exact (h3 v).2 hv)⟩

theorem tot_init (pair : γ → E → R) (τ : V → E) (h0 : ∀ t, pair 0 t = 0) (L : List V)
    (hn : L.Nodup) (out : V) (ho : out ∈ L) (seed : γ) :
    tot pair τ L (upd (fun _ => 0) out seed) = pair seed (τ out) := by
  induction L with
  | nil => simp at ho
  | cons w L ih =>
    rw [List.nodup_cons] at hn
    have hz : tot pair τ L (fun _ => (0 : γ)) = 0 := by
      unfold tot
      apply List.sum_eq_zero
      intro x hx
      rw [List.mem_map] at hx
      obtain ⟨y, _, rfl⟩ := hx
      exact h0 _
    by_cases hw : out = w
    · subst hw
      have := tot_upd_not_mem pair τ L (fun _ => (0 : γ)) out seed hn.1
      simp only [tot, List.map_cons, List.sum_cons] at *
      rw [this, hz]
      simp [upd]
    · have hu : out ∈ L := by
        rcases List.mem_cons.1 ho with h | h
        · exact absurd h hw
        · exact h
      have := ih hn.2 hu
      simp only [tot, List.map_cons, List.sum_cons] at *
      rw [this]
      have hwu : w ≠ out := fun h => hw h.symm
      simp [upd, hwu, h0]

theorem sumList_append [AddCommMonoid δ] (a b : List δ) : sumList (a ++ b) = sumList a + sumList b := by
  induction a with
  | nil => simp [sumList]
  | cons x a ih => simp [sumList, ih, add_assoc]

omit [DecidableEq V] [AddCommMonoid γ] in
theorem tot_split [AddCommMonoid δ] (pair : γ → E → R) (τ : V → E) (isVar : V → Bool)
    (ops : GradOps V α γ δ) (pairD : δ → R) (hD0 : pairD 0 = 0)
    (hDadd : ∀ a b, pairD (a + b) = pairD a + pairD b) (L : List V) (G : V → γ)
    (hex : ∀ v ∈ L, isVar v = true → ops.old v = none)
    (hold : ∀ v ∈ L, ∀ c, ops.old v = some c → ∀ x, pairD (c x) = pair x (τ v)) :
    tot pair τ (L.filter (fun v => isVar v || (ops.old v).isSome)) G =
      pairD (sumList (L.filterMap (fun v => (ops.old v).map (fun c => c (G v))))) +
      tot pair τ (L.filter isVar) G := by
  induction L with
  | nil => simp [tot, sumList, hD0]
  | cons v L ih =>
    have ih' := ih (fun w hw => hex w (List.mem_cons_of_mem _ hw))
      (fun w hw => hold w (List.mem_cons_of_mem _ hw))
    by_cases hv : isVar v = true
    · have ho := hex v (by simp) hv
      simp only [List.filter_cons, hv, Bool.true_or, if_true, List.filterMap_cons, ho,
        Option.map_none]
      simp only [tot, List.map_cons, List.sum_cons] at *
      rw [ih']
      abel
    · cases ho : ops.old v with
      | none =>
        simp only [List.filter_cons, hv, ho, Option.isSome_none, Bool.or_false,
          List.filterMap_cons, Option.map_none]
        simpa [hv] using ih'
      | some c =>
        simp only [List.filter_cons, hv, ho, Option.isSome_some, Bool.or_true, if_true,
          List.filterMap_cons, Option.map_some, sumList, hDadd]
        have := hold v (by simp) c ho (G v)
        simp only [tot, List.map_cons, List.sum_cons] at *
        rw [ih', this]
        simp only [Bool.not_eq_true] at hv
        simp
        abel

/-- Algebraic core: the result of `eval_grad`, paired with a parameter perturbation, is the
tangent of the output. -/
theorem evalGrad_pairing [AddCommMonoid δ] {N : Net V} (hN : Acyclic N) (isVar : V → Bool)
    (f : V → List α → α) (ops : GradOps V α γ δ) (ord : List V → List V)
    (hord : ∀ l, (ord l).Perm l) (struct : α) (seed : γ) (pg : γ → δ) (out : V)
    (hone : ∀ x y, Reach N [out] x → Reach N [out] y → isVar x = true → isVar y = true → x = y)
    (hvar : ∀ v, Reach N [out] v → isVar v = true →
      N.heavy v = false ∧ N.inputs v = [] ∧ ops.old v = none)
    (hold : ∀ v, Reach N [out] v → (ops.old v).isSome = true → N.heavy v = false ∧ N.inputs v = [])
    (hhh : ∀ v, Reach N [out] v → N.heavy v = true → ∀ u ∈ N.inputs v, N.heavy u = false)
    {n : Nat} {g : List (V × List V)} (hg : createGraph N n [out] = some g) :
    ∃ r, evalGrad N isVar f ops ord n struct seed pg out = .ok r ∧
      ∀ {E R : Type} [AddCommMonoid R] (pair : γ → E → R) (pairD : δ → R) (τ : V → E) (val : V → α),
        (∀ t, pair 0 t = 0) → (∀ a b t, pair (a + b) t = pair a t + pair b t) →
        pairD 0 = 0 → (∀ a b, pairD (a + b) = pairD a + pairD b) →
        (∀ v, Reach N [out] v →
          Evals N f (fun w => if isVar w = true then some struct else none) v (val v)) →
        (∀ v, Reach N [out] v → ∀ c, ops.old v = some c → ∀ x, pairD (c x) = pair x (τ v)) →
        (∀ v, Reach N [out] v → isVar v = true → ∀ x, pairD (pg x) = pair x (τ v)) →
        (∀ v, Reach N [out] v → isVar v = false → ops.old v = none → ∀ x, pair x (τ v) =
          (((N.inputs v).zip (ops.grad v ((N.inputs v).map val) x)).map
            (fun z => pair z.2 (τ z.1))).sum) →
        pairD r = pair seed (τ out) := by
  have hok := createGraph_ok hg
  have hlen : ¬ 1 < ((g.map Prod.fst).filter isVar).length := by
    intro hlt
    have hnd : ((g.map Prod.fst).filter isVar).Nodup := List.Pairwise.filter _ hok.nodup
    match hl : (g.map Prod.fst).filter isVar with
    | [] => rw [hl] at hlt; simp at hlt
    | [_] => rw [hl] at hlt; simp at hlt
    | x :: y :: l =>
      have hm : ∀ z ∈ (g.map Prod.fst).filter isVar, Reach N [out] z ∧ isVar z = true := by
        intro z hz
        rw [List.mem_filter] at hz
        exact ⟨(hok.keys z).1 hz.1, hz.2⟩
      rw [hl] at hm hnd
      have hx := hm x (by simp)
      have hy := hm y (by simp)
      have := hone x y hx.1 hy.1 hx.2 hy.2
      subst this
      simp at hnd
  have hhead : ∀ v, Reach N [out] v → (((g.map Prod.fst).filter isVar).head? = some v ↔ isVar v = true) := by
    intro v hv
    constructor
    · intro h
      exact (List.mem_filter.1 (List.mem_of_mem_head? h)).2
    · intro h
      have hmem : v ∈ (g.map Prod.fst).filter isVar :=
        List.mem_filter.2 ⟨(hok.keys v).2 hv, h⟩
      match hl : (g.map Prod.fst).filter isVar with
      | [] => rw [hl] at hmem; simp at hmem
      | [x] => rw [hl] at hmem; simp at hmem; simp [hmem]
      | x :: y :: l => rw [hl] at hlen; simp at hlen
  let ov : V → Option α := fun v =>
    if ((g.map Prod.fst).filter isVar).head? = some v then some struct else none
  have hovd : ov = fun v =>
    if ((g.map Prod.fst).filter isVar).head? = some v then some struct else none := rfl
  have hov : ∀ v, Reach N [out] v → ov v = if isVar v = true then some struct else none := by
    intro v hv
    simp only [hovd, hhead v hv]
  obtain ⟨ts, s, h1, h2, h3, h4, h5, h6⟩ := forward_final hN f ov ord hord [out]
    (by
      intro v hv hh
      rw [hov v hv]
      by_cases h : isVar v = true
      · rw [(hvar v hv h).1] at hh; cases hh
      · simp [h]) hhh hok
  have hlater := laterInputs_of_topo hok h2 h3 h4
  let val₀ : V → α := fun v => (s.vals v).getD struct
  have hval₀ : ∀ v ∈ ts, s.vals v = some (val₀ v) := by
    intro v hv
    obtain ⟨a, ha, _⟩ := h6 v ((h3 v).1 hv)
    simp only [val₀, ha, Option.getD_some]
  -- run the loop once (with the trivial pairing) to obtain the result
  have hrun : ∃ G os, backward g N.heavy ops s.vals ts.length ts (upd (fun _ => 0) out seed) []
      = .ok (G, os) := by
    obtain ⟨G, os, h, _⟩ := backward_spec (N := N) (g := g) (E := Unit) (R := Nat) ops s.vals val₀
      (fun _ _ => 0) (fun _ => ()) (fun v => isVar v || (ops.old v).isSome) (fun _ _ _ => rfl) 0
      ts.length [] ts (upd (fun _ => 0) out seed) []
      (fun v hv => adj_of_mem hok.entries ((hok.keys v).2 ((h3 v).1 hv))) hval₀
      (by simpa using h2) (by simpa using hlater)
      (fun v hv ho => ⟨by simp [ho], (hold v ((h3 v).1 hv) ho).1⟩)
      (by
        intro v hv hl
        simp only [Bool.or_eq_true] at hl
        rcases hl with hl | hl
        · exact ⟨(hvar v ((h3 v).1 hv) hl).2.1, (hvar v ((h3 v).1 hv) hl).1⟩
        · exact ⟨(hold v ((h3 v).1 hv) hl).2, (hold v ((h3 v).1 hv) hl).1⟩)
      (fun _ _ _ _ => by simp) (fun v hv => hhh v ((h3 v).1 hv)) ⟨by simp [tot], by simp⟩ (Nat.le_refl _)
    exact ⟨G, os, h⟩
  obtain ⟨G, os, hb⟩ := hrun
  have hres : evalGrad N isVar f ops ord n struct seed pg out =
      match ((g.map Prod.fst).filter isVar).head? with
      | none => .ok (sumList os)
      | some x => .ok (sumList (os ++ [pg (G x)])) := by
    simp only [evalGrad, hg, if_neg hlen, h1]
    rw [← hovd]
    simp only [h5, hb]
    cases ((g.map Prod.fst).filter isVar).head? <;> rfl
  have main : ∀ {E R : Type} [AddCommMonoid R] (pair : γ → E → R) (pairD : δ → R) (τ : V → E)
        (val : V → α),
        (∀ t, pair 0 t = 0) → (∀ a b t, pair (a + b) t = pair a t + pair b t) →
        pairD 0 = 0 → (∀ a b, pairD (a + b) = pairD a + pairD b) →
        (∀ v, Reach N [out] v →
          Evals N f (fun w => if isVar w = true then some struct else none) v (val v)) →
        (∀ v, Reach N [out] v → ∀ c, ops.old v = some c → ∀ x, pairD (c x) = pair x (τ v)) →
        (∀ v, Reach N [out] v → isVar v = false → ops.old v = none → ∀ x, pair x (τ v) =
          (((N.inputs v).zip (ops.grad v ((N.inputs v).map val) x)).map
            (fun z => pair z.2 (τ z.1))).sum) →
        pair seed (τ out) = pairD (sumList os) + tot pair τ (ts.filter isVar) G := by
    intro E R _ pair pairD τ val hp0 hpadd hD0 hDadd hE ho hloc
    have hvals : ∀ v ∈ ts, s.vals v = some (val v) := by
      intro v hv
      obtain ⟨a, ha, hEa⟩ := h6 v ((h3 v).1 hv)
      have := hE v ((h3 v).1 hv)
      have hEa' := Evals.congr (f' := f) (ov' := fun w => if isVar w = true then some struct else none)
        (fun w hw => hov w hw) (fun _ _ => rfl) ((h3 v).1 hv) hEa
      rw [ha, hEa'.unique this]
    obtain ⟨G', os', h, hinv⟩ := backward_spec (N := N) (g := g) ops s.vals val
      pair τ (fun v => isVar v || (ops.old v).isSome) hpadd (pair seed (τ out))
      ts.length [] ts (upd (fun _ => 0) out seed) []
      (fun v hv => adj_of_mem hok.entries ((hok.keys v).2 ((h3 v).1 hv))) hvals
      (by simpa using h2) (by simpa using hlater)
      (fun v hv ho => ⟨by simp [ho], (hold v ((h3 v).1 hv) ho).1⟩)
      (by
        intro v hv hl
        simp only [Bool.or_eq_true] at hl
        rcases hl with hl | hl
        · exact ⟨(hvar v ((h3 v).1 hv) hl).2.1, (hvar v ((h3 v).1 hv) hl).1⟩
        · exact ⟨(hold v ((h3 v).1 hv) hl).2, (hold v ((h3 v).1 hv) hl).1⟩)
      (by
        intro v hv hl
        simp only [Bool.or_eq_false_iff] at hl
        exact hloc v ((h3 v).1 hv) hl.1 (by simpa using hl.2))
      (fun v hv => hhh v ((h3 v).1 hv))
      ⟨by
        rw [tot_init pair τ hp0 ts h2 out ((h3 out).2 (Reach.out (by simp)))]
        simp [tot], by simp⟩ (Nat.le_refl _)
    rw [hb] at h
    injection h with h
    injection h with hG hos
    subst hG hos
    have hsum := hinv.sum
    rw [List.nil_append] at hsum
    rw [hsum, tot_split pair τ isVar ops pairD hD0 hDadd ts G
      (fun v hv hv' => (hvar v ((h3 v).1 hv) hv').2.2) (fun v hv => ho v ((h3 v).1 hv))]
    have := hinv.olds
    rw [List.nil_append] at this
    rw [← this]
    simp [tot]
  cases hh : ((g.map Prod.fst).filter isVar).head? with
  | none =>
    refine ⟨sumList os, by rw [hres, hh], ?_⟩
    intro E R _ pair pairD τ val hp0 hpadd hD0 hDadd hE ho hpg hloc
    rw [main pair pairD τ val hp0 hpadd hD0 hDadd hE ho hloc]
    have : ts.filter isVar = [] := by
      rw [List.filter_eq_nil_iff]
      intro v hv hvv
      have := (hhead v ((h3 v).1 hv)).2 hvv
      rw [hh] at this; cases this
    rw [this]; simp [tot]
  | some x =>
    have hx : Reach N [out] x ∧ isVar x = true := by
      have := List.mem_filter.1 (List.mem_of_mem_head? hh)
      exact ⟨(hok.keys x).1 this.1, this.2⟩
    refine ⟨sumList (os ++ [pg (G x)]), by rw [hres, hh], ?_⟩
    intro E R _ pair pairD τ val hp0 hpadd hD0 hDadd hE ho hpg hloc
    rw [main pair pairD τ val hp0 hpadd hD0 hDadd hE ho hloc, sumList_append, hDadd]
    congr 1
    have : ts.filter isVar = [x] := by
      have hnd : (ts.filter isVar).Nodup := List.Pairwise.filter _ h2
      have hm : ∀ v, v ∈ ts.filter isVar ↔ v = x := by
        intro v
        rw [List.mem_filter, h3]
        constructor
        · rintro ⟨a, b⟩; exact hone v x a hx.1 b hx.2
        · rintro rfl; exact hx
      match hl : ts.filter isVar with
      | [] => rw [hl] at hm; simpa using (hm x).2 rfl
      | [y] => rw [hl] at hm; rw [(hm y).1 (by simp)]
      | y :: z :: l =>
        rw [hl] at hm hnd
        have h1 := (hm y).1 (by simp)
        have h2 := (hm z).1 (by simp)
        subst h1 h2
        simp at hnd
    rw [this]
    simp only [tot, List.map_cons, List.map_nil, List.sum_cons, List.sum_nil, add_zero, sumList]
    exact hpg x hx.1 hx.2 (G x)

end Verif.Exec
