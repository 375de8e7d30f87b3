import Verif.Exec.GoosGradModel
import Verif.Exec.Backward
import Mathlib.Data.List.Nodup
/-
Helper lemmas: the goos backward pass on the heap simulates the backward pass on values as long
as the node gradients do not hand one array to two inputs.
-/
namespace Verif.Exec
variable {V : Type} [DecidableEq V] {α γ : Type}

/-- The gradient function of a node with `k` inputs never gives one array to two inputs: it returns
`gr as (incoming gradient)`, in distinct arrays that are new or the incoming one, and does not
write to existing arrays. -/
def Owned (k : Nat) (hg : List α → Nat → Heap γ → List Nat × Heap γ) (gr : List α → γ → List γ) : Prop :=
  ∀ as r h, as.length = k → r < h.next →
    h.next ≤ (hg as r h).2.next ∧
    (∀ r', r' < h.next → (hg as r h).2.get r' = h.get r') ∧
    (hg as r h).1.Nodup ∧
    (∀ x ∈ (hg as r h).1, x = r ∨ (h.next ≤ x ∧ x < (hg as r h).2.next)) ∧
    (hg as r h).1.map (hg as r h).2.get = gr as (h.get r)

theorem allocAll_spec (xs : List γ) (h : Heap γ) :
    h.next ≤ (Heap.allocAll xs h).2.next ∧
    (∀ r', r' < h.next → (Heap.allocAll xs h).2.get r' = h.get r') ∧
    (Heap.allocAll xs h).1.Nodup ∧
    (∀ x ∈ (Heap.allocAll xs h).1, h.next ≤ x ∧ x < (Heap.allocAll xs h).2.next) ∧
    (Heap.allocAll xs h).1.map (Heap.allocAll xs h).2.get = xs := by
  induction xs generalizing h with
  | nil => simp [Heap.allocAll]
  | cons x xs ih =>
    have ih' := ih (h.alloc x).2
    simp only [Heap.allocAll]
    generalize hq : Heap.allocAll xs (h.alloc x).2 = q at ih' ⊢
    obtain ⟨h1, h2, h3, h4, h5⟩ := ih'
    have hnext : (h.alloc x).2.next = h.next + 1 := rfl
    have hfst : (h.alloc x).1 = h.next := rfl
    rw [hnext] at h1 h2 h4
    refine ⟨by omega, ?_, ?_, ?_, ?_⟩
    · intro r' hr'
      rw [h2 r' (by omega)]
      have : r' ≠ h.next := by omega
      simp [Heap.alloc, this]
    · rw [List.nodup_cons, hfst]
      refine ⟨fun hm => ?_, h3⟩
      have := (h4 _ hm).1
      omega
    · intro y hy
      rw [List.mem_cons, hfst] at hy
      rcases hy with rfl | hy
      · omega
      · have := h4 y hy; omega
    · rw [List.map_cons, h5, hfst, h2 h.next (by omega)]
      simp [Heap.alloc]

/-- `Product`, `Power`, `AbsoluteValue`, `DotProduct` build new arrays. -/
theorem freshGrad_owned (k : Nat) (gr : List α → γ → List γ) : Owned k (freshGrad gr) gr := by
  intro as r h _ hr
  obtain ⟨h1, h2, h3, h4, h5⟩ := allocAll_spec (gr as (h.get r)) h
  exact ⟨h1, h2, h3, fun x hx => Or.inr (h4 x hx), h5⟩

/-- The accumulators seen as values on the live nodes. -/
structure HRel [Zero γ] (live : V → Prop) (s : GState V γ) (G : V → γ) : Prop where
  hnone : ∀ v, live v → s.gv v = none → G v = 0
  hsome : ∀ v r, live v → s.gv v = some r → r < s.heap.next ∧ s.heap.get r = G v
  inj : ∀ u v r, live u → live v → s.gv u = some r → s.gv v = some r → u = v

theorem updateGrads_isSome [Add γ] (zs : List (V × Nat)) (s : GState V γ) (u : V)
    (h : (s.gv u).isSome ∨ u ∈ zs.map Prod.fst) : ((updateGrads zs s).gv u).isSome := by
  induction zs generalizing s with
  | nil => simpa [updateGrads] using h
  | cons z zs ih =>
    obtain ⟨w, x⟩ := z
    simp only [updateGrads]
    cases hw : s.gv w with
    | some r =>
      simp only
      apply ih
      rcases h with h | h
      · exact Or.inl h
      · rw [List.map_cons, List.mem_cons] at h
        rcases h with rfl | h
        · left; simp [hw]
        · exact Or.inr h
    | none =>
      simp only
      apply ih
      by_cases huw : u = w
      · left; simp [upd, huw]
      · rcases h with h | h
        · left; simpa [upd, huw] using h
        · rw [List.map_cons, List.mem_cons] at h
          rcases h with h | h
          · exact absurd h huw
          · exact Or.inr h

theorem updateGrads_rel [AddCommMonoid γ] (live : V → Prop) (zs : List (V × Nat))
    (s : GState V γ) (G : V → γ) (hrel : HRel live s G)
    (hlive : ∀ z ∈ zs, live z.1) (hnd : (zs.map Prod.snd).Nodup)
    (hlt : ∀ z ∈ zs, z.2 < s.heap.next)
    (hfree : ∀ z ∈ zs, ∀ v, live v → s.gv v ≠ some z.2) :
    HRel live (updateGrads zs s) (addGrads (zs.map (fun z => (z.1, s.heap.get z.2))) G) ∧
      (updateGrads zs s).heap.next = s.heap.next := by
  induction zs generalizing s G with
  | nil => exact ⟨hrel, rfl⟩
  | cons z zs ih =>
    obtain ⟨u, x⟩ := z
    rw [List.map_cons, List.nodup_cons] at hnd
    have hul := hlive (u, x) (by simp)
    have hxlt := hlt (u, x) (by simp)
    have hxfree := hfree (u, x) (by simp)
    simp only at hul hxlt hxfree
    simp only [updateGrads, List.map_cons, addGrads]
    cases hu : s.gv u with
    | some r =>
      simp only
      have hr := hrel.hsome u r hul hu
      have hgets : ∀ z ∈ zs, (s.heap.set r (s.heap.get r + s.heap.get x)).get z.2 =
          s.heap.get z.2 := by
        intro z hz
        have : z.2 ≠ r := by
          intro h
          exact hfree z (List.mem_cons_of_mem _ hz) u hul (by rw [h]; exact hu)
        simp [Heap.set, this]
      have := ih ⟨s.gv, s.heap.set r (s.heap.get r + s.heap.get x)⟩
        (upd G u (G u + s.heap.get x)) ?_
        (fun z hz => hlive z (List.mem_cons_of_mem _ hz)) hnd.2
        (fun z hz => hlt z (List.mem_cons_of_mem _ hz))
        (fun z hz => hfree z (List.mem_cons_of_mem _ hz))
      · have e : zs.map (fun z => (z.1, (s.heap.set r (s.heap.get r + s.heap.get x)).get z.2)) =
            zs.map (fun z => (z.1, s.heap.get z.2)) := by
          apply List.map_congr_left
          intro z hz
          rw [hgets z hz]
        simp only [e] at this
        exact ⟨this.1, by rw [this.2]; rfl⟩
      · constructor
        · intro v hv hn
          have : v ≠ u := by rintro rfl; simp only at hn; rw [hu] at hn; cases hn
          simp only [upd, this, if_false]
          exact hrel.hnone v hv hn
        · intro v r' hv hs
          simp only at hs
          have h0 := hrel.hsome v r' hv hs
          refine ⟨h0.1, ?_⟩
          by_cases hvu : v = u
          · subst hvu
            rw [hu] at hs
            injection hs with hs
            subst hs
            simp [Heap.set, upd, hr.2]
          · have : r' ≠ r := by
              rintro rfl
              exact hvu (hrel.inj v u r' hv hul hs hu)
            simp [Heap.set, upd, hvu, this, h0.2]
        · intro a b r' ha hb h1 h2
          exact hrel.inj a b r' ha hb h1 h2
    | none =>
      simp only
      have hG0 : G u = 0 := hrel.hnone u hul hu
      have := ih ⟨upd s.gv u (some x), s.heap⟩ (upd G u (G u + s.heap.get x)) ?_
        (fun z hz => hlive z (List.mem_cons_of_mem _ hz)) hnd.2
        (fun z hz => hlt z (List.mem_cons_of_mem _ hz)) ?_
      · exact this
      · constructor
        · intro v hv hn
          by_cases hvu : v = u
          · subst hvu; simp [upd] at hn
          · simp only [upd, hvu, if_false] at hn ⊢
            exact hrel.hnone v hv hn
        · intro v r' hv hs
          by_cases hvu : v = u
          · subst hvu
            simp only [upd, if_true, Option.some.injEq] at hs
            subst hs
            exact ⟨hxlt, by simp [upd, hG0]⟩
          · simp only [upd, hvu, if_false] at hs ⊢
            exact hrel.hsome v r' hv hs
        · intro a b r' ha hb h1 h2
          by_cases hau : a = u <;> by_cases hbu : b = u
          · rw [hau, hbu]
          · simp only [upd, hau, hbu, if_true, if_false, Option.some.injEq] at h1 h2
            exact absurd (h1 ▸ h2) (hxfree b hb)
          · simp only [upd, hau, hbu, if_true, if_false, Option.some.injEq] at h1 h2
            exact absurd (h2 ▸ h1) (hxfree a ha)
          · simp only [upd, hau, hbu, if_false] at h1 h2
            exact hrel.inj a b r' ha hb h1 h2
      · intro z hz v hv
        by_cases hvu : v = u
        · subst hvu
          simp only [upd, if_true, ne_eq, Option.some.injEq]
          intro h
          exact hnd.1 (List.mem_map.2 ⟨z, hz, h.symm⟩)
        · simp only [upd, hvu, if_false]
          exact hfree z (List.mem_cons_of_mem _ hz) v hv

theorem addGrads_append [Add γ] (a b : List (V × γ)) (G : V → γ) :
    addGrads (a ++ b) G = addGrads b (addGrads a G) := by
  induction a generalizing G with
  | nil => rfl
  | cons z a ih => obtain ⟨u, x⟩ := z; simp [addGrads, ih]

theorem zip_map_right {A B C : Type} (f : B → C) (as : List A) (bs : List B) :
    (as.zip bs).map (fun z => (z.1, f z.2)) = as.zip (bs.map f) := by
  induction as generalizing bs with
  | nil => rfl
  | cons a as ih =>
    cases bs with
    | nil => rfl
    | cons b bs => simp [ih]

theorem heapBlock_spec [Add γ] (g : List (V × List V)) (known : V → Option Nat) (hg : HGrad V α γ)
    (ops : GradOps V α γ Unit) (args : List (V × List α × Nat)) (h : Heap γ)
    (hlt : ∀ a ∈ args, a.2.2 < h.next) (hnd : (args.map (fun a => a.2.2)).Nodup)
    (hk : ∀ a ∈ args, known a.1 = none) (hown : ∀ a ∈ args, Owned a.2.1.length (hg a.1) (ops.grad a.1))
    (hlen : ∀ a ∈ args, ∀ x, (ops.grad a.1 a.2.1 x).length = (adj g a.1).length) :
    h.next ≤ (heapBlock g known hg args h).2.next ∧
    (∀ r', r' < h.next → (heapBlock g known hg args h).2.get r' = h.get r') ∧
    ((heapBlock g known hg args h).1.map Prod.snd).Nodup ∧
    (∀ x ∈ (heapBlock g known hg args h).1.map Prod.snd, (∃ a ∈ args, x = a.2.2) ∨
      (h.next ≤ x ∧ x < (heapBlock g known hg args h).2.next)) ∧
    (heapBlock g known hg args h).1.map Prod.fst = args.flatMap (fun a => adj g a.1) ∧
    ∀ G, addGrads ((heapBlock g known hg args h).1.map
        (fun z => (z.1, (heapBlock g known hg args h).2.get z.2))) G =
      storeGrads g ops (args.map (fun a => (a.1, a.2.1, h.get a.2.2))) G := by
  induction args generalizing h with
  | nil => simp [heapBlock, addGrads, storeGrads]
  | cons a args ih =>
    obtain ⟨v, as, r⟩ := a
    have hkv : known v = none := hk (v, as, r) (by simp)
    have hrlt : r < h.next := hlt (v, as, r) (by simp)
    obtain ⟨o1, o2, o3, o4, o5⟩ := hown (v, as, r) (by simp) as r h rfl hrlt
    have hl : (ops.grad v as (h.get r)).length = (adj g v).length := hlen (v, as, r) (by simp) _
    simp only at o1 o2 o3 o4 o5
    have hrefs : (hg v as r h).1.length = (adj g v).length := by
      rw [← hl, ← o5, List.length_map]
    simp only [heapBlock, evalGradNode, hkv]
    rw [List.map_cons, List.nodup_cons] at hnd
    have ih' := ih (hg v as r h).2
      (fun a ha => Nat.lt_of_lt_of_le (hlt a (List.mem_cons_of_mem _ ha)) o1) hnd.2
      (fun a ha => hk a (List.mem_cons_of_mem _ ha))
      (fun a ha => hown a (List.mem_cons_of_mem _ ha))
      (fun a ha => hlen a (List.mem_cons_of_mem _ ha))
    generalize hq : heapBlock g known hg args (hg v as r h).2 = q at ih' ⊢
    generalize hp : hg v as r h = p at *
    obtain ⟨i1, i2, i3, i4, i5, i6⟩ := ih'
    have hsnd : ((adj g v).zip p.1).map Prod.snd = p.1 :=
      List.map_snd_zip (by omega)
    have hfst : ((adj g v).zip p.1).map Prod.fst = adj g v :=
      List.map_fst_zip (by omega)
    have hplt : ∀ x ∈ p.1, x < p.2.next := by
      intro x hx
      rcases o4 x hx with rfl | hx'
      · omega
      · exact hx'.2
    refine ⟨by omega, ?_, ?_, ?_, ?_, ?_⟩
    · intro r' hr'
      rw [i2 r' (by omega), o2 r' hr']
    · rw [List.map_append, hsnd, List.nodup_append]
      refine ⟨o3, i3, ?_⟩
      rintro x hx y hy rfl
      rcases i4 x hy with ⟨a, ha, hax⟩ | hge
      · have halt := hlt a (List.mem_cons_of_mem _ ha)
        rcases o4 x hx with hxr | hxn
        · exact hnd.1 (List.mem_map.2 ⟨a, ha, by rw [← hax, hxr]⟩)
        · omega
      · have := hplt x hx
        omega
    · intro x hx
      rw [List.map_append, List.mem_append, hsnd] at hx
      rcases hx with hx | hx
      · rcases o4 x hx with hx' | hx'
        · exact Or.inl ⟨(v, as, r), by simp, hx'⟩
        · exact Or.inr (by omega)
      · rcases i4 x hx with ⟨a, ha, hax⟩ | hx'
        · exact Or.inl ⟨a, List.mem_cons_of_mem _ ha, hax⟩
        · exact Or.inr (by omega)
    · rw [List.map_append, hfst, i5]; simp
    · intro G
      rw [List.map_append, addGrads_append, i6, List.map_cons, storeGrads]
      have e1 : args.map (fun a => (a.1, a.2.1, p.2.get a.2.2)) =
          args.map (fun a => (a.1, a.2.1, h.get a.2.2)) := by
        apply List.map_congr_left
        intro a ha
        rw [o2 _ (hlt a (List.mem_cons_of_mem _ ha))]
      rw [e1, zip_map_right]
      have e2 : p.1.map q.2.get = ops.grad v as (h.get r) := by
        rw [← o5]
        apply List.map_congr_left
        intro x hx
        exact i2 x (hplt x hx)
      rw [e2]

theorem heapArgs_eq (g : List (V × List V)) (vals : V → Option α) (val : V → α)
    (gv : V → Option Nat) (ref : V → Nat) (blk : List V)
    (h : ∀ v ∈ blk, ∀ u ∈ adj g v, vals u = some (val u))
    (hr : ∀ v ∈ blk, gv v = some (ref v)) :
    heapArgs g vals gv blk = .ok (blk.map (fun v => (v, (adj g v).map val, ref v))) := by
  induction blk with
  | nil => rfl
  | cons v vs ih =>
    have h1 := lookupAll_eq vals val (adj g v) (h v (by simp))
    have h2 := ih (fun w hw => h w (List.mem_cons_of_mem _ hw))
      (fun w hw => hr w (List.mem_cons_of_mem _ hw))
    simp [heapArgs, h1, h2, hr v (by simp)]

/-- Simulation of the loop. -/
theorem goosBackward_sim [AddCommMonoid γ] {N : Net V} {g : List (V × List V)}
    (known : V → Option Nat) (hg : HGrad V α γ) (ops : GradOps V α γ Unit)
    (hold : ∀ v, ops.old v = none) (vals : V → Option α) (val : V → α) (n : Nat)
    (todo : List V) (s : GState V γ) (G : V → γ) (os : List Unit)
    (hadj : ∀ v ∈ todo, adj g v = N.inputs v)
    (hvals : ∀ v ∈ todo, vals v = some (val v))
    (hnd : todo.Nodup) (ht : LaterInputs N todo)
    (hknown : ∀ v ∈ todo, (known v).isSome → N.inputs v = [] ∧ N.heavy v = false)
    (hown : ∀ v ∈ todo, known v = none → Owned (N.inputs v).length (hg v) (ops.grad v))
    (hlen : ∀ v ∈ todo, known v = none → ∀ x,
      (ops.grad v ((N.inputs v).map val) x).length = (N.inputs v).length)
    (hhh : ∀ v ∈ todo, N.heavy v = true → ∀ u ∈ N.inputs v, N.heavy u = false)
    (hrel : HRel (fun v => v ∈ todo ∨ (known v).isSome) s G)
    (hreach : ∀ v ∈ todo, (s.gv v).isSome ∨ ∃ p ∈ todo, v ∈ N.inputs p)
    (G' : V → γ) (os' : List Unit)
    (hb : backward g N.heavy ops vals n todo G os = .ok (G', os')) :
    ∃ s', goosBackward g N.heavy known hg vals n todo s = .ok s' ∧
      HRel (fun v => (known v).isSome) s' G' := by
  induction n generalizing todo s G os with
  | zero =>
    cases todo with
    | nil =>
      simp only [backward, Except.ok.injEq, Prod.mk.injEq] at hb
      obtain ⟨rfl, _⟩ := hb
      exact ⟨s, rfl, by simpa using hrel⟩
    | cons v rest => simp [backward] at hb
  | succ n ih =>
    cases todo with
    | nil =>
      simp only [backward, Except.ok.injEq, Prod.mk.injEq] at hb
      obtain ⟨rfl, _⟩ := hb
      exact ⟨s, rfl, by simpa using hrel⟩
    | cons v rest =>
      rw [backward] at hb
      rw [goosBackward]
      -- parents come before their inputs
      have hpar : ∀ l₁ w l₂, v :: rest = l₁ ++ w :: l₂ → ∀ p ∈ v :: rest, w ∈ N.inputs p → p ∈ l₁ := by
        intro l₁ w l₂ heq p hp hw
        rw [heq, List.mem_append, List.mem_cons] at hp
        rcases hp with hp | hp
        · exact hp
        · exfalso
          have hnd' := hnd
          rw [heq, List.nodup_append, List.nodup_cons] at hnd'
          rcases hp with rfl | hp
          · exact hnd'.2.1.1 (ht l₁ _ l₂ heq _ hw)
          · obtain ⟨a, b, hab⟩ := List.append_of_mem hp
            have := ht (l₁ ++ w :: a) p b (by rw [heq, hab]; simp) w hw
            exact hnd'.2.1.1 (by rw [hab]; simp [this])
      by_cases hh : N.heavy v = true
      · rw [if_pos hh] at hb ⊢
        have hsplit : (v :: rest).takeWhile N.heavy ++ (v :: rest).dropWhile N.heavy = v :: rest :=
          List.takeWhile_append_dropWhile
        have hblk_sub : ∀ w ∈ (v :: rest).takeWhile N.heavy, w ∈ v :: rest ∧ N.heavy w = true :=
          fun w hw => ⟨(List.takeWhile_prefix N.heavy).subset hw, by
            have := List.all_takeWhile (p := N.heavy) (l := v :: rest)
            rw [List.all_eq_true] at this
            exact this w hw⟩
        generalize hblk : (v :: rest).takeWhile N.heavy = blk at *
        generalize hdrp : (v :: rest).dropWhile N.heavy = drp at *
        have hdsub : ∀ w ∈ drp, w ∈ v :: rest := by
          intro w hw; rw [← hsplit]; exact List.mem_append_right _ hw
        have hnd' := hnd
        rw [← hsplit, List.nodup_append] at hnd'
        have hin : ∀ w ∈ blk, ∀ u ∈ N.inputs w, u ∈ drp := by
          intro w hw u hu
          obtain ⟨b1, b2, hb⟩ := List.append_of_mem hw
          have : u ∈ b2 ++ drp := ht b1 w (b2 ++ drp) (by
            rw [← hsplit, hb]; simp) u hu
          rcases List.mem_append.1 this with h | h
          · exfalso
            have h1 := (hblk_sub u (by rw [hb]; simp [h])).2
            rw [hhh w (hblk_sub w hw).1 (hblk_sub w hw).2 u hu] at h1
            cases h1
          · exact h
        have hvb : ∀ w ∈ blk, ∀ u ∈ adj g w, vals u = some (val u) := by
          intro w hw u hu
          rw [hadj w (hblk_sub w hw).1] at hu
          exact hvals u (hdsub u (hin w hw u hu))
        have hsomeb : ∀ w ∈ blk, (s.gv w).isSome := by
          intro w hw
          rcases hreach w (hblk_sub w hw).1 with h | ⟨p, hp, hwp⟩
          · exact h
          · exfalso
            obtain ⟨b1, b2, hb⟩ := List.append_of_mem hw
            have hpb := hpar b1 w (b2 ++ drp) (by rw [← hsplit, hb]; simp) p hp hwp
            have hpb' : p ∈ blk := by rw [hb]; simp [hpb]
            have h1 := (hblk_sub w hw).2
            rw [hhh p hp (hblk_sub p hpb').2 w hwp] at h1
            cases h1
        have hargsV := gradArgs_eq g vals val G blk hvb
        have hargsH := heapArgs_eq g vals val s.gv (fun w => (s.gv w).getD 0) blk hvb (by
          intro w hw
          have := hsomeb w hw
          cases h : s.gv w with
          | none => rw [h] at this; cases this
          | some r => rfl)
        simp only [hargsV] at hb
        simp only [hargsH]
        have hgetD : ∀ w ∈ blk, s.gv w = some ((s.gv w).getD 0) := by
          intro w hw
          have := hsomeb w hw
          cases h : s.gv w with
          | none => rw [h] at this; cases this
          | some r => rfl
        have hkb : ∀ w ∈ blk, known w = none := by
          intro w hw
          by_contra h
          have := (hknown w (hblk_sub w hw).1 (by
            cases h' : known w with
            | none => exact absurd h' h
            | some _ => rfl)).2
          rw [(hblk_sub w hw).2] at this; cases this
        have hrefv : ∀ w ∈ blk, (s.gv w).getD 0 < s.heap.next ∧ s.heap.get ((s.gv w).getD 0) = G w :=
          fun w hw => hrel.hsome w _ (Or.inl (hblk_sub w hw).1) (hgetD w hw)
        obtain ⟨q1, q2, q3, q4, q5, q6⟩ := heapBlock_spec g known hg ops
          (blk.map (fun v => (v, (adj g v).map val, (s.gv v).getD 0))) s.heap
          (by
            intro a ha
            obtain ⟨w, hw, rfl⟩ := List.mem_map.1 ha
            exact (hrefv w hw).1)
          (by
            rw [List.map_map]
            apply List.Nodup.map_on _ hnd'.1
            intro x hx y hy hxy
            simp only [Function.comp_apply] at hxy
            exact hrel.inj x y _ (Or.inl (hblk_sub x hx).1) (Or.inl (hblk_sub y hy).1) (hgetD x hx)
              (hxy ▸ hgetD y hy))
          (by
            intro a ha
            obtain ⟨w, hw, rfl⟩ := List.mem_map.1 ha
            exact hkb w hw)
          (by
            intro a ha
            obtain ⟨w, hw, rfl⟩ := List.mem_map.1 ha
            simp only [List.length_map]
            rw [hadj w (hblk_sub w hw).1]
            exact hown w (hblk_sub w hw).1 (hkb w hw))
          (by
            intro a ha x
            obtain ⟨w, hw, rfl⟩ := List.mem_map.1 ha
            simp only
            rw [hadj w (hblk_sub w hw).1]
            exact hlen w (hblk_sub w hw).1 (hkb w hw) x)
        generalize hq : heapBlock g known hg
          (blk.map (fun v => (v, (adj g v).map val, (s.gv v).getD 0))) s.heap = q at *
        have hlive' : ∀ w, (w ∈ drp ∨ (known w).isSome) → (w ∈ v :: rest ∨ (known w).isSome) := by
          intro w hw
          rcases hw with hw | hw
          · exact Or.inl (hdsub w hw)
          · exact Or.inr hw
        have hdead : ∀ w, (w ∈ drp ∨ (known w).isSome) → w ∉ blk := by
          intro w hw hwb
          rcases hw with hw | hw
          · exact hnd'.2.2 w hwb w hw rfl
          · rw [hkb w hwb] at hw; cases hw
        have hrel' : HRel (fun w => w ∈ drp ∨ (known w).isSome) ⟨s.gv, q.2⟩ G := by
          constructor
          · intro w hw hn
            exact hrel.hnone w (hlive' w hw) hn
          · intro w r hw hs
            have := hrel.hsome w r (hlive' w hw) hs
            refine ⟨Nat.lt_of_lt_of_le this.1 q1, ?_⟩
            simp only
            rw [q2 r this.1, this.2]
          · intro a b r ha hb h1 h2
            exact hrel.inj a b r (hlive' a ha) (hlive' b hb) h1 h2
        obtain ⟨hrel2, _⟩ := updateGrads_rel (fun w => w ∈ drp ∨ (known w).isSome) q.1
          ⟨s.gv, q.2⟩ G hrel'
          (by
            intro z hz
            have hz1 : z.1 ∈ q.1.map Prod.fst := List.mem_map_of_mem hz
            rw [q5, List.mem_flatMap] at hz1
            obtain ⟨a, ha, hza⟩ := hz1
            obtain ⟨w, hw, rfl⟩ := List.mem_map.1 ha
            simp only at hza
            rw [hadj w (hblk_sub w hw).1] at hza
            exact Or.inl (hin w hw _ hza))
          q3
          (by
            intro z hz
            rcases q4 z.2 (List.mem_map_of_mem hz) with ⟨a, ha, hza⟩ | hza
            · obtain ⟨w, hw, rfl⟩ := List.mem_map.1 ha
              rw [hza]
              exact Nat.lt_of_lt_of_le (hrefv w hw).1 q1
            · exact hza.2)
          (by
            intro z hz w hw hgw
            simp only at hgw
            rcases q4 z.2 (List.mem_map_of_mem hz) with ⟨a, ha, hza⟩ | hza
            · obtain ⟨x, hx, rfl⟩ := List.mem_map.1 ha
              simp only at hza
              have := hrel.inj w x z.2 (hlive' w hw) (Or.inl (hblk_sub x hx).1) hgw
                (by rw [hza]; exact hgetD x hx)
              subst this
              exact hdead w hw hx
            · have := (hrel.hsome w z.2 (hlive' w hw) hgw).1
              omega)
        simp only at hrel2
        rw [q6] at hrel2
        have eG : (blk.map (fun v => (v, (adj g v).map val, (s.gv v).getD 0))).map
            (fun a => (a.1, a.2.1, s.heap.get a.2.2)) =
            blk.map (fun v => (v, (adj g v).map val, G v)) := by
          rw [List.map_map]
          apply List.map_congr_left
          intro w hw
          simp only [Function.comp_apply]
          rw [(hrefv w hw).2]
        rw [eG] at hrel2
        refine ih drp _ _ os (fun w hw => hadj w (hdsub w hw)) (fun w hw => hvals w (hdsub w hw))
          hnd'.2.1 ?_ (fun w hw => hknown w (hdsub w hw)) (fun w hw => hown w (hdsub w hw))
          (fun w hw => hlen w (hdsub w hw)) (fun w hw => hhh w (hdsub w hw)) hrel2 ?_ hb
        · intro l₁ w l₂ heq u hu
          exact ht (blk ++ l₁) w l₂ (by rw [← hsplit, heq]; simp) u hu
        · intro w hw
          rcases hreach w (hdsub w hw) with h | ⟨p, hp, hwp⟩
          · exact Or.inl (updateGrads_isSome _ _ _ (Or.inl h))
          · rw [← hsplit, List.mem_append] at hp
            rcases hp with hp | hp
            · left
              apply updateGrads_isSome
              right
              rw [q5, List.mem_flatMap]
              exact ⟨_, List.mem_map_of_mem hp, by
                simp only
                rw [hadj p (hblk_sub p hp).1]; exact hwp⟩
            · exact Or.inr ⟨p, hp, hwp⟩
      · rw [if_neg hh] at hb ⊢
        have hvin : ∀ u ∈ N.inputs v, u ∈ rest := fun u hu => ht [] v rest rfl u hu
        have hvmem : v ∈ v :: rest := by simp
        rw [List.nodup_cons] at hnd
        have hlook := lookupAll_eq vals val (adj g v) (by
          intro u hu
          rw [hadj v hvmem] at hu
          exact hvals u (List.mem_cons_of_mem _ (hvin u hu)))
        have hvs : (s.gv v).isSome := by
          rcases hreach v hvmem with h | ⟨p, hp, hvp⟩
          · exact h
          · have := hpar [] v rest rfl p hp hvp
            simp at this
        obtain ⟨r, hr⟩ := Option.isSome_iff_exists.1 hvs
        simp only [hold, hlook] at hb
        simp only [hlook, hr]
        have hrest : ∀ w ∈ rest, w ∈ v :: rest := fun w hw => List.mem_cons_of_mem _ hw
        have hlater : LaterInputs N rest := by
          intro l₁ w l₂ heq u hu
          exact ht (v :: l₁) w l₂ (by rw [heq]; rfl) u hu
        have hrv := hrel.hsome v r (Or.inl hvmem) hr
        cases hkv : known v with
        | some k =>
          have hin := (hknown v hvmem (by rw [hkv]; rfl)).1
          rw [hadj v hvmem, hin] at hb ⊢
          simp only [List.zip_nil_left, addGrads, updateGrads, evalGradNode, hkv] at hb ⊢
          refine ih rest s G os (fun w hw => hadj w (hrest w hw)) (fun w hw => hvals w (hrest w hw))
            hnd.2 hlater (fun w hw => hknown w (hrest w hw)) (fun w hw => hown w (hrest w hw))
            (fun w hw => hlen w (hrest w hw)) (fun w hw => hhh w (hrest w hw)) ?_ ?_ hb
          · constructor
            · intro w hw; exact hrel.hnone w (hw.imp (hrest w) id)
            · intro w r hw; exact hrel.hsome w r (hw.imp (hrest w) id)
            · intro a b r ha hb; exact hrel.inj a b r (ha.imp (hrest a) id) (hb.imp (hrest b) id)
          · intro w hw
            rcases hreach w (hrest w hw) with h | ⟨p, hp, hwp⟩
            · exact Or.inl h
            · rcases List.mem_cons.1 hp with rfl | hp
              · rw [hin] at hwp; cases hwp
              · exact Or.inr ⟨p, hp, hwp⟩
        | none =>
          simp only [evalGradNode, hkv]
          obtain ⟨o1, o2, o3, o4, o5⟩ := hown v hvmem hkv ((adj g v).map val) r s.heap
            (by rw [List.length_map, hadj v hvmem]) hrv.1
          have hl := hlen v hvmem hkv (s.heap.get r)
          rw [← hadj v hvmem] at hl
          generalize hp : hg v ((adj g v).map val) r s.heap = p at *
          have hrefs : p.1.length = (adj g v).length := by
            rw [← hl, ← o5, List.length_map]
          have hsnd : ((adj g v).zip p.1).map Prod.snd = p.1 := List.map_snd_zip (by omega)
          have hfst : ((adj g v).zip p.1).map Prod.fst = adj g v := List.map_fst_zip (by omega)
          have hlive' : ∀ w, (w ∈ rest ∨ (known w).isSome) → (w ∈ v :: rest ∨ (known w).isSome) :=
            fun w hw => hw.imp (hrest w) id
          have hdead : ∀ w, (w ∈ rest ∨ (known w).isSome) → w ≠ v := by
            rintro w hw rfl
            rcases hw with hw | hw
            · exact hnd.1 hw
            · rw [hkv] at hw; cases hw
          have hrel' : HRel (fun w => w ∈ rest ∨ (known w).isSome) ⟨s.gv, p.2⟩ G := by
            constructor
            · intro w hw hn
              exact hrel.hnone w (hlive' w hw) hn
            · intro w r hw hs
              have := hrel.hsome w r (hlive' w hw) hs
              refine ⟨Nat.lt_of_lt_of_le this.1 o1, ?_⟩
              simp only
              rw [o2 r this.1, this.2]
            · intro a b r ha hb h1 h2
              exact hrel.inj a b r (hlive' a ha) (hlive' b hb) h1 h2
          obtain ⟨hrel2, _⟩ := updateGrads_rel (fun w => w ∈ rest ∨ (known w).isSome)
            ((adj g v).zip p.1) ⟨s.gv, p.2⟩ G hrel'
            (by
              intro z hz
              have hz1 : z.1 ∈ ((adj g v).zip p.1).map Prod.fst := List.mem_map_of_mem hz
              rw [hfst, hadj v hvmem] at hz1
              exact Or.inl (hvin _ hz1))
            (by rw [hsnd]; exact o3)
            (by
              intro z hz
              have hz2 : z.2 ∈ ((adj g v).zip p.1).map Prod.snd := List.mem_map_of_mem hz
              rw [hsnd] at hz2
              rcases o4 z.2 hz2 with h | h
              · rw [h]; exact Nat.lt_of_lt_of_le hrv.1 o1
              · exact h.2)
            (by
              intro z hz w hw hgw
              simp only at hgw
              have hz2 : z.2 ∈ ((adj g v).zip p.1).map Prod.snd := List.mem_map_of_mem hz
              rw [hsnd] at hz2
              rcases o4 z.2 hz2 with h | h
              · rw [h] at hgw
                exact hdead w hw (hrel.inj w v r (hlive' w hw) (Or.inl hvmem) hgw hr)
              · have := (hrel.hsome w z.2 (hlive' w hw) hgw).1
                omega)
          simp only at hrel2
          rw [zip_map_right, o5, hrv.2] at hrel2
          refine ih rest _ _ os (fun w hw => hadj w (hrest w hw)) (fun w hw => hvals w (hrest w hw))
            hnd.2 hlater (fun w hw => hknown w (hrest w hw)) (fun w hw => hown w (hrest w hw))
            (fun w hw => hlen w (hrest w hw)) (fun w hw => hhh w (hrest w hw)) hrel2 ?_ hb
          intro w hw
          rcases hreach w (hrest w hw) with h | ⟨p', hp', hwp⟩
          · exact Or.inl (updateGrads_isSome _ _ _ (Or.inl h))
          · rcases List.mem_cons.1 hp' with rfl | hp'
            · left
              apply updateGrads_isSome
              right
              rw [hfst, hadj p' hvmem]; exact hwp
            · exact Or.inr ⟨p', hp', hwp⟩

theorem backward_untouched {δ : Type} [AddCommMonoid γ] {g : List (V × List V)} {heavy : V → Bool}
    (ops : GradOps V α γ δ) (vals : V → Option α) (n : Nat) (todo : List V) (G G' : V → γ)
    (os os' : List δ) (w : V) (hw : ∀ v ∈ todo, w ∉ adj g v)
    (hb : backward g heavy ops vals n todo G os = .ok (G', os')) : G' w = G w := by
  induction n generalizing todo G os with
  | zero =>
    cases todo with
    | nil =>
      simp only [backward, Except.ok.injEq, Prod.mk.injEq] at hb
      rw [hb.1]
    | cons v rest => simp [backward] at hb
  | succ n ih =>
    cases todo with
    | nil =>
      simp only [backward, Except.ok.injEq, Prod.mk.injEq] at hb
      rw [hb.1]
    | cons v rest =>
      rw [backward] at hb
      by_cases hh : heavy v = true
      · rw [if_pos hh] at hb
        have hsub : ∀ x ∈ (v :: rest).takeWhile heavy, x ∈ v :: rest :=
          fun x hx => (List.takeWhile_prefix heavy).subset hx
        cases ha : gradArgs g vals G ((v :: rest).takeWhile heavy) with
        | error e => simp [ha] at hb
        | ok args =>
          simp only [ha] at hb
          rw [ih _ _ _ (fun x hx => hw x ((List.dropWhile_suffix heavy).subset hx)) hb]
          apply storeGrads_not_mem
          intro a haa
          have : a.1 ∈ (v :: rest).takeWhile heavy := by
            clear hb hh hsub ih hw
            generalize (v :: rest).takeWhile heavy = blk at ha
            induction blk generalizing args with
            | nil => simp only [gradArgs, Except.ok.injEq] at ha; subst ha; cases haa
            | cons x blk ihb =>
              simp only [gradArgs] at ha
              cases h1 : lookupAll vals (adj g x) with
              | error e => simp [h1] at ha
              | ok as =>
                cases h2 : gradArgs g vals G blk with
                | error e => simp [h1, h2] at ha
                | ok rest' =>
                  simp only [h1, h2, Except.ok.injEq] at ha
                  subst ha
                  rcases List.mem_cons.1 haa with rfl | haa
                  · simp
                  · exact List.mem_cons_of_mem _ (ihb rest' haa h2)
          exact hw _ (hsub _ this)
      · rw [if_neg hh] at hb
        cases ho : ops.old v with
        | some c =>
          simp only [ho] at hb
          exact ih _ _ _ (fun x hx => hw x (List.mem_cons_of_mem _ hx)) hb
        | none =>
          cases hl : lookupAll vals (adj g v) with
          | error e => simp [ho, hl] at hb
          | ok as =>
            simp only [ho, hl] at hb
            rw [ih _ _ _ (fun x hx => hw x (List.mem_cons_of_mem _ hx)) hb]
            apply addGrads_not_mem
            rintro ⟨z1, z2⟩ hz rfl
            exact hw v (by simp) (List.of_mem_zip hz).1

theorem sum_filter_of_zero {A R : Type} [AddCommMonoid R] (l : List A) (p : A → Bool) (F : A → R)
    (h : ∀ x ∈ l, p x = false → F x = 0) : ((l.filter p).map F).sum = (l.map F).sum := by
  induction l with
  | nil => rfl
  | cons x l ih =>
    have ih' := ih (fun y hy => h y (List.mem_cons_of_mem _ hy))
    by_cases hx : p x = true
    · simp [hx, ih']
    · have : p x = false := by simpa using hx
      simp [this, ih', h x (by simp) this]

theorem evalGradGoos_pairing [AddCommMonoid γ] {N : Net V} (hN : Acyclic N)
    (f : V → List α → α) (hg : HGrad V α γ) (gr : V → List α → γ → List γ)
    (ord : List V → List V) (hord : ∀ l, (ord l).Perm l) (ov : V → Option α) (seed kn : γ)
    (pv vars : List V) (hpv : pv.Nodup) (hov : ∀ v, (ov v).isSome ↔ v ∈ pv)
    (out : V)
    (hvar : ∀ v ∈ pv, N.heavy v = false ∧ N.inputs v = [])
    (hhh : ∀ v, Reach N [out] v → N.heavy v = true → ∀ u ∈ N.inputs v, N.heavy u = false)
    (hown : ∀ v, v ∉ pv → Owned (N.inputs v).length (hg v) (gr v))
    (hlen : ∀ v, v ∉ pv → ∀ as x, as.length = (N.inputs v).length →
      (gr v as x).length = (N.inputs v).length)
    {n : Nat} {g : List (V × List V)} (hgr : createGraph N n [out] = some g) :
    ∃ ρ : V → γ, evalGradGoos N f hg ord n ov seed kn vars out = .ok (vars.map ρ) ∧
      ∀ {E R : Type} [AddCommMonoid R] (pair : γ → E → R) (τ : V → E) (val : V → α),
        (∀ t, pair 0 t = 0) → (∀ a b t, pair (a + b) t = pair a t + pair b t) →
        (∀ v, Reach N [out] v → Evals N f ov v (val v)) →
        (∀ v, Reach N [out] v → v ∉ pv → ∀ x, pair x (τ v) =
          (((N.inputs v).zip (gr v ((N.inputs v).map val) x)).map
            (fun z => pair z.2 (τ z.1))).sum) →
        (pv.map (fun v => pair (ρ v) (τ v))).sum = pair seed (τ out) := by
  have hok := createGraph_ok hgr
  have hknv : ∀ v, ((ov v).map (fun _ => (1 : Nat))).isSome ↔ v ∈ pv := by
    intro v; rw [Option.isSome_map]; exact hov v
  have hovn : ∀ v, v ∉ pv ↔ ov v = none := by
    intro v
    rw [← hov v]
    cases ov v <;> simp
  obtain ⟨ts, s, h1, h2, h3, h4, h5, h6⟩ := forward_final hN f ov ord hord [out]
    (by
      intro v hv hh
      rw [← hovn]
      intro hm
      rw [(hvar v hm).1] at hh; cases hh) hhh hok
  have hlater := laterInputs_of_topo hok h2 h3 h4
  have hadj : ∀ v ∈ ts, adj g v = N.inputs v :=
    fun v hv => adj_of_mem hok.entries ((hok.keys v).2 ((h3 v).1 hv))
  have hvals0 : ∃ val₀ : V → α, ∀ v ∈ ts, s.vals v = some (val₀ v) := by
    obtain ⟨a₀, _, _⟩ := h6 out (Reach.out (by simp))
    refine ⟨fun v => (s.vals v).getD a₀, ?_⟩
    intro v hv
    obtain ⟨a, ha, _⟩ := h6 v ((h3 v).1 hv)
    simp only [ha, Option.getD_some]
  obtain ⟨val₀, hval₀⟩ := hvals0
  let ops : GradOps V α γ Unit := ⟨gr, fun _ => none⟩
  have hleaf : ∀ v ∈ ts, (decide (v ∈ pv)) = true → N.inputs v = [] ∧ N.heavy v = false := by
    intro v _ h
    have := hvar v (by simpa using h)
    exact ⟨this.2, this.1⟩
  obtain ⟨G, os, hb, _⟩ := backward_spec (N := N) (g := g) (E := Unit) (R := Nat) ops s.vals val₀
    (fun _ _ => 0) (fun _ => ()) (fun v => decide (v ∈ pv)) (fun _ _ _ => rfl) 0
    ts.length [] ts (upd (fun _ => 0) out seed) [] hadj hval₀
    (by simpa using h2) (by simpa using hlater)
    (fun v _ ho => by simp [ops] at ho) hleaf
    (fun _ _ _ _ => by simp) (fun v hv => hhh v ((h3 v).1 hv)) ⟨by simp [tot], by simp⟩ (Nat.le_refl _)
  obtain ⟨st, hst, hrel⟩ := goosBackward_sim (N := N) (g := g)
    (fun v => (ov v).map (fun _ => 1)) hg ops (fun _ => rfl) s.vals val₀ ts.length ts
    ⟨upd (fun _ => none) out (some 0), ⟨fun r => if r = 0 then seed else kn, 2⟩⟩
    (upd (fun _ => 0) out seed) [] hadj hval₀ h2 hlater
    (fun v _ hk => ⟨(hvar v ((hknv v).1 hk)).2, (hvar v ((hknv v).1 hk)).1⟩)
    (fun v _ hk => hown v ((hovn v).2 (by simpa using hk)))
    (fun v _ hk x => hlen v ((hovn v).2 (by simpa using hk)) _ x (by simp))
    (fun v hv => hhh v ((h3 v).1 hv))
    (by
      constructor
      · intro v _ hn
        by_cases hv : v = out
        · subst hv; simp [upd] at hn
        · simp [upd, hv]
      · intro v r _ hs
        by_cases hv : v = out
        · subst hv
          simp only [upd, if_true, Option.some.injEq] at hs
          subst hs
          simp [upd]
        · simp [upd, hv] at hs
      · intro a b r _ _ ha hb
        by_cases hv : a = out
        · by_cases hv' : b = out
          · rw [hv, hv']
          · simp [upd, hv'] at hb
        · simp [upd, hv] at ha)
    (by
      intro v hv
      have := (h3 v).1 hv
      cases this with
      | out h => left; simp at h; simp [upd, h]
      | step hp hvp => exact Or.inr ⟨_, (h3 _).2 hp, hvp⟩)
    G os hb
  let ρ : V → γ := fun v => match st.gv v with
    | some r => st.heap.get r
    | none => 0
  have hρ : ∀ v ∈ pv, ρ v = G v := by
    intro v hv
    simp only [ρ]
    cases h : st.gv v with
    | none => exact (hrel.hnone v ((hknv v).2 hv) h).symm
    | some r => exact (hrel.hsome v r ((hknv v).2 hv) h).2
  refine ⟨ρ, ?_, ?_⟩
  · simp only [evalGradGoos, hgr, h1, h5, hst]
    rfl
  · intro E R _ pair τ val hp0 hpadd hE hloc
    have hvals : ∀ v ∈ ts, s.vals v = some (val v) := by
      intro v hv
      obtain ⟨a, ha, hEa⟩ := h6 v ((h3 v).1 hv)
      rw [ha, hEa.unique (hE v ((h3 v).1 hv))]
    obtain ⟨G', os', h, hinv⟩ := backward_spec (N := N) (g := g) ops s.vals val
      pair τ (fun v => decide (v ∈ pv)) hpadd (pair seed (τ out))
      ts.length [] ts (upd (fun _ => 0) out seed) [] hadj hvals
      (by simpa using h2) (by simpa using hlater)
      (fun v _ ho => by simp [ops] at ho) hleaf
      (by
        intro v hv hl
        exact hloc v ((h3 v).1 hv) (by simpa using hl))
      (fun v hv => hhh v ((h3 v).1 hv))
      ⟨by
        rw [tot_init pair τ hp0 ts h2 out ((h3 out).2 (Reach.out (by simp)))]
        simp [tot], by simp⟩ (Nat.le_refl _)
    rw [hb] at h
    injection h with h
    injection h with hG hos
    subst hG hos
    have hsum := hinv.sum
    rw [List.nil_append] at hsum
    rw [hsum]
    have e0 : pv.map (fun v => pair (ρ v) (τ v)) = pv.map (fun v => pair (G v) (τ v)) := by
      apply List.map_congr_left
      intro v hv; rw [hρ v hv]
    rw [e0, ← sum_filter_of_zero pv (fun v => decide (v ∈ ts))]
    · have hperm : (pv.filter (fun v => decide (v ∈ ts))).Perm (ts.filter (fun v => decide (v ∈ pv))) := by
        rw [List.perm_ext_iff_of_nodup (List.Pairwise.filter _ hpv) (List.Pairwise.filter _ h2)]
        intro v
        simp only [List.mem_filter, decide_eq_true_eq]
        exact and_comm
      simp only [tot, List.map_nil, List.sum_nil, add_zero]
      exact (hperm.map _).sum_eq
    · intro v _ hv
      have hvt : v ∉ ts := by simpa using hv
      have : G v = upd (fun _ => 0) out seed v := by
        refine backward_untouched ops s.vals ts.length ts _ G [] os v ?_ hb
        intro p hp hvp
        rw [hadj p hp] at hvp
        exact hvt ((h3 v).2 (Reach.step ((h3 p).1 hp) hvp))
      rw [this]
      have hvo : v ≠ out := by
        rintro rfl
        exact hvt ((h3 v).2 (Reach.out (by simp)))
      simp [upd, hvo, hp0]

end Verif.Exec
