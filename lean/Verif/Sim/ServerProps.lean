import Verif.Sim.Server
import Mathlib.Tactic.NormNum
import Mathlib.Data.List.Basic
set_option linter.unusedVariables false
/-
Property C99: the exchange of files with a simulation server.
-/
namespace Verif.Sim.Server
variable {B : Type}

/-! ### Lemmas -/

theorem put_same (s : Store B) (k : String) (d : List B) : (s.put k d) k = some d := by
  unfold Store.put; exact Function.update_self _ _ _

theorem put_other (s : Store B) (k k' : String) (d : List B) (h : k' ≠ k) : (s.put k d) k' = s k' := by
  unfold Store.put; exact Function.update_of_ne h _ _

theorem put_put (s : Store B) (k : String) (d d' : List B) : (s.put k d).put k d' = s.put k d' := by
  unfold Store.put; exact Function.update_idem _ _ _

theorem read_fresh (c : List B) : (Handle.mk c 0).read = (c, ⟨c, c.length⟩) := rfl

theorem read_end (c : List B) : (Handle.mk c c.length).read = ([], ⟨c, c.length⟩) := by
  simp [Handle.read]

/-- After the file has been read once, everything that is sent is empty. -/
theorem uploadLoop_end (key : String) (c : List B) (net : List Net) (s : Store B) (s' : Store B) (rest : List Net)
    (h : (uploadLoop key net ⟨c, c.length⟩ s).2 = some (s', rest)) : s' = s.put key [] := by
  induction net generalizing s with
  | nil => simp [uploadLoop] at h
  | cons n net ih =>
    cases n with
    | ok => simp only [uploadLoop, read_end, Option.some.injEq, Prod.mk.injEq] at h; exact h.1.symm
    | lost => simp only [uploadLoop, read_end] at h; exact ih s h
    | unanswered =>
      simp only [uploadLoop, read_end] at h
      rw [ih _ h, put_put]

/-- Only the file's own key is touched, and only by presence. -/
theorem uploadLoop_trace (key : String) (net : List Net) (h : Handle B) (s : Store B) :
    (∀ x ∈ (uploadLoop key net h s).1, (∀ k, k ≠ key → x k = s k) ∧ ((s key).isSome → (x key).isSome)) ∧
    (∀ s' rest, (uploadLoop key net h s).2 = some (s', rest) → (∀ k, k ≠ key → s' k = s k) ∧ (s' key).isSome) := by
  induction net generalizing h s with
  | nil => simp [uploadLoop]
  | cons n net ih =>
    cases n with
    | ok =>
      constructor
      · intro x hx
        simp only [uploadLoop, List.mem_singleton] at hx
        subst hx
        exact ⟨fun k hk => put_other _ _ _ _ hk, fun _ => by rw [put_same]; rfl⟩
      · intro s' rest he
        simp only [uploadLoop, Option.some.injEq, Prod.mk.injEq] at he
        obtain ⟨rfl, _⟩ := he
        exact ⟨fun k hk => put_other _ _ _ _ hk, by rw [put_same]; rfl⟩
    | lost =>
      obtain ⟨i1, i2⟩ := ih h.read.2 s
      constructor
      · intro x hx
        simp only [uploadLoop, List.mem_cons] at hx
        rcases hx with rfl | hx
        · exact ⟨fun _ _ => rfl, id⟩
        · exact i1 x hx
      · intro s' rest he
        simp only [uploadLoop] at he
        exact i2 s' rest he
    | unanswered =>
      obtain ⟨i1, i2⟩ := ih h.read.2 (s.put key h.read.1)
      constructor
      · intro x hx
        simp only [uploadLoop, List.mem_cons] at hx
        rcases hx with rfl | hx
        · exact ⟨fun k hk => put_other _ _ _ _ hk, fun _ => by rw [put_same]; rfl⟩
        · obtain ⟨a, b⟩ := i1 x hx
          exact ⟨fun k hk => by rw [a k hk, put_other _ _ _ _ hk], fun _ => b (by rw [put_same]; rfl)⟩
      · intro s' rest he
        simp only [uploadLoop] at he
        obtain ⟨a, b⟩ := i2 s' rest he
        exact ⟨fun k hk => by rw [a k hk, put_other _ _ _ _ hk], b⟩

theorem uploadFiles_trace (fs : List (String × List B)) (net : List Net) (s : Store B) :
    (∀ x ∈ (uploadFiles fs net s).1, (∀ k, k ∉ fs.map Prod.fst → x k = s k) ∧ (∀ k, (s k).isSome → (x k).isSome)) ∧
    (∀ s' rest, (uploadFiles fs net s).2 = some (s', rest) → (∀ k, k ∉ fs.map Prod.fst → s' k = s k) ∧
      (∀ k, (s k).isSome → (s' k).isSome) ∧ ∀ k ∈ fs.map Prod.fst, (s' k).isSome) := by
  induction fs generalizing net s with
  | nil => simp [uploadFiles]
  | cons f fs ih =>
    obtain ⟨key, c⟩ := f
    obtain ⟨t1, t2⟩ := uploadLoop_trace key net ⟨c, 0⟩ s
    have keep : ∀ x : Store B, (∀ k, k ≠ key → x k = s k) ∧ ((s key).isSome → (x key).isSome) →
        (∀ k, k ∉ (((key, c) :: fs).map Prod.fst) → x k = s k) ∧ (∀ k, (s k).isSome → (x k).isSome) := by
      rintro x ⟨a, b⟩
      refine ⟨fun k hk => a k (by simp at hk; exact hk.1), fun k hk => ?_⟩
      by_cases e : k = key
      · subst e; exact b hk
      · rw [a k e]; exact hk
    cases hl : uploadLoop key net ⟨c, 0⟩ s with
    | mk tr res =>
      rw [hl] at t1 t2
      cases res with
      | none =>
        constructor
        · intro x hx
          simp only [uploadFiles, hl] at hx
          exact keep x (t1 x hx)
        · intro s' rest he
          simp [uploadFiles, hl] at he
      | some p =>
        obtain ⟨s1, net1⟩ := p
        obtain ⟨b1, b2⟩ := t2 s1 net1 rfl
        obtain ⟨i1, i2⟩ := ih net1 s1
        have k1 := keep s1 ⟨b1, fun _ => b2⟩
        constructor
        · intro x hx
          simp only [uploadFiles, hl, List.mem_append] at hx
          rcases hx with hx | hx
          · exact keep x (t1 x hx)
          · obtain ⟨a, b⟩ := i1 x hx
            exact ⟨fun k hk => by rw [a k (by simp at hk ⊢; exact hk.2), k1.1 k hk], fun k hk => b k (k1.2 k hk)⟩
        · intro s' rest he
          simp only [uploadFiles, hl] at he
          obtain ⟨a, b, d⟩ := i2 s' rest he
          refine ⟨fun k hk => by rw [a k (by simp at hk ⊢; exact hk.2), k1.1 k hk], fun k hk => b k (k1.2 k hk), fun k hk => ?_⟩
          simp only [List.map_cons, List.mem_cons] at hk
          rcases hk with rfl | hk
          · exact b _ b2
          · exact d k hk

/-! ### C99: uploads -/

/-- What the server has after the upload of one file, for every pattern of failures: the file if the first attempt
was answered, and an empty file after any failure, because the file is not rewound. As long as every attempt fails
the client keeps trying. -/
theorem upload_exact (key : String) (c : List B) (s : Store B) (fails rest : List Net) (hf : ∀ n ∈ fails, n ≠ Net.ok) :
    (uploadLoop key (fails ++ Net.ok :: rest) ⟨c, 0⟩ s).2 = some (s.put key (if fails = [] then c else []), rest) ∧
    (uploadLoop key fails ⟨c, 0⟩ s).2 = none := by
  have gen : ∀ (fails : List Net) (h : Handle B) (s : Store B), (∀ n ∈ fails, n ≠ Net.ok) →
      (∃ s', (uploadLoop key (fails ++ Net.ok :: rest) h s).2 = some (s', rest)) ∧ (uploadLoop key fails h s).2 = none := by
    intro fails
    induction fails with
    | nil => intro h s _; exact ⟨⟨_, rfl⟩, rfl⟩
    | cons n fails ih =>
      intro h s hn
      have hn' : ∀ m ∈ fails, m ≠ Net.ok := fun m hm => hn m (List.mem_cons_of_mem _ hm)
      cases n with
      | ok => exact absurd rfl (hn Net.ok (List.mem_cons_self ..))
      | lost => simp only [List.cons_append, uploadLoop]; exact ih _ _ hn'
      | unanswered => simp only [List.cons_append, uploadLoop]; exact ih _ _ hn'
  refine ⟨?_, (gen fails _ s hf).2⟩
  cases fails with
  | nil => rw [if_pos rfl]; rfl
  | cons n fails =>
    have hf' : ∀ m ∈ fails, m ≠ Net.ok := fun m hm => hf m (List.mem_cons_of_mem _ hm)
    rw [if_neg (by simp)]
    cases n with
    | ok => exact absurd rfl (hf Net.ok (List.mem_cons_self ..))
    | lost =>
      simp only [List.cons_append, uploadLoop, read_fresh]
      obtain ⟨s', hs⟩ := (gen fails ⟨c, c.length⟩ s hf').1
      rw [hs, uploadLoop_end key c _ s s' rest hs]
    | unanswered =>
      simp only [List.cons_append, uploadLoop, read_fresh]
      obtain ⟨s', hs⟩ := (gen fails ⟨c, c.length⟩ (s.put key c) hf').1
      rw [hs, uploadLoop_end key c _ _ s' rest hs, put_put]

/-- If no connection fails, the server has every file with its content, and the file that starts the simulation;
nothing else on the server has changed. -/
theorem submit_complete_partial (fs : List (String × List B)) (request : String × List B)
    (hnd : ((fs ++ [request]).map Prod.fst).Nodup) (net : List Net) (hnet : ∀ n ∈ net, n = Net.ok)
    (hlen : fs.length < net.length) (s : Store B) :
    ∃ s' rest, (submit fs request net s).2 = some (s', rest) ∧ (∀ f ∈ fs ++ [request], s' f.1 = some f.2) ∧
      ∀ k, k ∉ (fs ++ [request]).map Prod.fst → s' k = s k := by
  have gen : ∀ (fs : List (String × List B)) (net : List Net) (s : Store B), (fs.map Prod.fst).Nodup →
      (∀ n ∈ net, n = Net.ok) → fs.length ≤ net.length →
      ∃ s', (uploadFiles fs net s).2 = some (s', net.drop fs.length) ∧ ∀ f ∈ fs, s' f.1 = some f.2 := by
    intro fs
    induction fs with
    | nil => intro net s _ _ _; exact ⟨s, rfl, by simp⟩
    | cons f fs ih =>
      intro net s hn ho hl
      cases net with
      | nil => simp at hl
      | cons n net =>
        have := ho n (List.mem_cons_self ..)
        subst this
        obtain ⟨key, c⟩ := f
        simp only [List.map_cons, List.nodup_cons] at hn
        obtain ⟨s', h1, h2⟩ := ih net (s.put key c) hn.2 (fun m hm => ho m (List.mem_cons_of_mem _ hm)) (by simpa using hl)
        refine ⟨s', ?_, ?_⟩
        · simp only [uploadFiles, uploadLoop, read_fresh]
          exact h1
        · intro g hg
          rcases List.mem_cons.1 hg with rfl | hg
          · have := ((uploadFiles_trace fs net (s.put key c)).2 s' _ h1).1 key hn.1
            rw [this, put_same]
          · exact h2 g hg
  rw [List.map_append, List.nodup_append] at hnd
  obtain ⟨n1, n2, n3⟩ := hnd
  obtain ⟨s1, e1, c1⟩ := gen fs net s n1 hnet (by omega)
  obtain ⟨s2, e2, c2⟩ := gen [request] (net.drop fs.length) s1 (by simp) (fun n hn => hnet n (List.mem_of_mem_drop hn))
    (by simp; omega)
  have t1 := (uploadFiles_trace fs net s).2 s1 _ e1
  have t2 := (uploadFiles_trace [request] (net.drop fs.length) s1).2 s2 _ e2
  refine ⟨s2, (net.drop fs.length).drop 1, ?_, ?_, ?_⟩
  · unfold submit
    cases hu : uploadFiles fs net s with
    | mk tr res => rw [hu] at e1; simp only at e1; subst e1; exact e2
  · intro f hf
    rcases List.mem_append.1 hf with hf | hf
    · rw [t2.1 f.1 (by
        intro hm
        exact n3 f.1 (List.mem_map.2 ⟨f, hf, rfl⟩) f.1 hm rfl), c1 f hf]
    · exact c2 f hf
  · intro k hk
    simp only [List.map_append, List.mem_append, not_or] at hk
    rw [t2.1 k hk.2, t1.1 k hk.1]

/-- The names of the files of a simulation are different from each other and from the file that starts it. -/
theorem names_distinct (pre : String) :
    ((endings ++ ["request", "finished"]).map fun e => pre ++ e).Nodup := by
  rw [List.nodup_map_iff (fun a b h => by
    have : pre.toList ++ a.toList = pre.toList ++ b.toList := by
      rw [← String.toList_append, ← String.toList_append, h]
    exact String.toList_inj.1 (List.append_cancel_left this))]
  decide +kernel

/-- At every moment and for every pattern of failures: once the file that starts the simulation is on the server,
all the others are there. Files of other simulations are never touched. -/
theorem request_last (fs : List (String × List B)) (request : String × List B) (hr : request.1 ∉ fs.map Prod.fst)
    (net : List Net) (s : Store B) (h0 : s request.1 = none) (x : Store B) (hx : x ∈ (submit fs request net s).1) :
    ((x request.1).isSome → ∀ f ∈ fs, (x f.1).isSome) ∧ ∀ k, k ∉ (fs ++ [request]).map Prod.fst → x k = s k := by
  obtain ⟨t1, t2⟩ := uploadFiles_trace fs net s
  unfold submit at hx
  cases hu : uploadFiles fs net s with
  | mk tr res =>
    rw [hu] at hx t1 t2
    have first : ∀ y ∈ tr, ((y request.1).isSome → ∀ f ∈ fs, (y f.1).isSome) ∧
        ∀ k, k ∉ (fs ++ [request]).map Prod.fst → y k = s k := by
      intro y hy
      obtain ⟨a, _⟩ := t1 y hy
      refine ⟨fun h => ?_, fun k hk => a k (by simp at hk ⊢; exact fun c e => (hk.1 c e))⟩
      rw [a _ hr, h0] at h
      simp at h
    cases res with
    | none => exact first x hx
    | some p =>
      obtain ⟨s1, net1⟩ := p
      obtain ⟨b1, b2, b3⟩ := t2 s1 net1 rfl
      simp only [List.mem_append] at hx
      rcases hx with hx | hx
      · exact first x hx
      · obtain ⟨a, b⟩ := (uploadFiles_trace [request] net1 s1).1 x hx
        refine ⟨fun _ f hf => b _ (b3 _ (List.mem_map.2 ⟨f, hf, rfl⟩)), fun k hk => ?_⟩
        simp only [List.map_append, List.mem_append, not_or] at hk
        rw [a k hk.2, b1 k hk.1]

/-- One connection that fails while a file is being sent is enough: the simulation is started, without an error, with
an empty file in its place. -/
theorem upload_retry_false (pre : List (String × List B)) (key : String) (c : List B) (hc : c ≠ []) (post : List (String × List B))
    (request : String × List B) (hnd : (((pre ++ (key, c) :: post) ++ [request]).map Prod.fst).Nodup) (s : Store B)
    (h0 : s request.1 = none) (n : Net) (hn : n ≠ Net.ok) :
    ∃ net s', (net.filter fun m => m ≠ Net.ok) = [n] ∧ (submit (pre ++ (key, c) :: post) request net s).2 = some (s', []) ∧
      s' request.1 = some request.2 ∧ s' key = some [] ∧ s' key ≠ some c := by
  have app : ∀ (as bs : List (String × List B)) (net : List Net) (s : Store B),
      (uploadFiles (as ++ bs) net s).2 = (uploadFiles as net s).2.bind fun p => (uploadFiles bs p.2 p.1).2 := by
    intro as
    induction as with
    | nil => intro bs net s; rfl
    | cons f as ih =>
      intro bs net s
      obtain ⟨k, d⟩ := f
      simp only [List.cons_append, uploadFiles]
      cases hu : uploadLoop k net ⟨d, 0⟩ s with
      | mk tr res =>
        cases res with
        | none => rfl
        | some p => exact ih bs p.2 p.1
  have sub : ∀ (fs : List (String × List B)) net s, (submit fs request net s).2 = (uploadFiles (fs ++ [request]) net s).2 := by
    intro fs net s
    rw [app]
    unfold submit
    cases hu : uploadFiles fs net s with
    | mk tr res => cases res <;> rfl
  have good : ∀ (fs : List (String × List B)) (rest : List Net) (s : Store B),
      ∃ s', (uploadFiles fs (List.replicate fs.length Net.ok ++ rest) s).2 = some (s', rest) ∧
        ((fs.map Prod.fst).Nodup → ∀ f ∈ fs, s' f.1 = some f.2) ∧ ∀ k, k ∉ fs.map Prod.fst → s' k = s k := by
    intro fs
    induction fs with
    | nil => intro rest s; exact ⟨s, rfl, by simp, fun _ _ => rfl⟩
    | cons f fs ih =>
      intro rest s
      obtain ⟨k, d⟩ := f
      obtain ⟨s', h1, h2, h3⟩ := ih rest (s.put k d)
      refine ⟨s', ?_, ?_, ?_⟩
      · simp only [List.length_cons, List.replicate_succ, List.cons_append, uploadFiles, uploadLoop, read_fresh]
        exact h1
      · intro hn f hf
        simp only [List.map_cons, List.nodup_cons] at hn
        rcases List.mem_cons.1 hf with rfl | hf
        · rw [h3 _ hn.1, put_same]
        · exact h2 hn.2 f hf
      · intro k' hk
        simp only [List.map_cons, List.mem_cons, not_or] at hk
        rw [h3 k' hk.2, put_other _ _ _ _ hk.1]
  obtain ⟨s1, e1, _, _⟩ := good pre (n :: Net.ok :: (List.replicate (post ++ [request]).length Net.ok ++ [])) s
  obtain ⟨s3, e3, g3, o3⟩ := good (post ++ [request]) [] (s1.put key [])
  have eL := (upload_exact key c s1 [n] (List.replicate (post ++ [request]).length Net.ok ++ []) (by simpa using hn)).1
  have hnd' : (((key, c) :: (post ++ [request])).map Prod.fst).Nodup := by
    rw [List.append_assoc, List.map_append] at hnd
    exact (List.nodup_append.1 hnd).2.1
  simp only [List.map_cons, List.nodup_cons] at hnd'
  refine ⟨List.replicate pre.length Net.ok ++ n :: Net.ok :: (List.replicate (post ++ [request]).length Net.ok ++ []), s3, ?_, ?_, ?_, ?_, ?_⟩
  · rw [List.filter_append, List.filter_cons_of_pos (by simpa using hn), List.filter_cons_of_neg (by simp), List.append_nil,
      List.filter_eq_nil_iff.2 (by intro a ha; simp [List.eq_of_mem_replicate ha]),
      List.filter_eq_nil_iff.2 (by intro a ha; simp [List.eq_of_mem_replicate ha])]
    rfl
  · rw [sub, List.append_assoc, app, e1]
    simp only [Option.bind_some, List.cons_append]
    rw [show uploadFiles ((key, c) :: (post ++ [request])) (n :: Net.ok :: (List.replicate (post ++ [request]).length Net.ok ++ [])) s1 = _ from rfl]
    simp only [uploadFiles]
    cases hu : uploadLoop key (n :: Net.ok :: (List.replicate (post ++ [request]).length Net.ok ++ [])) ⟨c, 0⟩ s1 with
    | mk tr res =>
      rw [List.singleton_append, hu] at eL
      simp only at eL
      subst eL
      simp only [List.cons_ne_self, reduceIte]
      exact e3
  · exact g3 hnd'.2 request (by simp)
  · rw [o3 key hnd'.1, put_same]
  · rw [o3 key hnd'.1, put_same]
    intro h
    exact hc (Option.some.inj h).symm

example : ∃ net s', (submit (B := Nat) [("p.grid", [1, 2]), ("p.e_xr", [3])] ("p.request", [9]) net (fun _ => none)).2 = some (s', []) ∧
    s' "p.grid" = some [] ∧ s' "p.request" = some [9] := by
  obtain ⟨net, s', _, h2, h3, h4, _⟩ := upload_retry_false (B := Nat) [] "p.grid" [1, 2] (by simp) [("p.e_xr", [3])] ("p.request", [9])
    (by decide) (fun _ => none) rfl Net.lost (by simp)
  exact ⟨net, s', h2, h4, h3⟩

/-! ### C99: waiting for the solution -/

/-- When the client stops waiting, the last two questions it asked were answered: the request is gone, the solution is
there. -/
theorem poll_finished (answer : Nat → String → Reply B) (fuel t t' : Nat) (h : poll answer fuel t = some t') :
    t + 2 ≤ t' ∧ (∃ c p, answer (t' - 2) "request" = .page c p ∧ c ≠ 200) ∧ ∃ p, answer (t' - 1) "finished" = .page 200 p := by
  induction fuel generalizing t with
  | zero => simp [poll] at h
  | succ fuel ih =>
    rw [poll] at h
    cases ha : answer t "request" with
    | error =>
      simp only [ha, exists?] at h
      obtain ⟨a, b⟩ := ih _ h
      exact ⟨by omega, b⟩
    | page c p =>
      by_cases hc : c = 200
      · simp only [ha, exists?, hc, beq_self_eq_true] at h
        obtain ⟨a, b⟩ := ih _ h
        exact ⟨by omega, b⟩
      · have hb : (c == 200) = false := by simpa using hc
        simp only [ha, exists?, hb] at h
        cases hf : answer (t + 1) "finished" with
        | error =>
          simp only [hf] at h
          obtain ⟨a, b⟩ := ih _ h
          exact ⟨by omega, b⟩
        | page c' p' =>
          by_cases hc' : c' = 200
          · simp only [hf, hc', beq_self_eq_true, Option.some.injEq] at h
            subst h
            refine ⟨le_refl _, ⟨c, p, ?_, hc⟩, p', ?_⟩
            · simpa using ha
            · have : t + 2 - 1 = t + 1 := by omega
              rw [this, hf, hc']
          · have hb' : (c' == 200) = false := by simpa using hc'
            simp only [hf, hb'] at h
            obtain ⟨a, b⟩ := ih _ h
            exact ⟨by omega, b⟩

/-- If from some moment on the server answers that the request is gone and the solution is there, the client stops
waiting, whatever happened before. -/
theorem poll_ends (answer : Nat → String → Reply B) (T : Nat)
    (h : ∀ t, T ≤ t → (∃ c p, answer t "request" = .page c p ∧ c ≠ 200) ∧ ∃ p, answer t "finished" = .page 200 p) (t : Nat) :
    ∃ fuel t', poll answer fuel t = some t' := by
  have done : ∀ t, T ≤ t → poll answer 1 t = some (t + 2) := by
    intro t ht
    obtain ⟨⟨c, p, h1, hc⟩, _⟩ := h t ht
    obtain ⟨_, p', h2⟩ := h (t + 1) (by omega)
    have hb : (c == 200) = false := by simpa using hc
    simp [poll, h1, h2, exists?, hb]
  by_cases ht : T ≤ t
  · exact ⟨1, _, done t ht⟩
  · have : ∀ d t, T ≤ t + d → ∃ fuel t', poll answer fuel t = some t' := by
      intro d
      induction d using Nat.strong_induction_on with
      | _ d ih =>
        intro t hd
        by_cases h0 : T ≤ t
        · exact ⟨1, _, done t h0⟩
        · have one : ∃ fuel t', poll answer fuel (t + 1) = some t' := ih (d - 1) (by omega) (t + 1) (by omega)
          have two : ∃ fuel t', poll answer fuel (t + 2) = some t' := by
            by_cases h2 : T ≤ t + 2
            · exact ⟨1, _, done _ h2⟩
            · exact ih (d - 2) (by omega) (t + 2) (by omega)
          obtain ⟨f1, t1, e1⟩ := one
          obtain ⟨f2, t2, e2⟩ := two
          cases ha : answer t "request" with
          | error => exact ⟨f1 + 1, t1, by simp [poll, ha, exists?, e1]⟩
          | page c p =>
            by_cases hc : c = 200
            · exact ⟨f1 + 1, t1, by simp [poll, ha, exists?, hc, e1]⟩
            · have hb : (c == 200) = false := by simpa using hc
              cases hf : answer (t + 1) "finished" with
              | error => exact ⟨f2 + 1, t2, by simp [poll, ha, exists?, hb, hf, e2]⟩
              | page c' p' =>
                by_cases hc' : c' = 200
                · exact ⟨1, t + 2, by simp [poll, ha, exists?, hb, hf, hc']⟩
                · have hb' : (c' == 200) = false := by simpa using hc'
                  exact ⟨f2 + 1, t2, by simp [poll, ha, exists?, hb, hf, hb', e2]⟩
    exact this T t (by omega)

/-- A server that drops the request and never reports a solution keeps the client waiting for ever: there is no time
limit and no report of a failure. -/
theorem poll_forever (answer : Nat → String → Reply B) (h : ∀ t p, answer t "finished" ≠ .page 200 p) (fuel t : Nat) :
    poll answer fuel t = none := by
  cases hp : poll answer fuel t with
  | none => rfl
  | some t' =>
    obtain ⟨_, _, p, hf⟩ := poll_finished answer fuel t t' hp
    exact absurd hf (h _ _)

/-! ### C99: downloads -/

/-- Each file that is written has the content of the first answer that arrives, whatever failed before. -/
theorem download_first (answer : Nat → String → Reply B) (file : String) (fuel t : Nat) (c : List B) (t' : Nat)
    (h : downloadLoop answer file fuel t = some (c, t')) :
    t < t' ∧ (∃ code, answer (t' - 1) file = .page code c) ∧ ∀ u, t ≤ u → u + 1 < t' → answer u file = .error := by
  induction fuel generalizing t with
  | zero => simp [downloadLoop] at h
  | succ fuel ih =>
    rw [downloadLoop] at h
    cases ha : answer t file with
    | error =>
      simp only [ha] at h
      obtain ⟨a, b, d⟩ := ih _ h
      refine ⟨by omega, b, fun u h1 h2 => ?_⟩
      by_cases e : u = t
      · subst e; exact ha
      · exact d u (by omega) h2
    | page code p =>
      simp only [ha, Option.some.injEq, Prod.mk.injEq] at h
      obtain ⟨rfl, rfl⟩ := h
      exact ⟨by omega, ⟨code, by simpa using ha⟩, fun u h1 h2 => by omega⟩

/-- If the server keeps answering with its files, the client gets exactly these, for every pattern of failures. -/
theorem download_complete (answer : Nat → String → Reply B) (store : Store B)
    (hs : ∀ t f, answer t f = .error ∨ ∃ c, store f = some c ∧ answer t f = .page 200 c) (fuel : Nat) (fs : List String) (t : Nat)
    (r : List (String × List B)) (t' : Nat) (h : downloadFiles answer fuel fs t = some (r, t')) :
    r.map Prod.fst = fs ∧ ∀ p ∈ r, store p.1 = some p.2 := by
  induction fs generalizing t r with
  | nil =>
    simp only [downloadFiles, Option.some.injEq, Prod.mk.injEq] at h
    rw [← h.1]; simp
  | cons f fs ih =>
    simp only [downloadFiles, Option.bind_eq_some_iff, Option.map_eq_some_iff, Prod.mk.injEq] at h
    obtain ⟨⟨c, t1⟩, h1, ⟨q, t2⟩, h2, h3, _⟩ := h
    simp only at h1 h2 h3
    subst h3
    obtain ⟨i1, i2⟩ := ih t1 q (by
      rw [h2]
      simp only [Option.some.injEq, Prod.mk.injEq, true_and]
      assumption)
    obtain ⟨_, ⟨code, hp⟩, _⟩ := download_first answer f fuel t c t1 h1
    refine ⟨by simp [i1], fun p hp' => ?_⟩
    rcases List.mem_cons.1 hp' with rfl | hp'
    · rcases hs (t1 - 1) f with he | ⟨c', e1, e2⟩
      · rw [he] at hp; cases hp
      · rw [e2] at hp
        cases hp
        exact e1
    · exact i2 p hp'

/-- The status of the answer is not looked at: the page of an error is written into the file. -/
theorem download_status_false (c : List B) (file : String) :
    downloadLoop (fun _ _ => Reply.page 404 c) file 1 0 = some (c, 1) := rfl

/-- All the files that are opened have been downloaded, unless information about the solution is asked for. -/
theorem opened_downloaded_partial (o : Options) (h : o.solverInfo = false) : ∀ e ∈ opened o, e ∈ downloaded o := by
  intro e he
  unfold opened at he
  unfold downloaded
  rw [h] at he
  simp only [Bool.false_eq_true, reduceIte] at he
  cases hj : o.jacobiDavidson with
  | true =>
    simp only [hj, reduceIte, List.mem_append, List.mem_flatMap, List.mem_map, List.mem_range] at he ⊢
    rcases he with ⟨i, hi, c, hc, q, hq, rfl⟩ | he
    · exact Or.inl ⟨c, hc, q, hq, i, hi, rfl⟩
    · right
      simp only [List.mem_cons, List.not_mem_nil, or_false] at he
      rcases he with rfl | rfl
      · exact ⟨"r", by simp, by decide⟩
      · exact ⟨"i", by simp, by decide⟩
  | false =>
    simp only [hj, Bool.false_eq_true, reduceIte, List.append_nil] at he ⊢
    exact he

/-- Asking for that information always fails: its files are opened but never downloaded. -/
theorem solver_info_false (n : Nat) (jd : Bool) :
    "time_info" ∈ opened ⟨jd, n, true⟩ ∧ "time_info" ∉ downloaded ⟨jd, n, true⟩ := by
  refine ⟨by cases jd <;> simp [opened], ?_⟩
  cases jd with
  | true =>
    simp only [downloaded, reduceIte, List.mem_append, List.mem_flatMap, List.mem_map, not_or, not_exists, not_and]
    constructor
    · rintro c _ q _ i _ h
      have := congrArg (fun s : String => s.toList.head?) h
      simp [String.toList_append] at this
    · rintro q hq h
      simp only [List.mem_cons, List.not_mem_nil, or_false] at hq
      rcases hq with rfl | rfl <;> revert h <;> decide
  | false =>
    show "time_info" ∉ (["x", "y", "z"].flatMap fun c => ["r", "i"].map fun q => "E_" ++ c ++ q)
    decide

end Verif.Sim.Server
