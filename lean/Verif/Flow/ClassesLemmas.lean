import Verif.Flow.Classes
import Mathlib.Data.List.Count
import Mathlib.Data.List.Nodup
import Mathlib.Tactic.Ring
import Mathlib.Tactic.Linarith
import Mathlib.Algebra.Field.Basic
import Mathlib.Algebra.CharZero.Defs
/-
Lemmas about the C3 merge, the fields of a class and the loop of `__iadd__`.
-/
namespace Verif.Flow

/-! ### The merge -/

theorem mem_dropHead {h x : Nat} {s : List Nat} (hx : x ∈ dropHead h s) : x ∈ s := by
  unfold dropHead at hx
  split at hx
  · exact List.mem_of_mem_tail hx
  · exact hx

theorem mem_of_mem_dropHead_or {h x : Nat} {s : List Nat} (hx : x ∈ s) :
    x = h ∨ x ∈ dropHead h s := by
  cases s with
  | nil => cases hx
  | cons a t =>
    unfold dropHead
    by_cases ha : a = h
    · subst ha
      simp only [List.head?_cons, if_true, List.tail_cons]
      exact List.mem_cons.1 hx
    · have : ¬ (a :: t).head? = some h := by simpa using ha
      rw [if_neg this]
      exact Or.inr hx

theorem c3Pick_spec {seqs : List (List Nat)} {h : Nat} (hp : c3Pick seqs = some h) :
    (∃ s ∈ seqs, s.head? = some h) ∧ ∀ s ∈ seqs, h ∉ s.tail := by
  unfold c3Pick at hp
  have h1 := List.mem_of_find?_eq_some hp
  have h2 := List.find?_some hp
  rw [List.mem_filterMap] at h1
  refine ⟨h1, fun s hs ht => ?_⟩
  unfold goodHead at h2
  rw [List.all_eq_true] at h2
  have := h2 s hs
  simp [ht] at this

theorem c3Merge_mem : ∀ (n : Nat) (seqs : List (List Nat)) (l : List Nat),
    c3Merge n seqs = some l → ∀ x, x ∈ l ↔ ∃ s ∈ seqs, x ∈ s
  | 0, _, _, h => by simp [c3Merge] at h
  | n + 1, seqs, l, h => by
    intro x
    have hrest : (∃ s ∈ seqs, x ∈ s) ↔ ∃ s ∈ seqs.filter (· ≠ []), x ∈ s := by
      constructor
      · rintro ⟨s, hs, hx⟩
        refine ⟨s, ?_, hx⟩
        rw [List.mem_filter]
        exact ⟨hs, by simpa using List.ne_nil_of_mem hx⟩
      · rintro ⟨s, hs, hx⟩
        exact ⟨s, (List.mem_filter.1 hs).1, hx⟩
    rw [hrest]
    unfold c3Merge at h
    simp only at h
    split at h
    · rename_i h0
      rw [h0]
      cases h
      simp
    · generalize hr : seqs.filter (· ≠ []) = rest at *
      split at h
      · cases h
      · rename_i h' hp
        obtain ⟨⟨s0, hs0, hh0⟩, hnt⟩ := c3Pick_spec hp
        rw [Option.map_eq_some_iff] at h
        obtain ⟨l', hl', rfl⟩ := h
        have ih := c3Merge_mem n _ l' hl' x
        rw [List.mem_cons, ih]
        constructor
        · rintro (rfl | ⟨s, hs, hx⟩)
          · exact ⟨s0, hs0, List.mem_of_mem_head? hh0⟩
          · obtain ⟨t, ht, rfl⟩ := List.mem_map.1 hs
            exact ⟨t, ht, mem_dropHead hx⟩
        · rintro ⟨s, hs, hx⟩
          rcases mem_of_mem_dropHead_or (h := h') hx with h1 | h1
          · exact Or.inl h1
          · exact Or.inr ⟨_, List.mem_map.2 ⟨s, hs, rfl⟩, h1⟩

theorem c3Merge_nodup : ∀ (n : Nat) (seqs : List (List Nat)) (l : List Nat),
    c3Merge n seqs = some l → l.Nodup
  | 0, _, _, h => by simp [c3Merge] at h
  | n + 1, seqs, l, h => by
    unfold c3Merge at h
    simp only at h
    split at h
    · cases h
      exact List.nodup_nil
    · generalize hr : seqs.filter (· ≠ []) = rest at *
      split at h
      · cases h
      · rename_i h' hp
        obtain ⟨_, hnt⟩ := c3Pick_spec hp
        rw [Option.map_eq_some_iff] at h
        obtain ⟨l', hl', rfl⟩ := h
        rw [List.nodup_cons]
        refine ⟨fun hm => ?_, c3Merge_nodup n _ l' hl'⟩
        obtain ⟨s, hs, hx⟩ := (c3Merge_mem n _ l' hl' h').1 hm
        obtain ⟨t, ht, rfl⟩ := List.mem_map.1 hs
        unfold dropHead at hx
        cases t with
        | nil => simp at hx
        | cons a t' =>
          by_cases ha : a = h'
          · subst ha
            simp only [List.head?_cons, if_true, List.tail_cons] at hx
            exact hnt _ ht hx
          · have hne : ¬ (a :: t').head? = some h' := by simpa using ha
            rw [if_neg hne] at hx
            rcases List.mem_cons.1 hx with h1 | h1
            · exact ha h1.symm
            · exact hnt _ ht h1

/-! ### Field names are distinct -/

theorem putField_names (f : Field) : ∀ fs : List Field,
    (putField f fs).map Field.name =
      if f.name ∈ fs.map Field.name then fs.map Field.name else fs.map Field.name ++ [f.name]
  | [] => by simp [putField]
  | g :: gs => by
    unfold putField
    by_cases h : g.name = f.name
    · rw [if_pos h]
      simp [h]
    · rw [if_neg h, List.map_cons, putField_names f gs]
      have h' : ¬ f.name = g.name := fun e => h e.symm
      by_cases hm : f.name ∈ gs.map Field.name
      · rw [if_pos hm, if_pos (by rw [List.map_cons]; exact List.mem_cons_of_mem _ hm)]
        rfl
      · rw [if_neg hm, if_neg (by rw [List.map_cons, List.mem_cons]; tauto)]
        rfl

theorem putField_nodup (f : Field) (fs : List Field) (h : (fs.map Field.name).Nodup) :
    ((putField f fs).map Field.name).Nodup := by
  rw [putField_names]
  split
  · exact h
  · rename_i hm
    rw [List.nodup_append]
    refine ⟨h, by simp, ?_⟩
    intro a ha b hb
    rw [List.mem_singleton] at hb
    subst hb
    rintro rfl
    exact hm ha

theorem putFields_nodup : ∀ (fs acc : List Field), (acc.map Field.name).Nodup →
    ((putFields fs acc).map Field.name).Nodup
  | [], _, h => h
  | f :: fs, acc, h => putFields_nodup fs (putField f acc) (putField_nodup f acc h)

theorem fieldsOf_nodup (env : List FlowClass) (tl : List Nat) (own : List Field) :
    ((fieldsOf env tl own).map Field.name).Nodup := by
  unfold fieldsOf
  apply putFields_nodup
  generalize tl.reverse = l
  suffices h : ∀ (l : List Nat) (acc : List Field), (acc.map Field.name).Nodup →
      ((l.foldl (fun acc b => putFields ((env[b]?.map FlowClass.fields).getD []) acc) acc).map
        Field.name).Nodup from h l [] (by simp)
  intro l
  induction l with
  | nil => intro acc h; exact h
  | cons b l ih => intro acc h; exact ih _ (putFields_nodup _ _ h)

theorem nonconst_nodup (fs : List Field) (h : (fs.map Field.name).Nodup) :
    (nonconst fs).Nodup := by
  unfold nonconst
  exact List.Nodup.sublist (List.filter_sublist.map _) h

/-! ### The loop over the fields -/

variable {K : Type}

/-- The sum of two gradient values of the same shape. -/
def Val.add [Add K] : Val K → Val K → Val K
  | .num a, .num b => .num (a + b)
  | .arr as, .arr bs => .arr (List.zipWith (· + ·) as bs)
  | a, _ => a

/-- The same shape: two numbers, or two arrays of the same length. -/
def SameShape : Val K → Val K → Prop
  | .num _, .num _ => True
  | .arr as, .arr bs => as.length = bs.length
  | _, _ => False

/-- `b` added `n` times to `a`. -/
def Val.addTimes [Add K] (a : Val K) : Nat → Val K → Val K
  | 0, _ => a
  | n + 1, b => (a.addTimes n b).add b

theorem iaddVal_same [AddCommMagma K] (a b : Val K) (h : SameShape a b) :
    iaddVal a b = .ok (a.add b) := by
  cases a <;> cases b <;> simp only [SameShape] at h
  · simp only [iaddVal, Val.add, add_comm]
  · simp only [iaddVal, Val.add, if_pos h]

theorem sameShape_add [Add K] (a b : Val K) (h : SameShape a b) : SameShape (a.add b) b := by
  cases a <;> cases b <;> simp only [SameShape] at h
  · trivial
  · simp only [Val.add, SameShape, List.length_zipWith, h, min_self]

theorem sameShape_addTimes [Add K] (a b : Val K) (h : SameShape a b) :
    ∀ n, SameShape (a.addTimes n b) b
  | 0 => h
  | n + 1 => sameShape_add _ _ (sameShape_addTimes a b h n)

theorem addTimes_succ' [Add K] (a b : Val K) : ∀ n, a.addTimes (n + 1) b = (a.add b).addTimes n b
  | 0 => rfl
  | n + 1 => by
    show (a.addTimes (n + 1) b).add b = ((a.add b).addTimes n b).add b
    rw [addTimes_succ' a b n]

theorem addTimes_add [Add K] (a b : Val K) (m : Nat) :
    ∀ n, a.addTimes (m + n) b = (a.addTimes m b).addTimes n b
  | 0 => rfl
  | n + 1 => by
    show (a.addTimes (m + n) b).add b = ((a.addTimes m b).addTimes n b).add b
    rw [addTimes_add a b m n]

/-- Fields on which the loop works: both objects have the attribute, with the same shape. -/
def FieldsMatch (fs : List String) (o v : Obj K) : Prop :=
  ∀ f ∈ fs, ∃ a b, o f = some a ∧ v f = some b ∧ SameShape a b

theorem iaddFields_closed [AddCommMagma K] (v : Obj K) : ∀ (fs : List String) (o : Obj K),
    FieldsMatch fs o v →
    ∃ o', iaddFields v fs o = .ok o' ∧
      (∀ f a b, o f = some a → v f = some b → o' f = some (a.addTimes (fs.count f) b)) ∧
      ∀ f, f ∉ fs → o' f = o f
  | [], o, _ => ⟨o, rfl, fun f a b ha _ => by simpa [Val.addTimes] using ha, fun _ _ => rfl⟩
  | g :: fs, o, h => by
    obtain ⟨a, b, ha, hb, hs⟩ := h g (by simp)
    have hm : FieldsMatch fs (setField o g (a.add b)) v := by
      intro f hf
      obtain ⟨a', b', ha', hb', hs'⟩ := h f (List.mem_cons_of_mem _ hf)
      by_cases e : f = g
      · subst e
        rw [ha] at ha'; rw [hb] at hb'
        cases ha'; cases hb'
        exact ⟨_, _, by simp [setField], hb, sameShape_add _ _ hs⟩
      · exact ⟨a', b', by simp [setField, e, ha'], hb', hs'⟩
    obtain ⟨o', ho', h1, h2⟩ := iaddFields_closed v fs _ hm
    refine ⟨o', ?_, ?_, ?_⟩
    · unfold iaddFields
      rw [ha, hb]
      simp only [iaddVal_same a b hs]
      exact ho'
    · intro f a' b' ha' hb'
      by_cases e : f = g
      · subst e
        rw [ha] at ha'; rw [hb] at hb'
        cases ha'; cases hb'
        rw [h1 f (a.add b) b (by simp [setField]) hb, List.count_cons_self, addTimes_succ']
      · rw [h1 f a' b' (by simp [setField, e, ha']) hb',
          List.count_cons_of_ne (fun e' => e e'.symm)]
    · intro f hf
      rw [List.mem_cons, not_or] at hf
      rw [h2 f hf.2]
      simp [setField, hf.1]

theorem iaddFields_append [Add K] (v : Obj K) : ∀ (fs gs : List String) (o : Obj K),
    iaddFields v (fs ++ gs) o =
      match iaddFields v fs o with
      | .ok o' => iaddFields v gs o'
      | .error e => .error e
  | [], gs, o => rfl
  | f :: fs, gs, o => by
    simp only [List.cons_append, iaddFields]
    split
    · split
      · exact iaddFields_append v fs gs _
      · rfl
    · rfl

/-- The fields added along the chain of `super` calls, with repetitions. -/
def chain (env : List FlowClass) (ks : List Nat) : List String :=
  ks.flatMap fun k => (env[k]?.map FlowClass.adds).getD []

theorem iaddMro_eq [Add K] (env : List FlowClass) (v : Obj K) : ∀ (ks : List Nat) (o : Obj K),
    iaddMro env v ks o = iaddFields v (chain env ks) o
  | [], o => rfl
  | k :: ks, o => by
    unfold chain
    rw [List.flatMap_cons, iaddFields_append]
    unfold iaddMro
    split <;> rename_i h <;> rw [h]
    exact iaddMro_eq env v ks _

end Verif.Flow
