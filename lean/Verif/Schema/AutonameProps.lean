import Verif.Schema.Autoname
import Verif.Schema.NamesProps
import Mathlib.Order.Basic
import Mathlib.Order.Defs.LinearOrder
import Mathlib.Tactic.ByContra
/-
Property C118: automatic naming names every node.
-/
namespace Verif.Schema

/-! ### Specification -/

/-- `y` is `x` or is contained in it, at any depth. -/
inductive GReach (g : Nat → AModel) : Nat → Nat → Prop
  | refl (x : Nat) : GReach g x x
  | step {x y z : Nat} : y ∈ (g x).kids → GReach g y z → GReach g x z

theorem GReach.trans {g : Nat → AModel} {x y z : Nat} (h1 : GReach g x y) (h2 : GReach g y z) : GReach g x z := by
  induction h1 with
  | refl => exact h2
  | step h _ ih => exact .step h (ih h2)

/-- The node `y` is contained in `r`. -/
def NodeIn (g : Nat → AModel) (r y : Nat) : Prop := GReach g r y ∧ (g y).isNode = true

/-- The names the user gave are distinct, and none of them is a name that will be generated. -/
structure NamesOk (g : Nat → AModel) (name : Nat → Str) (count : Counters) (r : Nat) : Prop where
  distinct : ∀ y z, NodeIn g r y → NodeIn g r z → name y ≠ [] → name y = name z → y = z
  fresh : ∀ y, NodeIn g r y → ∀ t k, (count t).getD 0 ≤ k → name y ≠ t ++ ['.'] ++ decimal k

/-! ### The invariant -/

/-- What holds during the traversal from `r`; `A` are the models being walked. -/
structure AInv (g : Nat → AModel) (name : Nat → Str) (count : Counters) (r : Nat) (A : Nat → Prop) (s : ASt) : Prop where
  kept : ∀ y, name y ≠ [] → s.name y = name y
  outside : ∀ y, ¬ NodeIn g r y → s.name y = name y
  gen : ∀ y, name y = [] → s.name y ≠ [] →
    ∃ k, (count (g y).ty).getD 0 ≤ k ∧ k < (s.count (g y).ty).getD 0 ∧ s.name y = (g y).ty ++ ['.'] ++ decimal k
  mono : ∀ t, (count t).getD 0 ≤ (s.count t).getD 0
  inj : ∀ y z, NodeIn g r y → NodeIn g r z → s.name y ≠ [] → s.name y = s.name z → y = z
  vis : ∀ v ∈ s.visited, ∃ y, NodeIn g r y ∧ s.name y = v ∧ v ≠ []
  done : ∀ y, NodeIn g r y → s.name y ≠ [] → s.name y ∈ s.visited → A y ∨
    ∀ z, GReach g y z → (g z).isNode = true → s.name z ≠ []

section
variable {g : Nat → AModel} {name : Nat → Str} {count : Counters} {r : Nat}

/-- What a step does. -/
structure APost (g : Nat → AModel) (name : Nat → Str) (count : Counters) (r : Nat) (A : Nat → Prop) (roots : List Nat)
    (s s' : ASt) : Prop where
  inv : AInv g name count r A s'
  grow : ∀ y, s.name y ≠ [] → s'.name y = s.name y
  named : ∀ x ∈ roots, ∀ z, GReach g x z → (g z).isNode = true → s'.name z ≠ []

theorem autoKids_ok {rec : ASt → Nat → Option ASt} {A : Nat → Prop} (xs : List Nat)
    (hrec : ∀ x ∈ xs, ∀ s, AInv g name count r A s → ∃ s', rec s x = some s' ∧ APost g name count r A [x] s s')
    (s : ASt) (hs : AInv g name count r A s) :
    ∃ s', autoKids rec xs s = some s' ∧ APost g name count r A xs s s' := by
  induction xs generalizing s with
  | nil => exact ⟨s, rfl, hs, fun _ _ => rfl, by simp⟩
  | cons x xs ih =>
    obtain ⟨s1, h1, h2⟩ := hrec x (by simp) s hs
    obtain ⟨s2, h3, h4⟩ := ih (fun y hy => hrec y (List.mem_cons_of_mem _ hy)) s1 h2.inv
    refine ⟨s2, by simp only [autoKids, h1, h3], h4.inv, fun y hy => ?_, ?_⟩
    · rw [h4.grow y (by rw [h2.grow y hy]; exact hy), h2.grow y hy]
    · intro z hz w hw hn
      rcases List.mem_cons.1 hz with rfl | hz
      · have := h2.named z (by simp) w hw hn
        rw [h4.grow w this]
        exact this
      · exact h4.named z hz w hw hn

/-- The name given to a model without one is new. -/
theorem give_spec (hok : NamesOk g name count r) {A : Nat → Prop} {s : ASt} (hs : AInv g name count r A s) {x : Nat}
    (hx : NodeIn g r x) :
    AInv g name count r A (s.give x (g x).ty) ∧ (s.give x (g x).ty).name x ≠ [] ∧
      (∀ y, s.name y ≠ [] → (s.give x (g x).ty).name y = s.name y) ∧
      (s.give x (g x).ty).visited = s.visited := by
  by_cases h : s.name x = []
  · have hn0 : name x = [] := by
      by_contra hne
      rw [hs.kept x hne] at h
      exact hne h
    obtain ⟨e1, e2⟩ := generateName_eq s.count (g x).ty
    have hg : s.give x (g x).ty = { s with
        name := fun y => if y = x then (generateName s.count (g x).ty).1 else s.name y
        count := (generateName s.count (g x).ty).2 } := if_pos h
    have hnew : ∀ y, NodeIn g r y → s.name y ≠ (generateName s.count (g x).ty).1 := by
      intro y hy he
      rw [e1] at he
      by_cases hny : name y = []
      · have hne : s.name y ≠ [] := by rw [he]; simp
        obtain ⟨k, k1, k2, k3⟩ := hs.gen y hny hne
        obtain ⟨t1, t2⟩ := name_injective _ _ _ _ (k3.symm.trans he)
        rw [t1] at k2
        omega
      · rw [hs.kept y hny] at he
        exact hok.fresh y hy _ _ (hs.mono _) he
    have hne1 : (generateName s.count (g x).ty).1 ≠ [] := by rw [e1]; simp
    have hname : ∀ y, y ≠ x → (s.give x (g x).ty).name y = s.name y := by
      intro y hy; rw [hg]; simp [hy]
    have hnamex : (s.give x (g x).ty).name x = (generateName s.count (g x).ty).1 := by rw [hg]; simp
    have hgrow : ∀ y, s.name y ≠ [] → (s.give x (g x).ty).name y = s.name y := by
      intro y hy
      exact hname y fun he => hy (he ▸ h)
    have hcount : ∀ t, (s.count t).getD 0 ≤ ((s.give x (g x).ty).count t).getD 0 := by
      intro t
      rw [hg]
      simp only [e2 t]
      split
      · rename_i ht; subst ht; omega
      · exact Nat.le_refl _
    have hvis : (s.give x (g x).ty).visited = s.visited := by rw [hg]
    refine ⟨⟨?_, ?_, ?_, ?_, ?_, ?_, ?_⟩, by rw [hnamex]; exact hne1, hgrow, hvis⟩
    · intro y hy
      rw [hgrow y (by rw [hs.kept y hy]; exact hy), hs.kept y hy]
    · intro y hy
      rw [hname y (fun he => hy (he ▸ hx)), hs.outside y hy]
    · intro y hy hny
      by_cases hyx : y = x
      · subst hyx
        refine ⟨(s.count (g y).ty).getD 0, hs.mono _, ?_, by rw [hnamex, e1]⟩
        rw [hg]
        simp [e2]
      · rw [hname y hyx] at hny ⊢
        obtain ⟨k, k1, k2, k3⟩ := hs.gen y hy hny
        exact ⟨k, k1, Nat.lt_of_lt_of_le k2 (hcount _), k3⟩
    · exact fun t => Nat.le_trans (hs.mono t) (hcount t)
    · intro y z hy hz hny hyz
      by_cases hyx : y = x
      · by_cases hzx : z = x
        · rw [hyx, hzx]
        · subst hyx
          rw [hnamex, hname z hzx] at hyz
          exact absurd hyz.symm (hnew z hz)
      · by_cases hzx : z = x
        · subst hzx
          rw [hnamex, hname y hyx] at hyz
          exact absurd hyz (hnew y hy)
        · rw [hname y hyx] at hny hyz
          rw [hname z hzx] at hyz
          exact hs.inj y z hy hz hny hyz
    · intro v hv
      rw [hvis] at hv
      obtain ⟨y, h1, h2, h3⟩ := hs.vis v hv
      exact ⟨y, h1, by rw [hgrow y (by rw [h2]; exact h3), h2], h3⟩
    · intro y hy hny hyv
      rw [hvis] at hyv
      by_cases hyx : y = x
      · subst hyx
        rw [hnamex] at hyv
        obtain ⟨z, h1, h2, _⟩ := hs.vis _ hyv
        exact absurd h2 (hnew z h1)
      · rw [hname y hyx] at hny hyv
        rcases hs.done y hy hny hyv with h1 | h1
        · exact Or.inl h1
        · refine Or.inr fun z hz hzn => ?_
          rw [hgrow z (h1 z hz hzn)]
          exact h1 z hz hzn
  · have hg : s.give x (g x).ty = s := if_neg h
    rw [hg]
    exact ⟨hs, h, fun _ _ => rfl, rfl⟩

theorem autoObj_ok (hok : NamesOk g name count r) {rk : Nat → Nat} (hrk : ∀ x, ∀ y ∈ (g x).kids, rk y < rk x)
    (n : Nat) : ∀ (x : Nat), GReach g r x → rk x < n → ∀ (A : Nat → Prop), (∀ a, A a → rk x < rk a) → ∀ s,
      AInv g name count r A s → ∃ s', autoObj g n s x = some s' ∧ APost g name count r A [x] s s' := by
  induction n with
  | zero => intro x _ h; omega
  | succ n ih =>
    intro x hx hn A hA s hs
    have hkid : ∀ y ∈ (g x).kids, GReach g r y ∧ rk y < n ∧ rk y < rk x := fun y hy =>
      ⟨hx.trans (.step hy (.refl y)), by have := hrk x y hy; omega, hrk x y hy⟩
    unfold autoObj
    by_cases hnode : (g x).isNode = true
    · rw [if_pos hnode]
      obtain ⟨hs1, hne, hgrow, hvis⟩ := give_spec hok hs ⟨hx, hnode⟩
      generalize hs1e : s.give x (g x).ty = s1 at hs1 hne hgrow hvis ⊢
      by_cases hv : s1.name x ∈ s1.visited
      · rw [if_pos hv]
        refine ⟨s1, rfl, hs1, hgrow, ?_⟩
        intro x' hx' z hz hzn
        simp only [List.mem_singleton] at hx'
        subst hx'
        rcases hs1.done x' ⟨hx, hnode⟩ hne hv with h1 | h1
        · have := hA x' h1; omega
        · exact h1 z hz hzn
      · rw [if_neg hv]
        have hs2 : AInv g name count r (fun y => y = x ∨ A y) { s1 with visited := s1.name x :: s1.visited } := by
          refine ⟨hs1.kept, hs1.outside, hs1.gen, hs1.mono, hs1.inj, ?_, ?_⟩
          · intro v hv'
            rcases List.mem_cons.1 hv' with rfl | hv'
            · exact ⟨x, ⟨hx, hnode⟩, rfl, hne⟩
            · exact hs1.vis v hv'
          · intro y hy hny hyv
            rcases List.mem_cons.1 hyv with hyx | hyv
            · exact Or.inl (Or.inl (hs1.inj y x hy ⟨hx, hnode⟩ hny hyx))
            · rcases hs1.done y hy hny hyv with h1 | h1
              · exact Or.inl (Or.inr h1)
              · exact Or.inr h1
        obtain ⟨s3, h1, h2⟩ := autoKids_ok (g x).kids (fun y hy s hs => ih y (hkid y hy).1 (hkid y hy).2.1
          (fun z => z = x ∨ A z) (by
            rintro a (rfl | ha)
            · exact (hkid y hy).2.2
            · exact Nat.lt_trans (hkid y hy).2.2 (hA a ha)) s hs) _ hs2
        have hgrow3 : ∀ y, s1.name y ≠ [] → s3.name y = s1.name y := h2.grow
        have hall : ∀ z, GReach g x z → (g z).isNode = true → s3.name z ≠ [] := by
          intro z hz hzn
          cases hz with
          | refl => rw [hgrow3 x hne]; exact hne
          | step hy hz => exact h2.named _ hy z hz hzn
        refine ⟨s3, h1, ⟨h2.inv.kept, h2.inv.outside, h2.inv.gen, h2.inv.mono, h2.inv.inj, h2.inv.vis, ?_⟩, ?_, ?_⟩
        · intro y hy hny hyv
          rcases h2.inv.done y hy hny hyv with (rfl | h3) | h3
          · exact Or.inr hall
          · exact Or.inl h3
          · exact Or.inr h3
        · intro y hy
          rw [hgrow3 y (by rw [hgrow y hy]; exact hy), hgrow y hy]
        · intro x' hx' z hz hzn
          simp only [List.mem_singleton] at hx'
          subst hx'
          exact hall z hz hzn
    · rw [if_neg hnode]
      obtain ⟨s3, h1, h2⟩ := autoKids_ok (g x).kids (fun y hy s hs => ih y (hkid y hy).1 (hkid y hy).2.1 A (by
        intro a ha
        exact Nat.lt_trans (hkid y hy).2.2 (hA a ha)) s hs) s hs
      refine ⟨s3, h1, h2.inv, h2.grow, ?_⟩
      intro x' hx' z hz hzn
      simp only [List.mem_singleton] at hx'
      subst hx'
      cases hz with
      | refl => exact absurd hzn hnode
      | step hy hz => exact h2.named _ hy z hz hzn

/-- C118: if the names given by the user are distinct and none of them looks like a name still to be generated,
then after `autoname` every node in the model has a name, no two nodes have the same one, names that were
given are kept, generated ones are the type and a number, and nothing else is changed. -/
theorem autoname_names_partial (hok : NamesOk g name count r) {rk : Nat → Nat}
    (hrk : ∀ x, ∀ y ∈ (g x).kids, rk y < rk x) (fuel : Nat) (hf : rk r < fuel) :
    ∃ s, autoname g fuel name count r = some s ∧
      (∀ y, NodeIn g r y → s.name y ≠ []) ∧
      (∀ y z, NodeIn g r y → NodeIn g r z → s.name y = s.name z → y = z) ∧
      (∀ y, name y ≠ [] → s.name y = name y) ∧
      (∀ y, ¬ NodeIn g r y → s.name y = name y) ∧
      ∀ y, NodeIn g r y → name y = [] → ∃ k, s.name y = (g y).ty ++ ['.'] ++ decimal k := by
  have hs0 : AInv g name count r (fun _ => False) ⟨name, count, []⟩ := by
    refine ⟨fun _ _ => rfl, fun _ _ => rfl, fun y h h' => absurd h h', fun _ => Nat.le_refl _,
      fun y z hy hz hne he => hok.distinct y z hy hz hne he, by simp, by simp⟩
  obtain ⟨s, h1, h2⟩ := autoObj_ok hok hrk fuel r (.refl r) hf (fun _ => False) (by simp) _ hs0
  have hall : ∀ y, NodeIn g r y → s.name y ≠ [] := fun y hy => h2.named r (by simp) y hy.1 hy.2
  refine ⟨s, h1, hall, fun y z hy hz he => h2.inv.inj y z hy hz (hall y hy) he, h2.inv.kept, h2.inv.outside, ?_⟩
  intro y hy hny
  obtain ⟨k, -, -, k3⟩ := h2.inv.gen y hny (hall y hy)
  exact ⟨k, k3⟩
end

/-! ### Examples -/

/-- A node 0 of type `s` that contains the node 1 twice, through a model that is no node and directly. -/
def shared : Nat → AModel
  | 0 => ⟨true, ['s'], [2, 1]⟩
  | 1 => ⟨true, ['t'], []⟩
  | 2 => ⟨false, [], [1]⟩
  | _ => ⟨false, [], []⟩

theorem shared_names : (autoname shared 3 (fun _ => []) (fun _ => none) 0).map (fun s => (s.name 0, s.name 1, s.name 2)) =
    some (['s', '.', '0'], ['t', '.', '0'], []) := by
  have h0 : decimal 0 = ['0'] := by unfold decimal; simp [digit]
  simp [autoname, autoObj, autoKids, shared, ASt.give, generateName, h0]

example : NamesOk shared (fun _ => []) (fun _ => none) 0 :=
  ⟨fun _ _ _ _ h => absurd rfl h, fun _ _ t k _ h => by simp at h⟩

/-- Two nodes 1 and 2 in the model 0; the second one contains a node without a name. -/
def twins : Nat → AModel
  | 0 => ⟨false, [], [1, 2]⟩
  | 1 => ⟨true, ['t'], []⟩
  | 2 => ⟨true, ['t'], [3]⟩
  | 3 => ⟨true, ['t'], []⟩
  | _ => ⟨false, [], []⟩

/-- C118 fails: what is in the second of two nodes with the same name is not named. -/
theorem autoname_duplicate_false :
    ∃ s, autoname twins 4 (fun y => if y = 1 ∨ y = 2 then ['n'] else []) (fun _ => none) 0 = some s ∧
      NodeIn twins 0 3 ∧ s.name 3 = [] := by
  refine ⟨_, rfl, ⟨.step (y := 2) (by simp [twins]) (.step (y := 3) (by simp [twins]) (.refl 3)), rfl⟩, ?_⟩
  simp [ASt.give]

/-- C118 fails: a node whose name the user chose like a generated one gets a namesake, and what is in that
is not named. -/
theorem autoname_collision_false :
    ∃ s, autoname twins 4 (fun y => if y = 1 then ['t', '.', '0'] else []) (fun _ => none) 0 = some s ∧
      NodeIn twins 0 3 ∧ s.name 3 = [] ∧ s.name 1 = s.name 2 := by
  have h0 : decimal 0 = ['0'] := by unfold decimal; simp [digit]
  have key : ∃ s, autoname twins 4 (fun y => if y = 1 then ['t', '.', '0'] else []) (fun _ => none) 0 = some s ∧
      s.name 3 = [] ∧ s.name 1 = s.name 2 := by
    simp [autoname, autoObj, autoKids, twins, ASt.give, generateName, h0]
  obtain ⟨s, h1, h2, h3⟩ := key
  exact ⟨s, h1, ⟨.step (y := 2) (by simp [twins]) (.step (y := 3) (by simp [twins]) (.refl 3)), rfl⟩, h2, h3⟩

end Verif.Schema
