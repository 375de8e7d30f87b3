import Verif.Obj.ExprLemmas
/-
C37: expressions built with the overloaded operators evaluate to their arithmetic value.
-/
set_option linter.unusedSectionVars false
namespace Verif.Obj

/-! ### Comparing evaluation and arithmetic -/

/-- Whenever the left side has a value so has the right one, the same; if `t` they have one together. -/
def Le (t : Prop) (x y : Option Val) : Prop := (∀ v, x = some v → y = some v) ∧ (t → x = y)

theorem Le.refl {t : Prop} (x : Option Val) : Le t x x := ⟨fun _ h => h, fun _ => rfl⟩

theorem Le.trans {t : Prop} {x y z : Option Val} (h : Le t x y) (k : Le t y z) : Le t x z :=
  ⟨fun v e => k.1 v (h.1 v e), fun e => (h.2 e).trans (k.2 e)⟩

theorem Le.bind {t : Prop} {x x' : Option Val} {k k' : Val → Option Val} (h : Le t x x') (hk : ∀ a, Le t (k a) (k' a)) :
    Le t (x.bind k) (x'.bind k') := by
  constructor
  · intro v e
    cases hx : x with
    | none => rw [hx] at e; cases e
    | some a =>
      rw [hx] at e
      rw [h.1 a hx]
      exact (hk a).1 v e
  · intro ht
    rw [h.2 ht]
    congr 1
    funext a
    exact (hk a).2 ht

theorem Le.map {t : Prop} {x x' : Option Val} (g : Val → Val) (h : Le t x x') : Le t (x.map g) (x'.map g) := by
  constructor
  · intro v e
    cases hx : x with
    | none => rw [hx] at e; cases e
    | some a =>
      rw [hx] at e
      rw [h.1 a hx]
      exact e
  · intro ht
    rw [h.2 ht]

/-! ### Flattened sums and products -/

/-- The function an operand is turned into. -/
def toFn : PyObj → Option Fn
  | .fn f => some f
  | .num x => some (.const [x])
  | .arr a => some (.const a)
  | .objs _ => none

/-- The value of an operand. -/
noncomputable def oval (chk : Check) (env : Nat → Val) (o : PyObj) : Option Val := (toFn o).bind (evalFn chk env)

/-- Not an empty sum or product. -/
def Fn.ne : Fn → Prop
  | .sum l => l ≠ []
  | .prod l => l ≠ []
  | _ => True

def sparts : Fn → List Fn
  | .sum l => l
  | f => [f]

def pparts : Fn → List Fn
  | .prod l => l
  | f => [f]

theorem sparts_ne {f : Fn} (h : f.ne) : sparts f ≠ [] := by cases f <;> simp_all [sparts, Fn.ne]

theorem pparts_ne {f : Fn} (h : f.ne) : pparts f ≠ [] := by cases f <;> simp_all [pparts, Fn.ne]

/-- `h` is a sum of `f` and `g`. -/
def JoinOf (mk : List Fn → Fn) (parts : Fn → List Fn) (op : ℝ → ℝ → ℝ) (u : ℝ) (f g h : Fn) : Prop :=
  h = mk (parts f ++ parts g) ∨ h = mk (parts g ++ parts f) ∨ (g = .const [u] ∧ h = f) ∨
    ∃ a b c, f = .const a ∧ g = .const b ∧ bc op a b = some c ∧ h = .const c

abbrev SumOf (f g h : Fn) : Prop := JoinOf .sum sparts (· + ·) 0 f g h
abbrev ProdOf (f g h : Fn) : Prop := JoinOf .prod pparts (· * ·) 1 f g h

section
variable {chk : Check} {env : Nat → Val}

theorem sparts_eval (H : Hereditary chk) (f : Fn) : evalFn chk env (.sum (sparts f)) = evalFn chk env f := by
  cases f with
  | sum l => rfl
  | _ => exact (sumKind chk env).single H _

theorem pparts_eval (H : Hereditary chk) (f : Fn) : evalFn chk env (.prod (pparts f)) = evalFn chk env f := by
  cases f with
  | prod l => rfl
  | _ => exact (prodKind chk env).single H _

theorem joinOf_le {mk : List Fn → Fn} {parts : Fn → List Fn} {op : ℝ → ℝ → ℝ} {u : ℝ} (K : NodeKind chk env mk op u)
    (H : Hereditary chk) (hp : ∀ f, evalFn chk env (mk (parts f)) = evalFn chk env f) {f g h : Fn}
    (hf : parts f ≠ []) (hg : parts g ≠ []) (J : JoinOf mk parts op u f g h) :
    Le (chk = fun _ => True) (evalFn chk env h)
      ((evalFn chk env f).bind fun a => (evalFn chk env g).bind (bc op a)) := by
  have flip : ((evalFn chk env f).bind fun a => (evalFn chk env g).bind (bc op a)) =
      ((evalFn chk env g).bind fun a => (evalFn chk env f).bind (bc op a)) := by
    cases evalFn chk env f <;> cases evalFn chk env g <;> simp
    exact bc_comm K.comm _ _
  have core : ∀ f g : Fn, parts f ≠ [] → parts g ≠ [] →
      Le (chk = fun _ => True) (evalFn chk env (mk (parts f ++ parts g)))
        ((evalFn chk env f).bind fun a => (evalFn chk env g).bind (bc op a)) := by
    intro f g hf hg
    constructor
    · intro v e
      obtain ⟨a, b, h1, h2, h3⟩ := K.append H _ _ hf hg v e
      rw [hp] at h1 h2
      rw [h1, h2]
      exact h3
    · intro ht
      subst ht
      rw [K.append_true, hp, hp]
  rcases J with J | J | ⟨hg', J⟩ | ⟨a, b, c, h1, h2, h3, h4⟩
  · rw [J]; exact core f g hf hg
  · rw [J, flip]; exact core g f hg hf
  · rw [J, hg']
    have : ((evalFn chk env f).bind fun a => (evalFn chk env (.const [u])).bind (bc op a)) = evalFn chk env f := by
      cases evalFn chk env f with
      | none => rfl
      | some a =>
        simp only [evalFn, Option.bind_some]
        exact bc_right u (fun x => by rw [K.comm, K.left]) a
    rw [this]
    exact Le.refl _
  · subst h1; subst h2; subst h4
    simp only [evalFn, Option.bind_some, h3]
    exact Le.refl _

theorem sumOf_le (H : Hereditary chk) {f g h : Fn} (hf : f.ne) (hg : g.ne) (J : SumOf f g h) :
    Le (chk = fun _ => True) (evalFn chk env h)
      ((evalFn chk env f).bind fun a => (evalFn chk env g).bind (bc (· + ·) a)) :=
  joinOf_le (sumKind chk env) H (sparts_eval H) (sparts_ne hf) (sparts_ne hg) J

theorem prodOf_le (H : Hereditary chk) {f g h : Fn} (hf : f.ne) (hg : g.ne) (J : ProdOf f g h) :
    Le (chk = fun _ => True) (evalFn chk env h)
      ((evalFn chk env f).bind fun a => (evalFn chk env g).bind (bc (· * ·) a)) :=
  joinOf_le (prodKind chk env) H (pparts_eval H) (pparts_ne hf) (pparts_ne hg) J

theorem sumOf_ne {f g h : Fn} (hf : f.ne) (J : SumOf f g h) : h.ne := by
  rcases J with J | J | ⟨_, J⟩ | ⟨_, _, _, _, _, _, J⟩ <;> subst J
  · simp [Fn.ne, sparts_ne hf]
  · simp [Fn.ne, sparts_ne hf]
  · exact hf
  · trivial

theorem prodOf_ne {f g h : Fn} (hf : f.ne) (J : ProdOf f g h) : h.ne := by
  rcases J with J | J | ⟨_, J⟩ | ⟨_, _, _, _, _, _, J⟩ <;> subst J
  · simp [Fn.ne, pparts_ne hf]
  · simp [Fn.ne, pparts_ne hf]
  · exact hf
  · trivial

/-- What a library's operators have to do; `bad` operands are left out of multiplication. -/
structure OpsOk (ops : Ops) (bad : PyObj → Prop) : Prop where
  add : ∀ f o h, ops.add f o = some h → ∃ g, toFn o = some g ∧ SumOf f g h
  mul : ∀ f o h, ops.mul f o = some h → ¬ bad o → ∃ g, toFn o = some g ∧ ProdOf f g h
  mulObjs : ∀ f l, ops.mul f (.objs l) = none
  neg : ∀ f h, ops.neg f = some h → ProdOf f (.const [-1]) h
  sub : ∀ f o h, ops.sub f o = some h → ∃ k, oNeg ops.neg o = some k ∧ ops.add f k = some h
  rsub : ∀ f o h, ops.rsub f o = some h → ∃ k, ops.neg f = some k ∧ ops.add k o = some h
  div : ∀ f o h, ops.div f o = some h → ∃ k, oInv o = some k ∧ ¬ bad k ∧ ops.mul f k = some h
  rdiv : ∀ f o h, ops.rdiv f o = some h → ¬ bad o ∧ ops.mul (.pow f (-1)) o = some h
  pow : ∀ f p h, ops.pow f p = some h → h = .pow f p ∨ ∃ u, f = .const u ∧ h = .const (u.map (· ^ p))
  badNum : ∀ x, ¬ bad (.num x)

theorem goosOps_ok : OpsOk goosOps (fun _ => False) := by
  have hadd : ∀ f o h, gAdd f o = some h → ∃ g, toFn o = some g ∧ SumOf f g h := by
    intro f o h e
    cases o with
    | objs l => cases f <;> cases e
    | num x =>
      refine ⟨_, rfl, ?_⟩
      by_cases hx : x = 0
      · subst hx
        cases f <;> simp [gAdd] at e <;> subst e <;> simp [JoinOf, sparts]
      · cases f <;> simp [gAdd, hx] at e <;> subst e <;> simp [JoinOf, sparts]
    | arr a =>
      refine ⟨_, rfl, ?_⟩
      cases f <;> simp [gAdd] at e <;> subst e <;> simp [JoinOf, sparts]
    | fn g =>
      refine ⟨_, rfl, ?_⟩
      cases f <;> cases g <;> simp [gAdd] at e <;> subst e <;> simp [JoinOf, sparts]
  have hmul : ∀ f o h, gMul f o = some h → ∃ g, toFn o = some g ∧ ProdOf f g h := by
    intro f o h e
    cases o with
    | objs l => cases f <;> cases e
    | num x =>
      refine ⟨_, rfl, ?_⟩
      by_cases hx : x = 1
      · subst hx
        cases f <;> simp [gMul] at e <;> subst e <;> simp [JoinOf, pparts]
      · cases f <;> simp [gMul, hx] at e <;> subst e <;> simp [JoinOf, pparts]
    | arr a =>
      refine ⟨_, rfl, ?_⟩
      cases f <;> simp [gMul] at e <;> subst e <;> simp [JoinOf, pparts]
    | fn g =>
      refine ⟨_, rfl, ?_⟩
      cases f <;> cases g <;> simp [gMul] at e <;> subst e <;> simp [JoinOf, pparts]
  refine ⟨hadd, fun f o h e _ => hmul f o h e, fun f l => by cases f <;> rfl, ?_, ?_, ?_, ?_, ?_, ?_, fun _ h => h⟩
  · intro f h e
    obtain ⟨g, hg, J⟩ := hmul f (.num (-1)) h e
    cases hg
    exact J
  · intro f o h e
    exact Option.bind_eq_some_iff.1 e
  · intro f o h e
    exact Option.bind_eq_some_iff.1 e
  · intro f o h e
    obtain ⟨k, h1, h2⟩ := Option.bind_eq_some_iff.1 e
    exact ⟨k, h1, fun h => h, h2⟩
  · intro f o h e
    exact ⟨fun h => h, e⟩
  · intro f p h e
    exact Or.inl (Option.some.inj e).symm

theorem invdesOps_ok : OpsOk invdesOps (fun o => ∃ a, o = .arr a) := by
  have hadd : ∀ f o h, iAdd f o = some h → ∃ g, toFn o = some g ∧ SumOf f g h := by
    intro f o h e
    cases o with
    | objs l => cases f <;> cases e
    | num x =>
      refine ⟨_, rfl, ?_⟩
      cases f <;> simp [iAdd] at e
      case const u =>
        obtain ⟨c, h1, h2⟩ := e
        exact Or.inr (Or.inr (Or.inr ⟨_, _, _, rfl, rfl, h1, h2.symm⟩))
      all_goals subst e; simp [JoinOf, sparts]
    | arr a =>
      refine ⟨_, rfl, ?_⟩
      cases f <;> simp [iAdd] at e
      case const u =>
        obtain ⟨c, h1, h2⟩ := e
        exact Or.inr (Or.inr (Or.inr ⟨_, _, _, rfl, rfl, h1, h2.symm⟩))
      all_goals subst e; simp [JoinOf, sparts]
    | fn g =>
      refine ⟨_, rfl, ?_⟩
      cases f <;> cases g <;> simp [iAdd] at e
      case const.const =>
        obtain ⟨c, h1, h2⟩ := e
        exact Or.inr (Or.inr (Or.inr ⟨_, _, _, rfl, rfl, h1, h2.symm⟩))
      all_goals subst e; simp [JoinOf, sparts]
  have hmul : ∀ f o h, iMul f o = some h → ¬ (∃ a, o = .arr a) → ∃ g, toFn o = some g ∧ ProdOf f g h := by
    intro f o h e hb
    cases o with
    | objs l => cases f <;> cases e
    | num x =>
      refine ⟨_, rfl, ?_⟩
      cases f <;> simp [iMul] at e
      case const u =>
        obtain ⟨c, h1, h2⟩ := e
        exact Or.inr (Or.inr (Or.inr ⟨_, _, _, rfl, rfl, h1, h2.symm⟩))
      all_goals subst e; simp [JoinOf, pparts]
    | arr a => exact absurd ⟨a, rfl⟩ hb
    | fn g =>
      refine ⟨_, rfl, ?_⟩
      cases f <;> cases g <;> simp [iMul] at e
      case const.const =>
        obtain ⟨c, h1, h2⟩ := e
        exact Or.inr (Or.inr (Or.inr ⟨_, _, _, rfl, rfl, h1, h2.symm⟩))
      all_goals subst e; simp [JoinOf, pparts]
  refine ⟨hadd, hmul, fun f l => by cases f <;> rfl, ?_, ?_, ?_, ?_, ?_, ?_, ?_⟩
  · intro f h e
    cases f with
    | const u =>
      cases e
      refine Or.inr (Or.inr (Or.inr ⟨u, [-1], _, rfl, rfl, bc_const_right _ _ _, ?_⟩))
      simp
    | leaf i =>
      obtain ⟨g, hg, J⟩ := hmul (.leaf i) (.num (-1)) h e (by rintro ⟨a, ha⟩; cases ha)
      cases hg
      exact J
    | sum l =>
      obtain ⟨g, hg, J⟩ := hmul (.sum l) (.num (-1)) h e (by rintro ⟨a, ha⟩; cases ha)
      cases hg
      exact J
    | prod l =>
      obtain ⟨g, hg, J⟩ := hmul (.prod l) (.num (-1)) h e (by rintro ⟨a, ha⟩; cases ha)
      cases hg
      exact J
    | pow f p =>
      obtain ⟨g, hg, J⟩ := hmul (.pow f p) (.num (-1)) h e (by rintro ⟨a, ha⟩; cases ha)
      cases hg
      exact J
  · intro f o h e
    exact Option.bind_eq_some_iff.1 e
  · intro f o h e
    exact Option.bind_eq_some_iff.1 e
  · intro f o h e; cases e
  · intro f o h e; cases e
  · intro f p h e
    cases f with
    | const u => exact Or.inr ⟨u, rfl, (Option.some.inj e).symm⟩
    | _ => exact Or.inl (Option.some.inj e).symm
  · rintro x ⟨a, ha⟩; cases ha

/-- An operand that is a proper value: not an object array, not an empty sum or product. -/
def PyObj.proper (o : PyObj) : Prop := ∃ f, toFn o = some f ∧ f.ne

theorem proper_of_toFn {o : PyObj} (h : ∀ f, o = .fn f → f.ne) (ho : ∀ l, o ≠ .objs l) : o.proper := by
  cases o with
  | fn f => exact ⟨f, rfl, h f rfl⟩
  | num x => exact ⟨_, rfl, trivial⟩
  | arr x => exact ⟨_, rfl, trivial⟩
  | objs l => exact absurd rfl (ho l)

variable {ops : Ops} {bad : PyObj → Prop}

theorem add_le (H : Hereditary chk) (O : OpsOk ops bad) {f h : Fn} {o : PyObj} (hf : f.ne)
    (ho : o.proper) (e : ops.add f o = some h) :
    h.ne ∧ Le (chk = fun _ => True) (evalFn chk env h)
      ((evalFn chk env f).bind fun a => (oval chk env o).bind (bc (· + ·) a)) := by
  obtain ⟨g, hg, J⟩ := O.add f o h e
  obtain ⟨g', hg', hne⟩ := ho
  rw [hg] at hg'
  cases hg'
  refine ⟨sumOf_ne hf J, ?_⟩
  simp only [oval, hg, Option.bind_some]
  exact sumOf_le H hf hne J

theorem mul_le (H : Hereditary chk) (O : OpsOk ops bad) {f h : Fn} {o : PyObj} (hf : f.ne)
    (ho : o.proper) (hb : ¬ bad o) (e : ops.mul f o = some h) :
    h.ne ∧ Le (chk = fun _ => True) (evalFn chk env h)
      ((evalFn chk env f).bind fun a => (oval chk env o).bind (bc (· * ·) a)) := by
  obtain ⟨g, hg, J⟩ := O.mul f o h e hb
  obtain ⟨g', hg', hne⟩ := ho
  rw [hg] at hg'
  cases hg'
  refine ⟨prodOf_ne hf J, ?_⟩
  simp only [oval, hg, Option.bind_some]
  exact prodOf_le H hf hne J

theorem neg_le (H : Hereditary chk) (O : OpsOk ops bad) {f h : Fn} (hf : f.ne) (e : ops.neg f = some h) :
    h.ne ∧ Le (chk = fun _ => True) (evalFn chk env h) ((evalFn chk env f).map fun a => a.map (- ·)) := by
  have J := O.neg f h e
  refine ⟨prodOf_ne hf J, ?_⟩
  have := prodOf_le (env := env) H hf (g := .const [-1]) trivial J
  have e2 : ((evalFn chk env f).bind fun a => (evalFn chk env (.const [-1])).bind (bc (· * ·) a)) =
      (evalFn chk env f).map fun a => a.map (- ·) := by
    cases evalFn chk env f with
    | none => rfl
    | some a =>
      simp only [evalFn, Option.bind_some, Option.map_some, bc_const_right]
      simp
  rw [e2] at this
  exact this

theorem oNeg_le (H : Hereditary chk) (O : OpsOk ops bad) {o k : PyObj} (ho : o.proper) (e : oNeg ops.neg o = some k) :
    k.proper ∧ Le (chk = fun _ => True) (oval chk env k) ((oval chk env o).map fun a => a.map (- ·)) := by
  cases o with
  | fn f =>
    obtain ⟨h, h1, h2⟩ := Option.map_eq_some_iff.1 e
    subst h2
    obtain ⟨f', hf', hne⟩ := ho
    cases hf'
    obtain ⟨h3, h4⟩ := neg_le (env := env) H O hne h1
    exact ⟨⟨h, rfl, h3⟩, h4⟩
  | num x =>
    cases e
    exact ⟨⟨_, rfl, trivial⟩, by simp [oval, toFn, evalFn, Le]⟩
  | arr a =>
    cases e
    exact ⟨⟨_, rfl, trivial⟩, by simp [oval, toFn, evalFn, Le]⟩
  | objs l => cases e

theorem oInv_le {o k : PyObj} (ho : o.proper) (e : oInv o = some k) :
    k.proper ∧ Le (chk = fun _ => True) (oval chk env k) ((oval chk env o).map fun a => a.map (·⁻¹)) := by
  cases o with
  | fn f =>
    cases e
    refine ⟨⟨_, rfl, trivial⟩, ?_⟩
    simp only [oval, toFn, Option.bind_some, evalFn, Real.rpow_neg_one]
    exact Le.refl _
  | num x =>
    simp only [oInv] at e
    split at e
    · cases e
    · cases e
      exact ⟨⟨_, rfl, trivial⟩, by simp [oval, toFn, evalFn, Le]⟩
  | arr a =>
    simp only [oInv] at e
    split at e
    · cases e
    · cases e
      exact ⟨⟨_, rfl, trivial⟩, by simp [oval, toFn, evalFn, Le]⟩
  | objs l => cases e

theorem bind_map_right (op op' : ℝ → ℝ → ℝ) (g : ℝ → ℝ) (hop : ∀ x y, op x y = op' x (g y)) (x y : Option Val) :
    (x.bind fun a => (y.map fun b => b.map g).bind (bc op' a)) = x.bind fun a => y.bind (bc op a) := by
  cases x <;> cases y <;> simp
  exact (bc_map_right op' op g hop _ _).symm

theorem bind_flip (op op' : ℝ → ℝ → ℝ) (hop : ∀ x y, op x y = op' y x) (x y : Option Val) :
    (x.bind fun a => y.bind (bc op a)) = y.bind fun a => x.bind (bc op' a) := by
  cases x with
  | none => cases y <;> rfl
  | some a =>
    cases y with
    | none => rfl
    | some b =>
      simp only [Option.bind_some]
      unfold bc
      rw [bshape_comm]
      simp only [hop]

theorem sub_le (H : Hereditary chk) (O : OpsOk ops bad) {f h : Fn} {o : PyObj} (hf : f.ne)
    (ho : o.proper) (e : ops.sub f o = some h) :
    h.ne ∧ Le (chk = fun _ => True) (evalFn chk env h)
      ((evalFn chk env f).bind fun a => (oval chk env o).bind (bc (· - ·) a)) := by
  obtain ⟨k, h1, h2⟩ := O.sub f o h e
  obtain ⟨hk, l1⟩ := oNeg_le (env := env) H O ho h1
  obtain ⟨hne, l2⟩ := add_le (env := env) H O hf hk h2
  refine ⟨hne, l2.trans ?_⟩
  rw [← bind_map_right (· - ·) (· + ·) (- ·) (fun x y => by ring)]
  exact Le.bind (Le.refl _) fun a => Le.bind l1 fun b => Le.refl _

theorem rsub_le (H : Hereditary chk) (O : OpsOk ops bad) {f h : Fn} {o : PyObj} (hf : f.ne)
    (ho : o.proper) (e : ops.rsub f o = some h) :
    h.ne ∧ Le (chk = fun _ => True) (evalFn chk env h)
      ((oval chk env o).bind fun a => (evalFn chk env f).bind (bc (· - ·) a)) := by
  obtain ⟨k, h1, h2⟩ := O.rsub f o h e
  obtain ⟨hk, l1⟩ := neg_le (env := env) H O hf h1
  obtain ⟨hne, l2⟩ := add_le (env := env) H O hk ho h2
  refine ⟨hne, l2.trans ?_⟩
  rw [← bind_map_right (· - ·) (· + ·) (- ·) (fun x y => by ring),
    bind_flip (· + ·) (· + ·) (fun x y => by ring) (oval chk env o)]
  exact Le.bind l1 fun a => Le.refl _

theorem div_le (H : Hereditary chk) (O : OpsOk ops bad) {f h : Fn} {o : PyObj} (hf : f.ne)
    (ho : o.proper) (e : ops.div f o = some h) :
    h.ne ∧ Le (chk = fun _ => True) (evalFn chk env h)
      ((evalFn chk env f).bind fun a => (oval chk env o).bind (bc (· / ·) a)) := by
  obtain ⟨k, h1, hb, h2⟩ := O.div f o h e
  obtain ⟨hk, l1⟩ := oInv_le (chk := chk) (env := env) ho h1
  obtain ⟨hne, l2⟩ := mul_le (env := env) H O hf hk hb h2
  refine ⟨hne, l2.trans ?_⟩
  rw [← bind_map_right (· / ·) (· * ·) (·⁻¹) (fun x y => by ring)]
  exact Le.bind (Le.refl _) fun a => Le.bind l1 fun b => Le.refl _

theorem rdiv_le (H : Hereditary chk) (O : OpsOk ops bad) {f h : Fn} {o : PyObj}
    (ho : o.proper) (e : ops.rdiv f o = some h) :
    h.ne ∧ Le (chk = fun _ => True) (evalFn chk env h)
      ((oval chk env o).bind fun a => (evalFn chk env f).bind (bc (· / ·) a)) := by
  obtain ⟨hb, h2⟩ := O.rdiv f o h e
  obtain ⟨hne, l2⟩ := mul_le (env := env) H O (f := .pow f (-1)) trivial ho hb h2
  refine ⟨hne, l2.trans ?_⟩
  rw [← bind_map_right (· / ·) (· * ·) (·⁻¹) (fun x y => by ring),
    bind_flip (· * ·) (· * ·) (fun x y => by ring) (oval chk env o)]
  simp only [evalFn, Real.rpow_neg_one]
  exact Le.refl _

/-- Dispatching a binary operator computes the operation on the operands' values. -/
theorem dispatch_le {m r : Fn → PyObj → Option Fn} {native : ℝ → ℝ → ℝ} {x y z : PyObj} (hx : x.proper) (hy : y.proper)
    (hm : ∀ f h, x = .fn f → m f y = some h → h.ne ∧ Le (chk = fun _ => True) (evalFn chk env h)
      ((evalFn chk env f).bind fun a => (oval chk env y).bind (bc native a)))
    (hr : ∀ g h u, x = .num u → y = .fn g → r g (.num u) = some h → h.ne ∧ Le (chk = fun _ => True) (evalFn chk env h)
      ((oval chk env x).bind fun a => (evalFn chk env g).bind (bc native a)))
    (e : dispatch m r native x y = some z) (hz : ∀ l, z ≠ .objs l) :
    z.proper ∧ Le (chk = fun _ => True) (oval chk env z)
      ((oval chk env x).bind fun a => (oval chk env y).bind (bc native a)) := by
  have lit : ∀ a b : Val, ∀ c, bc native a b = some c → Le (chk = fun _ => True) (some c) (bc native a b) :=
    fun a b c h => by rw [h]; exact Le.refl _
  cases x with
  | fn f =>
    obtain ⟨h, h1, h2⟩ := Option.map_eq_some_iff.1 e
    subst h2
    obtain ⟨hne, l⟩ := hm f h rfl h1
    exact ⟨⟨h, rfl, hne⟩, l⟩
  | num u =>
    cases y with
    | fn g =>
      obtain ⟨h, h1, h2⟩ := Option.map_eq_some_iff.1 e
      subst h2
      obtain ⟨hne, l⟩ := hr g h u rfl rfl h1
      exact ⟨⟨h, rfl, hne⟩, l⟩
    | num w =>
      cases e
      refine ⟨⟨_, rfl, trivial⟩, ?_⟩
      simp only [oval, toFn, Option.bind_some, evalFn]
      apply lit
      rw [bc_const_right]; rfl
    | arr b =>
      obtain ⟨h, h1, h2⟩ := Option.map_eq_some_iff.1 e
      subst h2
      refine ⟨⟨_, rfl, trivial⟩, ?_⟩
      simp only [oval, toFn, Option.bind_some, evalFn]
      exact lit _ _ _ h1
    | objs l => cases e
  | arr a =>
    cases y with
    | fn g =>
      obtain ⟨h, h1, h2⟩ := Option.map_eq_some_iff.1 e
      exact absurd h2.symm (hz h)
    | num w =>
      obtain ⟨h, h1, h2⟩ := Option.map_eq_some_iff.1 e
      subst h2
      refine ⟨⟨_, rfl, trivial⟩, ?_⟩
      simp only [oval, toFn, Option.bind_some, evalFn]
      exact lit _ _ _ h1
    | arr b =>
      obtain ⟨h, h1, h2⟩ := Option.map_eq_some_iff.1 e
      subst h2
      refine ⟨⟨_, rfl, trivial⟩, ?_⟩
      simp only [oval, toFn, Option.bind_some, evalFn]
      exact lit _ _ _ h1
    | objs l => cases e
  | objs l =>
    obtain ⟨_, h, _⟩ := hx
    cases h

/-- An object array as operand never gives an object. -/
theorem dispatch_objs {m r : Fn → PyObj → Option Fn} {native : ℝ → ℝ → ℝ} {x y z : PyObj}
    (hm : ∀ f l, m f (.objs l) = none) (e : dispatch m r native x y = some z) :
    (∀ l, x ≠ .objs l) ∧ ∀ l, y ≠ .objs l := by
  constructor
  · rintro l rfl
    cases e
  · rintro l rfl
    cases x with
    | fn f => simp [dispatch, hm] at e
    | _ => cases e

/-- The kind of object an expression gives. -/
theorem build_kind (ops : Ops) (e : Ex) (x : PyObj) (h : build ops e = some x) :
    ((∃ f, x = .fn f) → e.hasFn = true) ∧ ((∃ a, x = .arr a) → e.hasFn = false ∧ e.hasArr = true) ∧
    ((∃ u, x = .num u) → e.hasFn = false) := by
  have D : ∀ (m r : Fn → PyObj → Option Fn) (native : ℝ → ℝ → ℝ) (a b : Ex) (x y z : PyObj),
      (((∃ f, x = .fn f) → a.hasFn = true) ∧ ((∃ l, x = .arr l) → a.hasFn = false ∧ a.hasArr = true) ∧
        ((∃ u, x = .num u) → a.hasFn = false)) →
      (((∃ f, y = .fn f) → b.hasFn = true) ∧ ((∃ l, y = .arr l) → b.hasFn = false ∧ b.hasArr = true) ∧
        ((∃ u, y = .num u) → b.hasFn = false)) →
      dispatch m r native x y = some z →
      ((∃ f, z = .fn f) → (a.hasFn || b.hasFn) = true) ∧
      ((∃ l, z = .arr l) → (a.hasFn || b.hasFn) = false ∧ (a.hasArr || b.hasArr) = true) ∧
      ((∃ u, z = .num u) → (a.hasFn || b.hasFn) = false) := by
    intro m r native a b x y z hx hy e
    cases x with
    | fn f =>
      obtain ⟨h, h1, h2⟩ := Option.map_eq_some_iff.1 e
      subst h2
      simp [hx.1 ⟨f, rfl⟩]
    | num u =>
      have h0 := hx.2.2 ⟨u, rfl⟩
      cases y with
      | fn g =>
        obtain ⟨h, h1, h2⟩ := Option.map_eq_some_iff.1 e
        subst h2
        simp [hy.1 ⟨g, rfl⟩]
      | num w => cases e; simp [h0, hy.2.2 ⟨w, rfl⟩]
      | arr b =>
        obtain ⟨h, h1, h2⟩ := Option.map_eq_some_iff.1 e
        subst h2
        simp [h0, hy.2.1 ⟨b, rfl⟩]
      | objs l => cases e
    | arr u =>
      have h0 := hx.2.1 ⟨u, rfl⟩
      cases y with
      | fn g =>
        obtain ⟨h, h1, h2⟩ := Option.map_eq_some_iff.1 e
        subst h2
        simp
      | num w =>
        obtain ⟨h, h1, h2⟩ := Option.map_eq_some_iff.1 e
        subst h2
        simp [h0, hy.2.2 ⟨w, rfl⟩]
      | arr b =>
        obtain ⟨h, h1, h2⟩ := Option.map_eq_some_iff.1 e
        subst h2
        simp [h0, hy.2.1 ⟨b, rfl⟩]
      | objs l => cases e
    | objs l => cases e
  induction e generalizing x with
  | leaf i => cases h; simp [Ex.hasFn]
  | num u => cases h; simp [Ex.hasFn]
  | arr l => cases h; simp [Ex.hasFn, Ex.hasArr]
  | add a b iha ihb | sub a b iha ihb | mul a b iha ihb | div a b iha ihb =>
    obtain ⟨p, h1, h⟩ := Option.bind_eq_some_iff.1 h
    obtain ⟨q, h2, h⟩ := Option.bind_eq_some_iff.1 h
    exact D _ _ _ a b p q x (iha p h1) (ihb q h2) h
  | neg a iha =>
    obtain ⟨p, h1, h⟩ := Option.bind_eq_some_iff.1 h
    have := iha p h1
    cases p with
    | fn f =>
      obtain ⟨g, h1, h2⟩ := Option.map_eq_some_iff.1 h
      subst h2
      simp [Ex.hasFn, this.1 ⟨f, rfl⟩]
    | num u => cases h; simp [Ex.hasFn, this.2.2 ⟨u, rfl⟩]
    | arr l => cases h; simp [Ex.hasFn, Ex.hasArr, this.2.1 ⟨l, rfl⟩]
    | objs l => cases h
  | pow a p iha =>
    obtain ⟨q, h1, h⟩ := Option.bind_eq_some_iff.1 h
    have := iha q h1
    cases q with
    | fn f =>
      obtain ⟨g, h1, h2⟩ := Option.map_eq_some_iff.1 h
      subst h2
      simp [Ex.hasFn, this.1 ⟨f, rfl⟩]
    | num u => cases h; simp [Ex.hasFn, this.2.2 ⟨u, rfl⟩]
    | arr l => cases h; simp [Ex.hasFn, Ex.hasArr, this.2.1 ⟨l, rfl⟩]
    | objs l => cases h

theorem OpsOk.addObjs (O : OpsOk ops bad) (f : Fn) (l : List Fn) : ops.add f (.objs l) = none := by
  cases h : ops.add f (.objs l) with
  | none => rfl
  | some g => obtain ⟨_, h1, _⟩ := O.add _ _ _ h; cases h1

theorem OpsOk.subObjs (O : OpsOk ops bad) (f : Fn) (l : List Fn) : ops.sub f (.objs l) = none := by
  cases h : ops.sub f (.objs l) with
  | none => rfl
  | some g => obtain ⟨_, h1, _⟩ := O.sub _ _ _ h; cases h1

theorem OpsOk.divObjs (O : OpsOk ops bad) (f : Fn) (l : List Fn) : ops.div f (.objs l) = none := by
  cases h : ops.div f (.objs l) with
  | none => rfl
  | some g => obtain ⟨_, h1, _⟩ := O.div _ _ _ h; cases h1

theorem build_le (H : Hereditary chk) (O : OpsOk ops bad) (hbad : ∀ o, bad o → ∃ a, o = .arr a) (e : Ex)
    (hs : (∀ o, ¬ bad o) ∨ e.noArrayFactor) (x : PyObj) (h : build ops e = some x) (hx : ∀ l, x ≠ .objs l) :
    x.proper ∧ Le (chk = fun _ => True) (oval chk env x) (e.value env) := by
  have fin : ∀ (native : ℝ → ℝ → ℝ) {p q : PyObj} {a b : Ex},
      Le (chk = fun _ => True) (oval chk env p) (a.value env) → Le (chk = fun _ => True) (oval chk env q) (b.value env) →
      Le (chk = fun _ => True) ((oval chk env p).bind fun u => (oval chk env q).bind (bc native u))
        ((a.value env).bind fun u => (b.value env).bind fun v => bc native u v) :=
    fun native p q a b h1 h2 => Le.bind h1 fun u => Le.bind h2 fun v => Le.refl _
  induction e generalizing x with
  | leaf i => cases h; exact ⟨⟨_, rfl, trivial⟩, by simp [oval, toFn, evalFn, Ex.value, Le]⟩
  | num u => cases h; exact ⟨⟨_, rfl, trivial⟩, by simp [oval, toFn, evalFn, Ex.value, Le]⟩
  | arr l => cases h; exact ⟨⟨_, rfl, trivial⟩, by simp [oval, toFn, evalFn, Ex.value, Le]⟩
  | add a b iha ihb =>
    obtain ⟨p, h1, h⟩ := Option.bind_eq_some_iff.1 h
    obtain ⟨q, h2, h⟩ := Option.bind_eq_some_iff.1 h
    obtain ⟨np, nq⟩ := dispatch_objs O.addObjs h
    obtain ⟨pp, lp⟩ := iha (hs.imp id (·.1)) p h1 np
    obtain ⟨pq, lq⟩ := ihb (hs.imp id (·.2)) q h2 nq
    obtain ⟨px, lx⟩ := dispatch_le (env := env) (chk := chk) pp pq
      (fun f k hp hk => by
        subst hp; obtain ⟨f', hf', hne⟩ := pp; cases hf'
        exact add_le (env := env) H O hne pq hk)
      (fun g k u hp hq hk => by
        subst hp; subst hq; obtain ⟨f', hf', hne⟩ := pq; cases hf'
        rw [bind_flip (· + ·) (· + ·) (fun x y => by ring)]
        exact add_le (env := env) H O hne pp hk) h hx
    exact ⟨px, lx.trans (fin _ lp lq)⟩
  | sub a b iha ihb =>
    obtain ⟨p, h1, h⟩ := Option.bind_eq_some_iff.1 h
    obtain ⟨q, h2, h⟩ := Option.bind_eq_some_iff.1 h
    obtain ⟨np, nq⟩ := dispatch_objs O.subObjs h
    obtain ⟨pp, lp⟩ := iha (hs.imp id (·.1)) p h1 np
    obtain ⟨pq, lq⟩ := ihb (hs.imp id (·.2)) q h2 nq
    obtain ⟨px, lx⟩ := dispatch_le (env := env) (chk := chk) pp pq
      (fun f k hp hk => by
        subst hp; obtain ⟨f', hf', hne⟩ := pp; cases hf'
        exact sub_le (env := env) H O hne pq hk)
      (fun g k u hp hq hk => by
        subst hp; subst hq; obtain ⟨f', hf', hne⟩ := pq; cases hf'
        exact rsub_le (env := env) H O hne pp hk) h hx
    exact ⟨px, lx.trans (fin _ lp lq)⟩
  | mul a b iha ihb =>
    obtain ⟨p, h1, h⟩ := Option.bind_eq_some_iff.1 h
    obtain ⟨q, h2, h⟩ := Option.bind_eq_some_iff.1 h
    obtain ⟨np, nq⟩ := dispatch_objs O.mulObjs h
    obtain ⟨pp, lp⟩ := iha (hs.imp id (·.1)) p h1 np
    obtain ⟨pq, lq⟩ := ihb (hs.imp id (·.2.1)) q h2 nq
    obtain ⟨px, lx⟩ := dispatch_le (env := env) (chk := chk) pp pq
      (fun f k hp hk => by
        subst hp; obtain ⟨f', hf', hne⟩ := pp; cases hf'
        have hb : ¬ bad q := by
          rcases hs with hs | hs
          · exact hs q
          · intro hb
            obtain ⟨l, hl⟩ := hbad q hb
            have k1 := (build_kind ops a _ h1).1 ⟨f, rfl⟩
            have k2 := (build_kind ops b _ h2).2.1 ⟨l, hl⟩
            exact hs.2.2 ⟨k1, k2⟩
        exact mul_le (env := env) H O hne pq hb hk)
      (fun g k u hp hq hk => by
        subst hp; subst hq; obtain ⟨f', hf', hne⟩ := pq; cases hf'
        rw [bind_flip (· * ·) (· * ·) (fun x y => by ring)]
        exact mul_le (env := env) H O hne pp (O.badNum u) hk) h hx
    exact ⟨px, lx.trans (fin _ lp lq)⟩
  | div a b iha ihb =>
    obtain ⟨p, h1, h⟩ := Option.bind_eq_some_iff.1 h
    obtain ⟨q, h2, h⟩ := Option.bind_eq_some_iff.1 h
    obtain ⟨np, nq⟩ := dispatch_objs O.divObjs h
    obtain ⟨pp, lp⟩ := iha (hs.imp id (·.1)) p h1 np
    obtain ⟨pq, lq⟩ := ihb (hs.imp id (·.2)) q h2 nq
    obtain ⟨px, lx⟩ := dispatch_le (env := env) (chk := chk) pp pq
      (fun f k hp hk => by
        subst hp; obtain ⟨f', hf', hne⟩ := pp; cases hf'
        exact div_le (env := env) H O hne pq hk)
      (fun g k u hp hq hk => by
        subst hp; subst hq; obtain ⟨f', hf', hne⟩ := pq; cases hf'
        exact rdiv_le (env := env) H O pp hk) h hx
    exact ⟨px, lx.trans (fin _ lp lq)⟩
  | neg a iha =>
    obtain ⟨p, h1, h⟩ := Option.bind_eq_some_iff.1 h
    have np : ∀ l, p ≠ .objs l := by rintro l rfl; cases h
    obtain ⟨pp, lp⟩ := iha hs p h1 np
    obtain ⟨px, lx⟩ := oNeg_le (env := env) H O pp h
    exact ⟨px, lx.trans (Le.map _ lp)⟩
  | pow a r iha =>
    obtain ⟨p, h1, h⟩ := Option.bind_eq_some_iff.1 h
    have np : ∀ l, p ≠ .objs l := by rintro l rfl; cases h
    obtain ⟨pp, lp⟩ := iha hs p h1 np
    have key : x.proper ∧ Le (chk = fun _ => True) (oval chk env x) ((oval chk env p).map fun u => u.map (· ^ r)) := by
      cases p with
      | fn f =>
        obtain ⟨g, h3, h4⟩ := Option.map_eq_some_iff.1 h
        subst h4
        rcases O.pow f r g h3 with h5 | ⟨u, h5, h6⟩
        · subst h5
          refine ⟨⟨_, rfl, trivial⟩, ?_⟩
          simp only [oval, toFn, Option.bind_some, evalFn]
          exact Le.refl _
        · subst h5; subst h6
          refine ⟨⟨_, rfl, trivial⟩, ?_⟩
          simp only [oval, toFn, Option.bind_some, evalFn, Option.map_some]
          exact Le.refl _
      | num u => cases h; exact ⟨⟨_, rfl, trivial⟩, by simp [oval, toFn, evalFn, Le]⟩
      | arr l => cases h; exact ⟨⟨_, rfl, trivial⟩, by simp [oval, toFn, evalFn, Le]⟩
      | objs l => cases h
    exact ⟨key.1, key.2.trans (Le.map _ lp)⟩

end

/-! ### The properties -/

/-- **C37** (goos). Whatever expression is written with the overloaded operators, if it gives a function and the function
evaluates, its value is the arithmetic value of the expression. -/
theorem goos_expression_value (env : Nat → Val) (e : Ex) (f : Fn) (v : Val) (h : build goosOps e = some (.fn f))
    (hv : goosEval env f = some v) : e.value env = some v :=
  (build_le domOk_hereditary goosOps_ok (fun _ h => h.elim) e (Or.inl fun _ h => h) (.fn f) h
    (fun _ h => nomatch h)).2.1 v hv

/-- **C37** (invdes). If no function is multiplied by an array, the function an expression gives evaluates to the
arithmetic value of the expression, and raises exactly if the shapes do not match. -/
theorem invdes_expression_value (env : Nat → Val) (e : Ex) (f : Fn) (hs : e.noArrayFactor)
    (h : build invdesOps e = some (.fn f)) : invdesEval env f = e.value env :=
  (build_le true_hereditary invdesOps_ok (fun _ h => h) e (Or.inr hs) (.fn f) h (fun _ h => nomatch h)).2.2 rfl

/-- An invdes function times an array is their sum (objective.py 149-150). -/
theorem invdes_array_factor_false : ∃ (env : Nat → Val) (e : Ex) (f : Fn) (u v : Val),
    build invdesOps e = some (.fn f) ∧ invdesEval env f = some u ∧ e.value env = some v ∧ u ≠ v := by
  refine ⟨fun _ => [3, 4], .mul (.leaf 0) (.arr [10, 20]), .sum [.leaf 0, .const [10, 20]], [13, 24], [30, 80], rfl,
    ?_, ?_, by norm_num⟩
  · simp [invdesEval, evalFn, evalFns, npSum, bc, bshape, bget, List.range, List.range.loop]
    norm_num
  · simp [Ex.value, bc, bshape, bget, List.range, List.range.loop]
    norm_num

/-! ### When goos functions evaluate -/

/-- All parts of the function have `n` entries and no sum or product is empty. -/
inductive Good (n : Nat) (env : Nat → Val) : Fn → Prop
  | leaf {i : Nat} : (env i).length = n → Good n env (.leaf i)
  | const {v : Val} : v.length = n → Good n env (.const v)
  | sum {l : List Fn} : l ≠ [] → (∀ f ∈ l, Good n env f) → Good n env (.sum l)
  | prod {l : List Fn} : l ≠ [] → (∀ f ∈ l, Good n env f) → Good n env (.prod l)
  | pow {f : Fn} {p : ℝ} : Good n env f → Good n env (.pow f p)

theorem foldlM_defined (op : ℝ → ℝ → ℝ) (n : Nat) (vs : List Val) (h : ∀ v ∈ vs, v.length = n) (a : Val)
    (ha : a.length = n ∨ (a.length = 1 ∧ vs ≠ [])) : ∃ r, vs.foldlM (bc op) a = some r ∧ r.length = n := by
  induction vs generalizing a with
  | nil => exact ⟨a, rfl, by simpa using ha⟩
  | cons v vs ih =>
    have hv := h v (by simp)
    have hs : bshape a.length v.length = some n := by
      rw [hv]
      rcases ha with ha | ⟨ha, _⟩
      · rw [ha]; simp [bshape]
      · rw [ha]; exact bshape_left n
    obtain ⟨r, hr⟩ : ∃ r, bc op a v = some r := ⟨_, by unfold bc; rw [hs]; rfl⟩
    have hl := (bc_some hr).1
    rw [hs] at hl
    obtain ⟨t, ht, htl⟩ := ih (fun w hw => h w (by simp [hw])) r (Or.inl (Option.some.inj hl).symm)
    exact ⟨t, by rw [List.foldlM_cons, hr]; exact ht, htl⟩

theorem good_defined {n : Nat} {env : Nat → Val} {f : Fn} (h : Good n env f) :
    ∃ v, goosEval env f = some v ∧ v.length = n := by
  have list : ∀ l : List Fn, (∀ f ∈ l, ∃ v, evalFn domOk env f = some v ∧ v.length = n) →
      ∃ vs, evalFns domOk env l = some vs ∧ ∀ v ∈ vs, v.length = n := by
    intro l hl
    induction l with
    | nil => exact ⟨[], rfl, by simp⟩
    | cons g l ih =>
      obtain ⟨v, h1, h2⟩ := hl g (by simp)
      obtain ⟨vs, h3, h4⟩ := ih fun f hf => hl f (by simp [hf])
      exact ⟨v :: vs, by simp [evalFns, h1, h3], by simpa [h2] using h4⟩
  have node : ∀ (mk : List Fn → Fn) (op : ℝ → ℝ → ℝ) (u : ℝ), NodeKind domOk env mk op u → ∀ l : List Fn, l ≠ [] →
      (∀ f ∈ l, ∃ v, evalFn domOk env f = some v ∧ v.length = n) →
      ∃ v, evalFn domOk env (mk l) = some v ∧ v.length = n := by
    intro mk op u K l hne hl
    obtain ⟨vs, h1, h2⟩ := list l hl
    have hvs : vs ≠ [] := by
      intro e; rw [e] at h1; exact hne (List.length_eq_zero_iff.1 (evalFns_length h1).symm)
    obtain ⟨r, h3, h4⟩ := foldlM_defined op n vs h2 [u] (Or.inr ⟨rfl, hvs⟩)
    refine ⟨r, ?_, h4⟩
    rw [K.eval, h1]
    simp only [Option.bind_some]
    rw [if_pos ((domOk_iff vs).2 ⟨hvs, Or.inl ⟨n, h2⟩⟩)]
    exact h3
  unfold goosEval
  induction h with
  | leaf h => exact ⟨_, rfl, h⟩
  | const h => exact ⟨_, rfl, h⟩
  | sum hne _ ih => exact node .sum _ _ (sumKind domOk env) _ hne ih
  | prod hne _ ih => exact node .prod _ _ (prodKind domOk env) _ hne ih
  | pow _ ih =>
    obtain ⟨v, h1, h2⟩ := ih
    exact ⟨v.map _, by simp only [evalFn, h1, Option.map_some]; rfl, by simpa using h2⟩

theorem good_join {n : Nat} {env : Nat → Val} {f g h : Fn} (hf : Good n env f) (hg : Good n env g) :
    (SumOf f g h → Good n env h) ∧ (ProdOf f g h → Good n env h) := by
  have sp : ∀ f, Good n env f → sparts f ≠ [] ∧ ∀ k ∈ sparts f, Good n env k := by
    intro f hf
    cases hf with
    | sum h1 h2 => exact ⟨h1, h2⟩
    | leaf h => exact ⟨by simp [sparts], by simpa [sparts] using Good.leaf h⟩
    | const h => exact ⟨by simp [sparts], by simpa [sparts] using Good.const h⟩
    | prod h1 h2 => exact ⟨by simp [sparts], by simpa [sparts] using Good.prod h1 h2⟩
    | pow h => exact ⟨by simp [sparts], by simpa [sparts] using Good.pow h⟩
  have pp : ∀ f, Good n env f → pparts f ≠ [] ∧ ∀ k ∈ pparts f, Good n env k := by
    intro f hf
    cases hf with
    | prod h1 h2 => exact ⟨h1, h2⟩
    | leaf h => exact ⟨by simp [pparts], by simpa [pparts] using Good.leaf h⟩
    | const h => exact ⟨by simp [pparts], by simpa [pparts] using Good.const h⟩
    | sum h1 h2 => exact ⟨by simp [pparts], by simpa [pparts] using Good.sum h1 h2⟩
    | pow h => exact ⟨by simp [pparts], by simpa [pparts] using Good.pow h⟩
  have cc : ∀ (op : ℝ → ℝ → ℝ) (a b c : Val), Good n env (.const a) → Good n env (.const b) → bc op a b = some c →
      Good n env (.const c) := by
    intro op a b c ha hb h
    cases ha with
    | const ha =>
      cases hb with
      | const hb =>
        have := (bc_some h).1
        rw [ha, hb] at this
        have e : bshape n n = some n := by simp [bshape]
        rw [e] at this
        exact .const (Option.some.inj this).symm
  constructor
  · rintro (J | J | ⟨_, J⟩ | ⟨a, b, c, h1, h2, h3, J⟩) <;> subst J
    · exact .sum (by simp [(sp f hf).1]) (by
        intro k hk; rcases List.mem_append.1 hk with hk | hk
        · exact (sp f hf).2 k hk
        · exact (sp g hg).2 k hk)
    · exact .sum (by simp [(sp f hf).1]) (by
        intro k hk; rcases List.mem_append.1 hk with hk | hk
        · exact (sp g hg).2 k hk
        · exact (sp f hf).2 k hk)
    · exact hf
    · subst h1; subst h2
      exact cc _ a b c hf hg h3
  · rintro (J | J | ⟨_, J⟩ | ⟨a, b, c, h1, h2, h3, J⟩) <;> subst J
    · exact .prod (by simp [(pp f hf).1]) (by
        intro k hk; rcases List.mem_append.1 hk with hk | hk
        · exact (pp f hf).2 k hk
        · exact (pp g hg).2 k hk)
    · exact .prod (by simp [(pp f hf).1]) (by
        intro k hk; rcases List.mem_append.1 hk with hk | hk
        · exact (pp g hg).2 k hk
        · exact (pp f hf).2 k hk)
    · exact hf
    · subst h1; subst h2
      exact cc _ a b c hf hg h3

theorem build_good (n : Nat) (env : Nat → Val) (e : Ex) (hu : e.uniform n env) (x : PyObj)
    (h : build goosOps e = some x) (hx : ∀ l, x ≠ .objs l) : ∃ g, toFn x = some g ∧ Good n env g := by
  have O := goosOps_ok
  have dis : ∀ (m r : Fn → PyObj → Option Fn) (native : ℝ → ℝ → ℝ) (x y z : PyObj),
      (∃ g, toFn x = some g ∧ Good n env g) → (∃ g, toFn y = some g ∧ Good n env g) →
      (∀ f h, Good n env f → m f y = some h → Good n env h) →
      (∀ f h, Good n env f → r f x = some h → Good n env h) →
      dispatch m r native x y = some z → (∀ l, z ≠ .objs l) → ∃ g, toFn z = some g ∧ Good n env g := by
    intro m r native x y z hx hy hm hr e hz
    have lit : ∀ a b c : Val, a.length = n → b.length = n → bc native a b = some c → c.length = n := by
      intro a b c ha hb h
      have := (bc_some h).1
      rw [ha, hb] at this
      have e : bshape n n = some n := by simp [bshape]
      rw [e] at this
      exact (Option.some.inj this).symm
    have clen : ∀ a, Good n env (.const a) → a.length = n := fun a h => by cases h; assumption
    obtain ⟨gx, hx1, hx2⟩ := hx
    obtain ⟨gy, hy1, hy2⟩ := hy
    cases x with
    | fn f =>
      obtain ⟨h, h1, h2⟩ := Option.map_eq_some_iff.1 e
      subst h2
      obtain rfl : f = gx := Option.some.inj hx1
      exact ⟨h, rfl, hm _ h hx2 h1⟩
    | num u =>
      cases hx1
      cases y with
      | fn g =>
        obtain ⟨h, h1, h2⟩ := Option.map_eq_some_iff.1 e
        subst h2
        obtain rfl : g = gy := Option.some.inj hy1
        exact ⟨h, rfl, hr _ h hy2 h1⟩
      | num w => cases e; exact ⟨_, rfl, .const (by have := clen _ hx2; simpa using this)⟩
      | arr b =>
        cases hy1
        obtain ⟨h, h1, h2⟩ := Option.map_eq_some_iff.1 e
        subst h2
        exact ⟨_, rfl, .const (lit _ _ _ (clen _ hx2) (clen _ hy2) h1)⟩
      | objs l => cases e
    | arr u =>
      cases hx1
      cases y with
      | fn g =>
        obtain ⟨h, h1, h2⟩ := Option.map_eq_some_iff.1 e
        exact absurd h2.symm (hz h)
      | num w =>
        cases hy1
        obtain ⟨h, h1, h2⟩ := Option.map_eq_some_iff.1 e
        subst h2
        exact ⟨_, rfl, .const (lit _ _ _ (clen _ hx2) (clen _ hy2) h1)⟩
      | arr b =>
        cases hy1
        obtain ⟨h, h1, h2⟩ := Option.map_eq_some_iff.1 e
        subst h2
        exact ⟨_, rfl, .const (lit _ _ _ (clen _ hx2) (clen _ hy2) h1)⟩
      | objs l => cases e
    | objs l => cases hx1
  have gadd : ∀ o, (∃ g, toFn o = some g ∧ Good n env g) → ∀ f h, Good n env f → gAdd f o = some h → Good n env h := by
    rintro o ⟨g, h1, h2⟩ f h hf e
    obtain ⟨g', h3, J⟩ := O.add f o h e
    rw [h1] at h3; cases h3
    exact (good_join hf h2).1 J
  have gmul : ∀ o, (∃ g, toFn o = some g ∧ Good n env g) → ∀ f h, Good n env f → gMul f o = some h → Good n env h := by
    rintro o ⟨g, h1, h2⟩ f h hf e
    obtain ⟨g', h3, J⟩ := O.mul f o h e (fun h => h)
    rw [h1] at h3; cases h3
    exact (good_join hf h2).2 J
  have gneg : n = 1 → ∀ f h, Good n env f → gNeg f = some h → Good n env h := fun hn f h hf e =>
    gmul (.num (-1)) ⟨_, rfl, .const (by simp [hn])⟩ f h hf e
  have goneg : n = 1 → ∀ o k, (∃ g, toFn o = some g ∧ Good n env g) → oNeg gNeg o = some k →
      ∃ g, toFn k = some g ∧ Good n env g := by
    rintro hn o k ⟨g, h1, h2⟩ e
    cases o with
    | fn f =>
      obtain rfl : f = g := Option.some.inj h1
      obtain ⟨h, h3, h4⟩ := Option.map_eq_some_iff.1 e
      subst h4
      exact ⟨h, rfl, gneg hn _ h h2 h3⟩
    | num u => cases e; exact ⟨_, rfl, .const (by simp [hn])⟩
    | arr l => cases h1; cases e; cases h2; rename_i hl; exact ⟨_, rfl, .const (by simpa using hl)⟩
    | objs l => cases h1
  have goinv : ∀ o k, (∃ g, toFn o = some g ∧ Good n env g) → oInv o = some k →
      ∃ g, toFn k = some g ∧ Good n env g := by
    rintro o k ⟨g, h1, h2⟩ e
    cases o with
    | fn f => cases h1; cases e; exact ⟨_, rfl, .pow h2⟩
    | num u =>
      simp only [oInv] at e
      split at e
      · cases e
      · cases h1; cases e; cases h2; rename_i hl; exact ⟨_, rfl, .const (by simpa using hl)⟩
    | arr l =>
      simp only [oInv] at e
      split at e
      · cases e
      · cases h1; cases e; cases h2; rename_i hl; exact ⟨_, rfl, .const (by simpa using hl)⟩
    | objs l => cases h1
  induction e generalizing x with
  | leaf i => cases h; exact ⟨_, rfl, .leaf hu⟩
  | num u => cases h; exact ⟨_, rfl, .const (by simp only [Ex.uniform] at hu; simp [hu])⟩
  | arr l => cases h; exact ⟨_, rfl, .const hu⟩
  | add a b iha ihb =>
    obtain ⟨p, h1, h⟩ := Option.bind_eq_some_iff.1 h
    obtain ⟨q, h2, h⟩ := Option.bind_eq_some_iff.1 h
    obtain ⟨np, nq⟩ := dispatch_objs O.addObjs h
    have hp := iha hu.1 p h1 np
    have hq := ihb hu.2 q h2 nq
    exact dis _ _ _ p q x hp hq (gadd q hq) (gadd p hp) h hx
  | mul a b iha ihb =>
    obtain ⟨p, h1, h⟩ := Option.bind_eq_some_iff.1 h
    obtain ⟨q, h2, h⟩ := Option.bind_eq_some_iff.1 h
    obtain ⟨np, nq⟩ := dispatch_objs O.mulObjs h
    have hp := iha hu.1 p h1 np
    have hq := ihb hu.2 q h2 nq
    exact dis _ _ _ p q x hp hq (gmul q hq) (gmul p hp) h hx
  | sub a b iha ihb =>
    obtain ⟨p, h1, h⟩ := Option.bind_eq_some_iff.1 h
    obtain ⟨q, h2, h⟩ := Option.bind_eq_some_iff.1 h
    obtain ⟨np, nq⟩ := dispatch_objs O.subObjs h
    have hp := iha hu.2.1 p h1 np
    have hq := ihb hu.2.2 q h2 nq
    refine dis _ _ _ p q x hp hq (fun f k hf e => ?_) (fun f k hf e => ?_) h hx
    · obtain ⟨j, h3, h4⟩ := O.sub _ _ _ e
      exact gadd j (goneg hu.1 q j hq h3) f k hf h4
    · obtain ⟨j, h3, h4⟩ := O.rsub _ _ _ e
      exact gadd p hp j k (gneg hu.1 f j hf h3) h4
  | div a b iha ihb =>
    obtain ⟨p, h1, h⟩ := Option.bind_eq_some_iff.1 h
    obtain ⟨q, h2, h⟩ := Option.bind_eq_some_iff.1 h
    obtain ⟨np, nq⟩ := dispatch_objs O.divObjs h
    have hp := iha hu.1 p h1 np
    have hq := ihb hu.2 q h2 nq
    refine dis _ _ _ p q x hp hq (fun f k hf e => ?_) (fun f k hf e => ?_) h hx
    · obtain ⟨j, h3, _, h4⟩ := O.div _ _ _ e
      exact gmul j (goinv q j hq h3) f k hf h4
    · obtain ⟨_, h4⟩ := O.rdiv _ _ _ e
      exact gmul p hp _ k (.pow hf) h4
  | neg a iha =>
    obtain ⟨p, h1, h⟩ := Option.bind_eq_some_iff.1 h
    have np : ∀ l, p ≠ .objs l := by rintro l rfl; cases h
    exact goneg hu.1 p x (iha hu.2 p h1 np) h
  | pow a r iha =>
    obtain ⟨p, h1, h⟩ := Option.bind_eq_some_iff.1 h
    have np : ∀ l, p ≠ .objs l := by rintro l rfl; cases h
    obtain ⟨g, h2, h3⟩ := iha hu p h1 np
    cases p with
    | fn f => cases h2; cases h; exact ⟨_, rfl, .pow h3⟩
    | num u => cases h2; cases h; cases h3; rename_i hl; exact ⟨_, rfl, .const (by simpa using hl)⟩
    | arr l => cases h2; cases h; cases h3; rename_i hl; exact ⟨_, rfl, .const (by simpa using hl)⟩
    | objs l => cases h2

/-- **C37** (goos, definedness). If all operands have the same number of entries - all are scalars, or all are arrays of
one shape and neither numbers nor negation occur - the function evaluates, to the arithmetic value of the expression. -/
theorem goos_expression_defined_partial (n : Nat) (env : Nat → Val) (e : Ex) (f : Fn) (hu : e.uniform n env)
    (h : build goosOps e = some (.fn f)) : ∃ v, goosEval env f = some v ∧ v.length = n ∧ e.value env = some v := by
  obtain ⟨g, h1, h2⟩ := build_good n env e hu (.fn f) h (fun _ h => nomatch h)
  cases h1
  obtain ⟨v, h3, h4⟩ := good_defined h2
  exact ⟨v, h3, h4, goos_expression_value env e f v h h3⟩

/-- Two arrays and a number added together in goos raise: `(f + g) + 1` becomes one `Sum` of three inputs, and
`find_dominant_numeric_flow` rejects two arrays beside a scalar (goos/math.py 188-241). -/
theorem goos_array_plus_number_false : ∃ (env : Nat → Val) (f : Fn),
    build goosOps (.add (.add (.leaf 0) (.leaf 1)) (.num 1)) = some (.fn f) ∧ goosEval env f = none ∧
    Ex.value env (.add (.add (.leaf 0) (.leaf 1)) (.num 1)) = some [12, 23] := by
  refine ⟨fun i => if i = 0 then [1, 2] else [10, 20], .sum [.leaf 0, .leaf 1, .const [1]], rfl, ?_, ?_⟩
  · simp [goosEval, evalFn, evalFns, domOk]
  · simp [Ex.value, bc, bshape, bget, List.range, List.range.loop]
    norm_num

/-- The same with the negative of a product of two arrays: `-(f * g)` raises. -/
theorem goos_negated_product_false : ∃ (env : Nat → Val) (f : Fn),
    build goosOps (.neg (.mul (.leaf 0) (.leaf 1))) = some (.fn f) ∧ goosEval env f = none ∧
    Ex.value env (.neg (.mul (.leaf 0) (.leaf 1))) = some [-10, -40] := by
  refine ⟨fun i => if i = 0 then [1, 2] else [10, 20], .prod [.leaf 0, .leaf 1, .const [-1]], rfl, ?_, ?_⟩
  · simp [goosEval, evalFn, evalFns, domOk]
  · simp [Ex.value, bc, bshape, bget, List.range, List.range.loop]
    norm_num

/-- With an array on the left the result is not a function but an array of functions, in both libraries. -/
theorem left_array_false : ∃ (a : Val) (l m : List Fn), a.length = 2 ∧
    build goosOps (.add (.arr a) (.leaf 0)) = some (.objs l) ∧
    build invdesOps (.add (.arr a) (.leaf 0)) = some (.objs m) := by
  refine ⟨[1, 2], [.sum [.leaf 0, .const [1]], .sum [.leaf 0, .const [2]]],
    [.sum [.leaf 0, .const [1]], .sum [.leaf 0, .const [2]]], rfl, ?_, ?_⟩
  · simp [build, dispatch, allSome, goosOps, gAdd]
  · simp [build, dispatch, allSome, invdesOps, iAdd]

/-- The theorems apply to `(1 - x0 / x1) * x0**2`. -/
example : ∃ f v, build goosOps (.mul (.sub (.num 1) (.div (.leaf 0) (.leaf 1))) (.pow (.leaf 0) 2)) = some (.fn f) ∧
    goosEval (fun i => if i = 0 then [3] else [4]) f = some v ∧
    Ex.value (fun i => if i = 0 then [3] else [4])
      (.mul (.sub (.num 1) (.div (.leaf 0) (.leaf 1))) (.pow (.leaf 0) 2)) = some v := by
  have hb : ∃ f, build goosOps (.mul (.sub (.num 1) (.div (.leaf 0) (.leaf 1))) (.pow (.leaf 0) 2)) = some (.fn f) := by
    exact ⟨.prod [.sum [.prod [.leaf 0, .pow (.leaf 1) (-1), .const [-1]], .const [1]], .pow (.leaf 0) 2], by
      simp [build, dispatch, goosOps, gDiv, oInv, gMul, gRsub, gNeg, gAdd]⟩
  obtain ⟨f, hf⟩ := hb
  obtain ⟨v, h1, _, h2⟩ := goos_expression_defined_partial 1 (fun i => if i = 0 then [3] else [4]) _ f
    (by simp [Ex.uniform]) hf
  exact ⟨f, v, hf, h1, h2⟩

/-- And to `2 * f0 - f1 ** 3` on arrays of two entries in invdes. -/
example : ∃ f, build invdesOps (.sub (.mul (.num 2) (.leaf 0)) (.pow (.leaf 1) 3)) = some (.fn f) ∧
    ∀ env, invdesEval env f = Ex.value env (.sub (.mul (.num 2) (.leaf 0)) (.pow (.leaf 1) 3)) := by
  have hb : ∃ f, build invdesOps (.sub (.mul (.num 2) (.leaf 0)) (.pow (.leaf 1) 3)) = some (.fn f) := by
    exact ⟨.sum [.prod [.leaf 0, .const [2]], .prod [.pow (.leaf 1) 3, .const [-1]]], by
      simp [build, dispatch, invdesOps, iMul, iSub, iPow, oNeg, iNeg, iAdd]⟩
  obtain ⟨f, hf⟩ := hb
  exact ⟨f, hf, fun env => invdes_expression_value env _ f (by simp [Ex.noArrayFactor, Ex.hasFn]) hf⟩

end Verif.Obj
