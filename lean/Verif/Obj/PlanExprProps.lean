import Verif.Obj.PlanExprSpec
import Mathlib.Tactic.LinearCombination
import Mathlib.Tactic.Push
import Mathlib.Tactic.ByContra
/-
C93: the value of an expression of a plan.
-/
namespace Verif.Obj.Plan

/-! ### Helper lemmas -/

/-- Value of an operand. -/
noncomputable def oval (env : Nat → ℂ) : POp → Option ℂ
  | .fn f => evalQ env (create f)
  | .real x => some x
  | .cplx z => some z
  | .cobj z => some z

theorem foldl_add (l : List ℂ) (s : ℂ) : l.foldl (· + ·) s = s + l.foldl (· + ·) 0 := by
  induction l generalizing s with
  | nil => simp
  | cons a l ih => simp only [List.foldl_cons]; rw [ih, ih (0 + a)]; ring

theorem foldl_mul (l : List ℂ) (s : ℂ) : l.foldl (· * ·) s = s * l.foldl (· * ·) 1 := by
  induction l generalizing s with
  | nil => simp
  | cons a l ih => simp only [List.foldl_cons]; rw [ih, ih (1 * a)]; ring

theorem creates_append (l m : List PFn) : creates (l ++ m) = creates l ++ creates m := by
  induction l with
  | nil => simp [creates]
  | cons a l ih => simp [creates, ih]

theorem evalQs_append (env : Nat → ℂ) (l m : List QFn) :
    evalQs env (l ++ m) = (evalQs env l).bind fun x => (evalQs env m).map (x ++ ·) := by
  induction l with
  | nil => cases h : evalQs env m <;> simp [evalQs, h]
  | cons a l ih =>
      simp only [List.cons_append, evalQs, ih]
      cases evalQ env a <;> cases evalQs env l <;> cases evalQs env m <;> simp

/-- Value of a list of summands. -/
theorem sum_append (env : Nat → ℂ) (l m : List PFn) :
    evalQ env (create (.sum (l ++ m))) =
      (evalQ env (create (.sum l))).bind fun x => (evalQ env (create (.sum m))).map fun y => x + y := by
  simp only [create, evalQ, creates_append, evalQs_append]
  cases evalQs env (creates l) <;> cases evalQs env (creates m) <;> simp
  rename_i a b
  exact foldl_add b _

theorem prod_append (env : Nat → ℂ) (l m : List PFn) :
    evalQ env (create (.prod (l ++ m))) =
      (evalQ env (create (.prod l))).bind fun x => (evalQ env (create (.prod m))).map fun y => x * y := by
  simp only [create, evalQ, creates_append, evalQs_append]
  cases evalQs env (creates l) <;> cases evalQs env (creates m) <;> simp
  rename_i a b
  exact foldl_mul b _

theorem sum_single (env : Nat → ℂ) (f : PFn) : evalQ env (create (.sum [f])) = evalQ env (create f) := by
  simp only [create, evalQ, creates, evalQs]
  cases evalQ env (create f) <;> simp

theorem prod_single (env : Nat → ℂ) (f : PFn) : evalQ env (create (.prod [f])) = evalQ env (create f) := by
  simp only [create, evalQ, creates, evalQs]
  cases evalQ env (create f) <;> simp

theorem const_eval (env : Nat → ℂ) (c : ℂ) : evalQ env (create (.const c)) = some c := by
  simp only [create, evalQ]
  congr 1
  rw [mul_comm]
  exact Complex.re_add_im c

theorem toFn_eval (env : Nat → ℂ) (o : POp) : evalQ env (create o.toFn) = oval env o := by
  cases o <;> simp [POp.toFn, oval, const_eval]

theorem comm_add (a b : Option ℂ) :
    (a.bind fun x => b.map fun y => x + y) = b.bind fun x => a.map fun y => x + y := by
  cases a <;> cases b <;> simp [add_comm]

theorem comm_mul (a b : Option ℂ) :
    (a.bind fun x => b.map fun y => x * y) = b.bind fun x => a.map fun y => x * y := by
  cases a <;> cases b <;> simp [mul_comm]

/-- A node plus an operand has the sum of the values. -/
theorem pAdd_eval (env : Nat → ℂ) (f : PFn) (o : POp) :
    evalQ env (create (pAdd f o)) = (evalQ env (create f)).bind fun x => (oval env o).map fun y => x + y := by
  have two : ∀ f g : PFn, evalQ env (create (.sum [f, g])) =
      (evalQ env (create f)).bind fun x => (evalQ env (create g)).map fun y => x + y := by
    intro f g
    have := sum_append env [f] [g]
    rwa [sum_single, sum_single] at this
  unfold pAdd
  split
  · exact sum_append env _ _
  · rw [sum_append, sum_single]; rfl
  · rw [sum_append, sum_single, toFn_eval]
  · rw [sum_append, sum_single, comm_add]; rfl
  · exact two _ _
  · rw [two, toFn_eval]

theorem pMul_eval (env : Nat → ℂ) (f : PFn) (o : POp) :
    evalQ env (create (pMul f o)) = (evalQ env (create f)).bind fun x => (oval env o).map fun y => x * y := by
  have two : ∀ f g : PFn, evalQ env (create (.prod [f, g])) =
      (evalQ env (create f)).bind fun x => (evalQ env (create g)).map fun y => x * y := by
    intro f g
    have := prod_append env [f] [g]
    rwa [prod_single, prod_single] at this
  unfold pMul
  split
  · exact prod_append env _ _
  · rw [prod_append, prod_single]; rfl
  · rw [prod_append, prod_single, toFn_eval]
  · rw [prod_append, prod_single, comm_mul]; rfl
  · exact two _ _
  · rw [two, toFn_eval]

theorem pNeg_eval (env : Nat → ℂ) (f : PFn) :
    evalQ env (create (pNeg f)) = (evalQ env (create f)).map fun x => -x := by
  rw [pNeg, pMul_eval]
  cases evalQ env (create f) <;> simp [oval]

theorem oNeg_eval (env : Nat → ℂ) (o o' : POp) (h : oNeg o = some o') :
    oval env o' = (oval env o).map fun x => -x := by
  cases o <;> simp only [oNeg, Option.some.injEq, reduceCtorEq] at h <;> subst h <;>
    simp [oval, pNeg_eval]

theorem pSub_eval (env : Nat → ℂ) (f g : PFn) (o : POp) (h : pSub f o = some g) :
    evalQ env (create g) = (evalQ env (create f)).bind fun x => (oval env o).map fun y => x - y := by
  simp only [pSub, Option.map_eq_some_iff] at h
  obtain ⟨o', ho, rfl⟩ := h
  rw [pAdd_eval, oNeg_eval env o o' ho]
  cases evalQ env (create f) <;> cases oval env o <;> simp [sub_eq_add_neg]

theorem pRsub_eval (env : Nat → ℂ) (f : PFn) (o : POp) :
    evalQ env (create (pRsub f o)) = (oval env o).bind fun x => (evalQ env (create f)).map fun y => x - y := by
  rw [pRsub, pAdd_eval, pNeg_eval]
  cases evalQ env (create f) <;> cases oval env o <;> simp
  ring

theorem pPow_eval (env : Nat → ℂ) (f g : PFn) (o : POp) (h : pPow f o = some g) :
    evalQ env (create g) = (evalQ env (create f)).bind fun x => (oval env o).bind fun y => cplxPow x y := by
  unfold pPow at h
  split at h
  · rename_i p
    obtain rfl := Option.some.inj h
    simp only [create, evalQ, oval, Option.bind_some]
  · rename_i c
    split at h
    · exact absurd h (by simp)
    · rename_i hc
      obtain rfl := Option.some.inj h
      rw [oval, const_eval]
      simp only [create, evalQ, Option.bind_some]
      have : ((c.re : ℝ) : ℂ) = c := Complex.ext (by simp) (by simpa using (not_not.mp hc).symm)
      rw [this]
  · exact absurd h (by simp)

theorem cplxPow_inv (z : ℂ) : cplxPow z ((-1 : ℝ) : ℂ) = if z = 0 then none else some z⁻¹ := by
  unfold cplxPow
  by_cases hz : z = 0
  · simp [hz]
  · rw [if_neg (by simp [hz]), if_neg hz]
    congr 1
    push_cast
    exact Complex.cpow_neg_one z

theorem oInv_eval (env : Nat → ℂ) (o o' : POp) (h : oInv o = some o') :
    oval env o' = (oval env o).bind fun x => if x = 0 then none else some x⁻¹ := by
  cases o with
  | fn f =>
      simp only [oInv, pPow, Option.map_some, Option.some.injEq] at h
      subst h
      simp only [oval, create, evalQ]
      congr 1
      funext v
      exact cplxPow_inv v
  | real x =>
      by_cases hx : x = 0
      · simp [oInv, hx] at h
      · simp only [oInv, hx, if_false, Option.some.injEq] at h
        subst h
        simp [oval, hx]
  | cplx z =>
      by_cases hx : z = 0
      · simp [oInv, hx] at h
      · simp only [oInv, hx, if_false, Option.some.injEq] at h
        subst h
        simp [oval, hx]
  | cobj z => simp [oInv] at h

theorem pDiv_eval (env : Nat → ℂ) (f g : PFn) (o : POp) (h : pDiv f o = some g) :
    evalQ env (create g) = (evalQ env (create f)).bind fun x => (oval env o).bind fun y =>
      if y = 0 then none else some (x / y) := by
  simp only [pDiv, Option.map_eq_some_iff] at h
  obtain ⟨o', ho, rfl⟩ := h
  rw [pMul_eval, oInv_eval env o o' ho]
  cases evalQ env (create f) with
  | none => rfl
  | some a =>
      cases oval env o with
      | none => rfl
      | some b =>
          by_cases hb : b = 0 <;> simp [hb, div_eq_mul_inv]

/-- The comparison node has the wanted penalty on real numbers. -/
theorem cmpVal_eq (v w e : ℝ) (x : ℂ) (hx : x.im = 0) (hw : 0 ≤ w) (he : 0 < e) :
    cmpVal (v + -0.5 * w) (v + 0.5 * w) e x = excess v w x.re ^ e := by
  have hxr : x = ((x.re : ℝ) : ℂ) := Complex.ext (by simp) (by simpa using hx)
  generalize x.re = r at hxr
  subst hxr
  simp only [cmpVal, npLt, Complex.ofReal_re, Complex.ofReal_im, lt_irrefl, and_false, or_false, excess]
  rw [← Complex.ofReal_sub, ← Complex.ofReal_sub, Complex.norm_real, Complex.norm_real, Real.norm_eq_abs,
    Real.norm_eq_abs]
  by_cases h1 : r < v + -0.5 * w
  · have h2 : ¬ (v + 0.5 * w < r) := by intro h; norm_num at h1 h; linarith
    simp only [h1, h2, if_true, if_false]
    rw [abs_of_pos (by linarith : 0 < v + -0.5 * w - r), abs_of_neg (by norm_num at h1; linarith : r - v < 0),
      max_eq_left (by norm_num at h1; linarith)]
    rw [show -(r - v) - w / 2 = v + -0.5 * w - r by ring]
    ring
  · by_cases h2 : v + 0.5 * w < r
    · simp only [h1, h2, if_true, if_false]
      rw [abs_of_pos (by linarith : 0 < r - (v + 0.5 * w)), abs_of_pos (by norm_num at h2; linarith : 0 < r - v),
        max_eq_left (by norm_num at h2; linarith)]
      rw [show r - v - w / 2 = r - (v + 0.5 * w) by ring]
      ring
    · simp only [h1, h2, if_false]
      have : |r - v| ≤ w / 2 := by
        rw [abs_le]; norm_num at h1 h2; constructor <;> linarith
      rw [max_eq_right (by linarith), Real.zero_rpow he.ne']
      ring

/-! ### Native arithmetic -/

theorem native_eval (env : Nat → ℂ) (r : ℝ → ℝ → ℝ) (c : ℂ → ℂ → ℂ) (hrc : ∀ x y : ℝ, ((r x y : ℝ) : ℂ) = c x y)
    (a b o : POp) (h : native r c a b = some o) :
    oval env o = (oval env a).bind fun x => (oval env b).map fun y => c x y := by
  cases a <;> cases b <;> simp only [native, POp.num, Option.bind_none, Option.bind_some, Option.map_none,
    Option.map_some, Option.some.injEq, reduceCtorEq] at h <;> subst h <;> simp [oval, hrc]

theorem nativeDiv_eval (env : Nat → ℂ) (a b o : POp) (h : nativeDiv a b = some o) :
    oval env o = (oval env a).bind fun x => (oval env b).bind fun y => if y = 0 then none else some (x / y) := by
  unfold nativeDiv at h
  split at h
  · exact absurd h (by simp)
  · rename_i hb
    rw [native_eval env (· / ·) (· / ·) (by intro x y; push_cast; rfl) a b o h]
    congr 1
    funext x
    cases b with
    | fn f => cases a <;> simp [native, POp.num] at h
    | real y =>
        have : (y : ℂ) ≠ 0 := by intro e; exact hb (by simp [POp.num, e])
        simp [oval, this]
    | cplx y =>
        have : y ≠ 0 := by intro e; exact hb (by simp [POp.num, e])
        simp [oval, this]
    | cobj y => cases a <;> simp [native, POp.num] at h

theorem realPow_eval (env : Nat → ℂ) (x p : ℝ) (o : POp) (h : realPow x p = some o) :
    oval env o = cplxPow x p := by
  unfold realPow at h
  split at h
  · exact absurd h (by simp)
  · rename_i h0
    have hc : cplxPow (x : ℂ) (p : ℂ) = some ((x : ℂ) ^ (p : ℂ)) := by
      unfold cplxPow
      rw [if_neg]
      rintro ⟨hz, hp⟩
      refine h0 ⟨by simpa using hz, by simpa using hp⟩
    rw [hc]
    split at h
    · obtain rfl := Option.some.inj h
      rfl
    · rename_i h1
      obtain rfl := Option.some.inj h
      simp only [oval]
      congr 1
      by_cases hx : 0 ≤ x
      · exact Complex.ofReal_cpow hx p
      · have : ∃ n : ℤ, p = n := by
          by_contra hn; exact h1 ⟨lt_of_not_ge hx, hn⟩
        obtain ⟨n, rfl⟩ := this
        rw [Real.rpow_intCast]
        push_cast
        exact (Complex.cpow_intCast _ _).symm

theorem nativePow_eval (env : Nat → ℂ) (a b o : POp) (h : nativePow a b = some o) :
    oval env o = (oval env a).bind fun x => (oval env b).bind fun y => cplxPow x y := by
  cases a <;> cases b <;> simp only [nativePow, POp.num, Option.bind_none, Option.bind_some, Option.map_eq_some_iff,
    reduceCtorEq] at h
  · exact realPow_eval env _ _ _ h
  all_goals
    obtain ⟨w, hw, rfl⟩ := h
    simp [oval, hw]

/-- Dispatch gives the value of the operation if each of its three branches does. -/
theorem dispatch_eval (env : Nat → ℂ) (m r : PFn → POp → Option PFn) (nat : POp → POp → Option POp)
    (k : ℂ → ℂ → Option ℂ)
    (hm : ∀ f o g, m f o = some g → evalQ env (create g) =
      (evalQ env (create f)).bind fun x => (oval env o).bind fun y => k x y)
    (hr : ∀ f o g, r f o = some g → evalQ env (create g) =
      (oval env o).bind fun x => (evalQ env (create f)).bind fun y => k x y)
    (hn : ∀ a b o, nat a b = some o → oval env o = (oval env a).bind fun x => (oval env b).bind fun y => k x y)
    (a b o : POp) (h : dispatch m r nat a b = some o) :
    oval env o = (oval env a).bind fun x => (oval env b).bind fun y => k x y := by
  unfold dispatch at h
  split at h
  · obtain ⟨g, hg, rfl⟩ := Option.map_eq_some_iff.mp h
    exact hm _ _ _ hg
  · obtain ⟨g, hg, rfl⟩ := Option.map_eq_some_iff.mp h
    exact hr _ _ _ hg
  · exact hn _ _ _ h

theorem map_bind (a b : Option ℂ) (c : ℂ → ℂ → ℂ) :
    (a.bind fun x => b.map fun y => c x y) = a.bind fun x => b.bind fun y => some (c x y) := by
  cases a <;> cases b <;> rfl

/-- The value of what is built is the arithmetic value. -/
theorem build_eval (env : Nat → ℂ) (e : PEx) :
    ∀ o v, build e = some o → e.value env = some v → oval env o = some v := by
  induction e with
  | leaf i => intro o v h hv; simp only [build, Option.some.injEq] at h; subst h
              simpa [oval, create, evalQ, PEx.value] using hv
  | real x => intro o v h hv; simp only [build, Option.some.injEq] at h; subst h; exact hv
  | cplx x => intro o v h hv; simp only [build, Option.some.injEq] at h; subst h; exact hv
  | cobj x => intro o v h hv; simp only [build, Option.some.injEq] at h; subst h; exact hv
  | constant x =>
      intro o v h hv; simp only [build, Option.some.injEq] at h; subst h
      simp only [oval, const_eval]; exact hv
  | add a b iha ihb =>
      intro o v h hv
      simp only [build, Option.bind_eq_some_iff] at h
      obtain ⟨x, hx, y, hy, h⟩ := h
      simp only [PEx.value, Option.bind_eq_some_iff, Option.map_eq_some_iff] at hv
      obtain ⟨u, hu, w, hw, rfl⟩ := hv
      rw [dispatch_eval env _ _ _ (fun x y => some (x + y)) ?_ ?_ ?_ x y o h, iha x u hx hu, ihb y w hy hw]
      · rfl
      · intro f o g hg; obtain rfl := Option.some.inj hg; rw [pAdd_eval, map_bind]
      · intro f o g hg; obtain rfl := Option.some.inj hg; rw [pAdd_eval, comm_add, map_bind]
      · intro a b o hg; rw [native_eval env _ _ (by intro x y; push_cast; rfl) a b o hg, map_bind]
  | mul a b iha ihb =>
      intro o v h hv
      simp only [build, Option.bind_eq_some_iff] at h
      obtain ⟨x, hx, y, hy, h⟩ := h
      simp only [PEx.value, Option.bind_eq_some_iff, Option.map_eq_some_iff] at hv
      obtain ⟨u, hu, w, hw, rfl⟩ := hv
      rw [dispatch_eval env _ _ _ (fun x y => some (x * y)) ?_ ?_ ?_ x y o h, iha x u hx hu, ihb y w hy hw]
      · rfl
      · intro f o g hg; obtain rfl := Option.some.inj hg; rw [pMul_eval, map_bind]
      · intro f o g hg; obtain rfl := Option.some.inj hg; rw [pMul_eval, comm_mul, map_bind]
      · intro a b o hg; rw [native_eval env _ _ (by intro x y; push_cast; rfl) a b o hg, map_bind]
  | sub a b iha ihb =>
      intro o v h hv
      simp only [build, Option.bind_eq_some_iff] at h
      obtain ⟨x, hx, y, hy, h⟩ := h
      simp only [PEx.value, Option.bind_eq_some_iff, Option.map_eq_some_iff] at hv
      obtain ⟨u, hu, w, hw, rfl⟩ := hv
      rw [dispatch_eval env _ _ _ (fun x y => some (x - y)) ?_ ?_ ?_ x y o h, iha x u hx hu, ihb y w hy hw]
      · rfl
      · intro f o g hg; rw [pSub_eval env f g o hg, map_bind]
      · intro f o g hg; obtain rfl := Option.some.inj hg; rw [pRsub_eval, map_bind]
      · intro a b o hg; rw [native_eval env _ _ (by intro x y; push_cast; rfl) a b o hg, map_bind]
  | div a b iha ihb =>
      intro o v h hv
      simp only [build, Option.bind_eq_some_iff] at h
      obtain ⟨x, hx, y, hy, h⟩ := h
      simp only [PEx.value, Option.bind_eq_some_iff] at hv
      obtain ⟨u, hu, w, hw, hv⟩ := hv
      rw [dispatch_eval env _ _ _ (fun x y => if y = 0 then none else some (x / y)) ?_ ?_ ?_ x y o h,
        iha x u hx hu, ihb y w hy hw]
      · simp only [Option.bind_some]
        split at hv
        · exact absurd hv (by simp)
        · rename_i hz; rw [if_neg hz]; exact hv
      · intro f o g hg; rw [pDiv_eval env f g o hg]
      · intro f o g hg; exact absurd hg (by simp)
      · intro a b o hg; rw [nativeDiv_eval env a b o hg]
  | pow a b iha ihb =>
      intro o v h hv
      simp only [build, Option.bind_eq_some_iff] at h
      obtain ⟨x, hx, y, hy, h⟩ := h
      simp only [PEx.value, Option.bind_eq_some_iff] at hv
      obtain ⟨u, hu, w, hw, hv⟩ := hv
      rw [dispatch_eval env _ _ _ cplxPow ?_ ?_ ?_ x y o h, iha x u hx hu, ihb y w hy hw]
      · simp only [Option.bind_some, cplxPow]
        split at hv
        · exact absurd hv (by simp)
        · rename_i hz; rw [if_neg hz]; exact hv
      · intro f o g hg; rw [pPow_eval env f g o hg]
      · intro f o g hg; exact absurd hg (by simp)
      · intro a b o hg; rw [nativePow_eval env a b o hg]
  | neg a iha =>
      intro o v h hv
      simp only [build, Option.bind_eq_some_iff] at h
      obtain ⟨x, hx, h⟩ := h
      simp only [PEx.value, Option.map_eq_some_iff] at hv
      obtain ⟨u, hu, rfl⟩ := hv
      rw [oNeg_eval env x o h, iha x u hx hu]
      rfl
  | abs a iha =>
      intro o v h hv
      simp only [build, Option.bind_eq_some_iff] at h
      obtain ⟨x, hx, h⟩ := h
      simp only [PEx.value, Option.map_eq_some_iff] at hv
      obtain ⟨u, hu, rfl⟩ := hv
      have := iha x u hx hu
      cases x with
      | fn f =>
          simp only [onFn, Option.some.injEq] at h
          subst h
          simp only [oval] at this
          simp [oval, create, evalQ, this]
      | real => simp [onFn] at h
      | cplx => simp [onFn] at h
      | cobj => simp [onFn] at h
  | comp a v0 w0 e0 iha =>
      intro o v h hv
      simp only [build, Option.bind_eq_some_iff] at h
      obtain ⟨x, hx, h⟩ := h
      simp only [PEx.value, Option.bind_eq_some_iff] at hv
      obtain ⟨u, hu, hv⟩ := hv
      have := iha x u hx hu
      split at hv
      · rename_i hc
        obtain rfl := Option.some.inj hv
        cases x with
        | fn f =>
            simp only [onFn, Option.some.injEq] at h
            subst h
            simp only [oval] at this
            simp only [oval, create, evalQ, this, Option.map_some]
            rw [cmpVal_eq v0 w0 e0 u hc.1 hc.2.1 hc.2.2]
        | real => simp [onFn] at h
        | cplx => simp [onFn] at h
        | cobj => simp [onFn] at h
      · exact absurd hv (by simp)

/-- Dispatch succeeds on operands that are no `ComplexNumber` if the methods do. -/
theorem dispatch_builds (m r : PFn → POp → Option PFn) (k : ℝ → ℝ → ℝ) (c : ℂ → ℂ → ℂ) (a b : POp)
    (ha : ∀ z, a ≠ .cobj z) (hb : ∀ z, b ≠ .cobj z) (hm : ∀ f, (m f b).isSome) (hr : ∀ f, (r f a).isSome) :
    ∃ o, dispatch m r (native k c) a b = some o ∧ (∀ z, o ≠ .cobj z) ∧
      ((∃ f, o = .fn f) ↔ (∃ f, a = .fn f) ∨ ∃ f, b = .fn f) := by
  cases a with
  | fn f =>
      obtain ⟨g, hg⟩ := Option.isSome_iff_exists.mp (hm f)
      exact ⟨.fn g, by simp [dispatch, hg], by simp, by simp⟩
  | cobj z => exact absurd rfl (ha z)
  | real x =>
      cases b with
      | fn f =>
          obtain ⟨g, hg⟩ := Option.isSome_iff_exists.mp (hr f)
          exact ⟨.fn g, by simp [dispatch, hg], by simp, by simp⟩
      | cobj z => exact absurd rfl (hb z)
      | real y => exact ⟨_, rfl, by simp, by simp⟩
      | cplx y => exact ⟨_, rfl, by simp, by simp⟩
  | cplx x =>
      cases b with
      | fn f =>
          obtain ⟨g, hg⟩ := Option.isSome_iff_exists.mp (hr f)
          exact ⟨.fn g, by simp [dispatch, hg], by simp, by simp⟩
      | cobj z => exact absurd rfl (hb z)
      | real y => exact ⟨_, rfl, by simp, by simp⟩
      | cplx y => exact ⟨_, rfl, by simp, by simp⟩

/-! ### C93 -/

/-- **C93 (value).** Whatever expression a user writes with the operators and helpers of plans, if Python builds a node for
it then the value of that node in the created problem is the arithmetic value of the expression, for all values of the
functions in it for which the expression has one. -/
theorem plan_expr_value (e : PEx) (f : PFn) (env : Nat → ℂ) (v : ℂ) (hb : build e = some (.fn f))
    (hv : e.value env = some v) : evalQ env (create f) = some v :=
  build_eval env e _ v hb hv

/-- The hypotheses are met by `(f - 2) / g` for instance. -/
example : ∃ f v, build (.div (.sub (.leaf 0) (.real 2)) (.leaf 1)) = some (.fn f) ∧
    PEx.value (fun i => i + 1) (.div (.sub (.leaf 0) (.real 2)) (.leaf 1)) = some v ∧ v = -1 / 2 := by
  refine ⟨_, _, rfl, ?_, rfl⟩
  simp only [PEx.value, Option.bind_some, Option.map_some]
  rw [if_neg (by norm_num)]
  norm_num

/-- **C93 (what is accepted).** Every expression that is offered builds, and it builds a node exactly if a function occurs
in it. -/
theorem plan_expr_builds (e : PEx) (h : e.Offered) :
    ∃ o, build e = some o ∧ (∀ z, o ≠ .cobj z) ∧ (e.hasFn = true ↔ ∃ f, o = .fn f) := by
  induction e with
  | leaf i => exact ⟨_, rfl, by simp, by simp [PEx.hasFn]⟩
  | constant i => exact ⟨_, rfl, by simp, by simp [PEx.hasFn]⟩
  | real i => exact ⟨_, rfl, by simp, by simp [PEx.hasFn]⟩
  | cplx i => exact ⟨_, rfl, by simp, by simp [PEx.hasFn]⟩
  | cobj i => exact h.elim
  | neg a ih =>
      obtain ⟨o, ho, hc, hf⟩ := ih h
      cases o with
      | cobj z => exact absurd rfl (hc z)
      | _ => simp_all [build, oNeg, PEx.hasFn]
  | abs a ih =>
      obtain ⟨o, ho, hc, hf⟩ := ih h.1
      obtain ⟨f, rfl⟩ := hf.mp h.2
      simp_all [build, onFn, PEx.hasFn]
  | comp a v w p ih =>
      obtain ⟨o, ho, hc, hf⟩ := ih h.1
      obtain ⟨f, rfl⟩ := hf.mp h.2
      simp_all [build, onFn, PEx.hasFn]
  | add a b iha ihb =>
      obtain ⟨o, ho, hc, hf⟩ := iha h.1
      rcases h.2 with hb | ⟨ha, z, rfl⟩
      · obtain ⟨o', ho', hc', hf'⟩ := ihb hb
        obtain ⟨r, hr, hrc, hrf⟩ := dispatch_builds (fun f o => some (pAdd f o)) (fun f o => some (pAdd f o)) (· + ·)
          (· + ·) o o' hc hc' (by simp) (by simp)
        refine ⟨r, by simp only [build, ho, ho', Option.bind_some]; exact hr, hrc, ?_⟩
        rw [hrf, PEx.hasFn, Bool.or_eq_true, hf, hf']
      · obtain ⟨f, rfl⟩ := hf.mp ha
        simp_all [build, dispatch, PEx.hasFn]
  | mul a b iha ihb =>
      obtain ⟨o, ho, hc, hf⟩ := iha h.1
      rcases h.2 with hb | ⟨ha, z, rfl⟩
      · obtain ⟨o', ho', hc', hf'⟩ := ihb hb
        obtain ⟨r, hr, hrc, hrf⟩ := dispatch_builds (fun f o => some (pMul f o)) (fun f o => some (pMul f o)) (· * ·)
          (· * ·) o o' hc hc' (by simp) (by simp)
        refine ⟨r, by simp only [build, ho, ho', Option.bind_some]; exact hr, hrc, ?_⟩
        rw [hrf, PEx.hasFn, Bool.or_eq_true, hf, hf']
      · obtain ⟨f, rfl⟩ := hf.mp ha
        simp_all [build, dispatch, PEx.hasFn]
  | sub a b iha ihb =>
      obtain ⟨o, ho, hc, hf⟩ := iha h.1
      obtain ⟨o', ho', hc', hf'⟩ := ihb h.2
      obtain ⟨r, hr, hrc, hrf⟩ := dispatch_builds pSub (fun f o => some (pRsub f o)) (· - ·) (· - ·) o o' hc hc'
        (by intro f; cases o' with
            | cobj z => exact absurd rfl (hc' z)
            | _ => simp [pSub, oNeg]) (by simp)
      refine ⟨r, by simp only [build, ho, ho', Option.bind_some]; exact hr, hrc, ?_⟩
      rw [hrf, PEx.hasFn, Bool.or_eq_true, hf, hf']
  | div a b iha ihb =>
      obtain ⟨o, ho, hc, hf⟩ := iha h.1
      obtain ⟨f, rfl⟩ := hf.mp h.2.1
      rcases h.2.2 with ⟨hb, hbf⟩ | ⟨y, hy, rfl⟩ | ⟨z, hz, rfl⟩
      · obtain ⟨o', ho', hc', hf'⟩ := ihb hb
        obtain ⟨g, rfl⟩ := hf'.mp hbf
        simp_all [build, dispatch, PEx.hasFn, pDiv, oInv, pPow]
      · simp_all [build, dispatch, PEx.hasFn, pDiv, oInv]
      · simp_all [build, dispatch, PEx.hasFn, pDiv, oInv]
  | pow a b iha ihb =>
      obtain ⟨o, ho, hc, hf⟩ := iha h.1
      obtain ⟨f, rfl⟩ := hf.mp h.2.1
      rcases h.2.2 with ⟨p, rfl⟩ | ⟨p, rfl⟩
      · simp_all [build, dispatch, PEx.hasFn, pPow]
      · simp_all [build, dispatch, PEx.hasFn, pPow]

/-- `-(3 * f + ComplexNumber) ** 0.5 / 2 - 1` is offered. -/
example (z : ℂ) : (PEx.sub (.div (.neg (.pow (.add (.mul (.real 3) (.leaf 0)) (.cobj z)) (.real 0.5))) (.real 2))
    (.real 1)).Offered := by
  simp [PEx.Offered, PEx.hasFn]

/-- **C93 (penalty).** `PowerComp` of a function with a real value is zero exactly when the value lies in the interval of
width `range` around `value`, and otherwise it is the distance from that interval raised to `exp`. -/
theorem plan_comp_value (f : PFn) (env : Nat → ℂ) (v w p x : ℝ) (hx : evalQ env (create f) = some (x : ℂ)) (hw : 0 ≤ w)
    (hp : 0 < p) :
    ∃ r : ℝ, evalQ env (create (.comp f v w p)) = some (r : ℂ) ∧ 0 ≤ r ∧ (r = 0 ↔ x ∈ Set.Icc (v - w / 2) (v + w / 2)) ∧
      (x < v - w / 2 → r = (v - w / 2 - x) ^ p) ∧ (v + w / 2 < x → r = (x - (v + w / 2)) ^ p) := by
  have h0 : 0 ≤ excess v w x := le_max_right _ _
  refine ⟨excess v w x ^ p, ?_, Real.rpow_nonneg h0 p, ?_, ?_, ?_⟩
  · simp only [create, evalQ, hx, Option.map_some]
    rw [cmpVal_eq v w p x (by simp) hw hp]
    rfl
  · rw [Real.rpow_eq_zero h0 hp.ne', excess, Set.mem_Icc]
    constructor
    · intro h
      have := max_eq_right_iff.mp h
      have h2 := abs_le.mp (by linarith : |x - v| ≤ w / 2)
      constructor <;> linarith [h2.1, h2.2]
    · rintro ⟨h1, h2⟩
      refine max_eq_right ?_
      have : |x - v| ≤ w / 2 := abs_le.mpr ⟨by linarith, by linarith⟩
      linarith
  · intro h
    rw [excess, abs_of_neg (by linarith), max_eq_left (by linarith)]
    congr 1; ring
  · intro h
    rw [excess, abs_of_pos (by linarith), max_eq_left (by linarith)]
    congr 1; ring

/-- A leaf with the value 3 compared with the interval around 1 of width 2 has the penalty 1. -/
example : ∃ r : ℝ, evalQ (fun _ => ((3 : ℝ) : ℂ)) (create (.comp (.leaf 0) 1 2 2)) = some (r : ℂ) ∧ r = 1 := by
  obtain ⟨r, h, -, -, -, h2⟩ := plan_comp_value (.leaf 0) (fun _ => ((3 : ℝ) : ℂ)) 1 2 2 3 rfl (by norm_num) (by norm_num)
  exact ⟨r, h, by rw [h2 (by norm_num)]; norm_num⟩

/-- **C93 (defect).** A number divided by a function builds nothing although it has a value whenever the function is not
zero: the reflected division carries the name of Python 2. -/
theorem plan_number_over_function_false (x : ℝ) (i : Nat) :
    build (.div (.real x) (.leaf i)) = none ∧
      ∀ env : Nat → ℂ, env i ≠ 0 → PEx.value env (.div (.real x) (.leaf i)) = some (x / env i) := by
  refine ⟨by simp [build, dispatch], fun env h => by simp [PEx.value, h]⟩

/-- **C93 (defect).** A `ComplexNumber` may be added to a function and multiplied with it, but not subtracted from it, nor
may the function be divided by it, although subtracting the function from it works. -/
theorem plan_complex_number_sub_false (z : ℂ) (i : Nat) :
    (build (.add (.leaf i) (.cobj z))).isSome ∧ (build (.sub (.cobj z) (.leaf i))).isSome ∧
      build (.sub (.leaf i) (.cobj z)) = none ∧ build (.div (.leaf i) (.cobj z)) = none := by
  simp [build, dispatch, pSub, pDiv, oNeg, oInv]

/-- **C93 (refused).** Complex powers, powers that are functions, and numbers to the power of a function are refused. -/
theorem plan_pow_refused (i j : Nat) (z : ℂ) (x : ℝ) (hz : z.im ≠ 0) :
    build (.pow (.leaf i) (.cplx z)) = none ∧ build (.pow (.leaf i) (.constant z)) = none ∧
      build (.pow (.leaf i) (.leaf j)) = none ∧ build (.pow (.real x) (.leaf j)) = none := by
  simp [build, dispatch, pPow, hz]

example : (Complex.I).im ≠ 0 := by simp

end Verif.Obj.Plan
