import Verif.Opt.DescentProps
/-
Property C59: sizes of the steps of the adaptive optimizers.
-/
namespace Verif.Opt
variable {P S : Type}

/-- Every state of a run is related to the next, if each iteration relates them. -/
theorem run_chain (iterate : Nat → S → Out S) (I : S → Prop) (R : S → S → Prop)
    (hstep : ∀ n s s' b, I s → iterate n s = .done s' b → I s' ∧ R s s')
    (fuel n : Nat) (iters maxIters : Option Int) (s s' : S) (n' : Nat) (tr : List S) (stop : Bool) (hs : I s)
    (h : optimize iterate fuel iters maxIters n s = .done (s', n', tr) stop) :
    List.IsChain R (s :: tr) ∧ ∀ x ∈ s :: tr, I x := by
  have key : ∀ (fuel n : Nat) (x : S) (tr0 : List S) (st : Option Int), I x →
      optLoop iterate st fuel n x tr0 = .done (s', n', tr) stop →
      ∃ tr1, tr = tr0 ++ tr1 ∧ List.IsChain R (x :: tr1) ∧ ∀ y ∈ x :: tr1, I y := by
    intro fuel
    induction fuel with
    | zero => intro n x tr0 st _ h; cases h
    | succ f ih =>
      intro n x tr0 st hx h
      unfold optLoop at h
      split at h
      · cases h
      · cases h
      · rename_i s1 b hit
        obtain ⟨h1, h2⟩ := hstep _ _ _ _ hx hit
        have one : List.IsChain R [x, s1] ∧ ∀ y ∈ [x, s1], I y := by
          refine ⟨List.IsChain.cons_cons h2 (List.IsChain.singleton _), ?_⟩
          intro y hy
          simp only [List.mem_cons, List.not_mem_nil, or_false] at hy
          rcases hy with rfl | rfl
          · exact hx
          · exact h1
        simp only at h
        split at h
        · cases h; exact ⟨[s'], rfl, one⟩
        · split at h
          · cases h; exact ⟨[s'], rfl, one⟩
          · obtain ⟨tr1, ht, hc, hi⟩ := ih _ _ _ _ h1 h
            refine ⟨s1 :: tr1, by rw [ht]; simp, List.IsChain.cons_cons h2 hc, ?_⟩
            intro y hy
            rcases List.mem_cons.1 hy with rfl | hy
            · exact hx
            · exact hi y hy
  obtain ⟨tr1, ht, hc⟩ := key fuel n s [] _ hs h
  rw [List.nil_append] at ht
  rw [ht]; exact hc

theorem vzip_some {f : ℝ → ℝ → ℝ} {a b r : List ℝ} (h : vzip f a b = some r) :
    a.length = b.length ∧ r = List.zipWith f a b := by
  unfold vzip at h
  split at h
  · cases h; exact ⟨by assumption, rfl⟩
  · cases h

theorem zipWith_get {α β γ : Type} {f : α → β → γ} {a : List α} {b : List β} {i : Nat} {z : γ}
    (h : (List.zipWith f a b)[i]? = some z) : ∃ x y, a[i]? = some x ∧ b[i]? = some y ∧ z = f x y := by
  rw [List.getElem?_zipWith] at h
  cases ha : a[i]? with
  | none => rw [ha] at h; cases h
  | some x =>
    cases hb : b[i]? with
    | none => rw [ha, hb] at h; cases h
    | some y =>
      rw [ha, hb] at h
      exact ⟨x, y, rfl, rfl, by injection h with h; exact h.symm⟩

theorem clip1_nonexpansive (x y : ℝ) (lo hi : Option ℝ) : |clip1 x lo hi - clip1 y lo hi| ≤ |x - y| := by
  have hmax : ∀ a b l : ℝ, |max a l - max b l| ≤ |a - b| := fun a b l => abs_max_sub_max_le_abs a b l
  have hmin : ∀ a b h : ℝ, |min a h - min b h| ≤ |a - b| := by
    intro a b h
    have := abs_max_sub_max_le_abs (-a) (-b) (-h)
    rw [max_neg_neg, max_neg_neg] at this
    rw [show |min a h - min b h| = |-min a h - -min b h| by rw [← abs_neg]; congr 1; ring,
      show |a - b| = |-a - -b| by rw [← abs_neg]; congr 1; ring]
    exact this
  cases lo with
  | none =>
    cases hi with
    | none => exact le_refl _
    | some h => exact hmin x y h
  | some l =>
    cases hi with
    | none => exact hmax x y l
    | some h => exact (hmin _ _ h).trans (hmax x y l)

/-- A step of a `DirectParam` within its bounds changes each entry by at most the step. -/
theorem direct_step {obj : Direct → Option ℝ} {grad : Direct → Option (List ℝ)} {p p' : Direct} {st : List ℝ}
    (hw : Within p.vector p.lower p.upper) (hc : Consistent p.lower p.upper)
    (h : takeStep ⟨directMethods, obj, grad⟩ p st = some p') :
    p'.lower = p.lower ∧ p'.upper = p.upper ∧ Within p'.vector p'.lower p'.upper ∧
    p'.vector.length = p.vector.length ∧ st.length = p.vector.length ∧
    ∀ (i : Nat) (x y d : ℝ), p.vector[i]? = some x → p'.vector[i]? = some y → st[i]? = some d → |y - x| ≤ |d| := by
  unfold takeStep at h
  replace h : ((vzip (fun x y => x - y) p.vector st).bind fun v => (⟨v, p.lower, p.upper⟩ : Direct).project) = some p' := h
  cases hz : vzip (fun x y => x - y) p.vector st with
  | none => rw [hz] at h; cases h
  | some v =>
    rw [hz] at h
    replace h : (⟨v, p.lower, p.upper⟩ : Direct).project = some p' := h
    obtain ⟨hl, hv⟩ := vzip_some hz
    obtain ⟨h0, _, h1, h2, h3, h4⟩ := direct_project_some h
    have hlen : v.length = p.vector.length := by rw [hv, List.length_zipWith, ← hl, Nat.min_self]
    refine ⟨h1, h2, direct_project_within_aux h hc, by rw [h3]; exact hlen, hl.symm, ?_⟩
    intro i x y d hx hy hd
    have h5 := h4 i
    have hvi : v[i]? = some (x - d) := by rw [hv, List.getElem?_zipWith, hx, hd]
    simp only [hvi, hy, Option.map_some, Option.some.injEq] at h5
    have h6 : clip1 x (p.lower.entries[i]?).join (p.upper.entries[i]?).join = x :=
      clip1_id _ _ _ (fun l h => (hw i x hx).1 l (join_some h)) (fun u h => (hw i x hx).2 u (join_some h))
    have h7 := clip1_nonexpansive (x - d) x (p.lower.entries[i]?).join (p.upper.entries[i]?).join
    rw [h6] at h7
    rw [h5]
    refine h7.trans ?_
    rw [show x - d - x = -d by ring, abs_neg]

/-- Each entry changes by at most `d`. -/
def MovesAtMost (d : ℝ) (p p' : Direct) : Prop :=
  p'.vector.length = p.vector.length ∧
    ∀ (i : Nat) (x y : ℝ), p.vector[i]? = some x → p'.vector[i]? = some y → |y - x| ≤ d

/-- Within consistent bounds, with non-negative accumulated squares. -/
def AccOk (s : Acc1 Direct) : Prop :=
  Within s.param.vector s.param.lower s.param.upper ∧ Consistent s.param.lower s.param.upper ∧
    ∀ a, s.acc = some a → ∀ x ∈ a, 0 ≤ x

theorem step_ratio (alpha g a e w : ℝ) (he : 0 < e) (hw : 0 < w) (h : w * (g * g) ≤ a) :
    |alpha * g / Real.sqrt (a + e)| ≤ |alpha| / Real.sqrt w := by
  have h1 : 0 < Real.sqrt w := Real.sqrt_pos.2 hw
  have h2 : 0 < Real.sqrt (a + e) := Real.sqrt_pos.2 (by nlinarith [mul_self_nonneg g])
  rw [abs_div, abs_mul, abs_of_pos h2, div_le_div_iff₀ h2 h1, mul_assoc]
  apply mul_le_mul_of_nonneg_left _ (abs_nonneg alpha)
  rw [← Real.sqrt_sq_eq_abs, ← Real.sqrt_mul (by positivity)]
  apply Real.sqrt_le_sqrt
  nlinarith

theorem accum_squares {c d : ℝ} (hc : 0 ≤ c) (hd : 0 ≤ d) {acc : Option (List ℝ)} {g a : List ℝ}
    (hacc : ∀ b, acc = some b → ∀ x ∈ b, 0 ≤ x) (h : accum c d acc (g.map fun x => x * x) = some a) :
    a.length = g.length ∧ (∀ x ∈ a, 0 ≤ x) ∧
    ∀ (i : Nat) (x y : ℝ), g[i]? = some x → a[i]? = some y → d * (x * x) ≤ y := by
  have main : a.length = g.length ∧
      ∀ (i : Nat) (y : ℝ), a[i]? = some y → ∃ x, g[i]? = some x ∧ d * (x * x) ≤ y := by
    unfold accum at h
    cases acc with
    | none =>
      cases h
      refine ⟨by simp, fun i y hy => ?_⟩
      rw [List.getElem?_map, List.getElem?_map] at hy
      cases hg : g[i]? with
      | none => rw [hg] at hy; cases hy
      | some x => rw [hg] at hy; cases hy; exact ⟨x, rfl, le_refl _⟩
    | some b =>
      obtain ⟨hl, rfl⟩ := vzip_some h
      refine ⟨by simp at hl ⊢; omega, fun i y hy => ?_⟩
      obtain ⟨u, v, hu, hv, rfl⟩ := zipWith_get hy
      rw [List.getElem?_map] at hv
      cases hg : g[i]? with
      | none => rw [hg] at hv; cases hv
      | some x =>
        rw [hg] at hv
        have hv : x * x = v := by injection hv
        refine ⟨x, rfl, ?_⟩
        have := hacc b rfl u (List.mem_iff_getElem?.2 ⟨i, hu⟩)
        rw [hv]
        nlinarith
  refine ⟨main.1, fun y hy => ?_, fun i x y hx hy => ?_⟩
  · obtain ⟨i, hi⟩ := List.mem_iff_getElem?.1 hy
    obtain ⟨x, _, hx⟩ := main.2 i y hi
    nlinarith [mul_self_nonneg x, mul_nonneg hd (mul_self_nonneg x)]
  · obtain ⟨x', hx', h'⟩ := main.2 i y hy
    rw [hx] at hx'
    cases hx'
    exact h'

theorem adagrad_iteration (obj : Direct → Option ℝ) (grad : Direct → Option (List ℝ)) (alpha : ℝ) (n : Nat)
    (s s' : Acc1 Direct) (b : Bool) (hs : AccOk s)
    (h : adagradIterate ⟨directMethods, obj, grad⟩ alpha n s = .done s' b) :
    AccOk s' ∧ MovesAtMost |alpha| s.param s'.param := by
  unfold adagradIterate at h
  split at h
  · cases h
  split at h
  · cases h
  split at h
  · cases h
  rename_i g _ _ a ha _ p hp
  cases h
  obtain ⟨hla, hpos, hsq⟩ := accum_squares (by norm_num) (by norm_num) hs.2.2 ha
  cases hz : vzip (fun x y => alpha * x / Real.sqrt (y + 1e-6)) g a with
  | none => rw [hz] at hp; cases hp
  | some st =>
    rw [hz] at hp
    obtain ⟨h1, h2, h3, h4, h5, h6⟩ := direct_step hs.1 hs.2.1 hp
    refine ⟨⟨h3, ?_, fun c hc => ?_⟩, h4, fun i x y hx hy => ?_⟩
    · show Consistent p.lower p.upper
      rw [h1, h2]; exact hs.2.1
    · cases hc; exact hpos
    · have hi : i < st.length := by rw [h5]; exact (List.getElem?_eq_some_iff.1 hx).1
      refine (h6 i x y _ hx hy (List.getElem?_eq_getElem hi)).trans ?_
      obtain ⟨_, hst⟩ := vzip_some hz
      obtain ⟨u, v, hu, hv, he⟩ := zipWith_get (f := fun x y => alpha * x / Real.sqrt (y + 1e-6)) (a := g) (b := a)
        (i := i) (z := st[i]) (by rw [← hst]; exact List.getElem?_eq_getElem hi)
      rw [he]
      have := step_ratio alpha u v 1e-6 1 (by norm_num) (by norm_num) (hsq i u v hu hv)
      simpa using this

/-- C59: no entry moves by more than the learning rate in an iteration of `Adagrad`, whatever the gradients are. -/
theorem adagrad_step_bounded (obj : Direct → Option ℝ) (grad : Direct → Option (List ℝ)) (alpha : ℝ)
    (fuel n : Nat) (iters maxIters : Option Int) (p : Direct) (s' : Acc1 Direct) (n' : Nat) (tr : List (Acc1 Direct))
    (stop : Bool) (hw : Within p.vector p.lower p.upper) (hc : Consistent p.lower p.upper)
    (h : optimize (adagradIterate ⟨directMethods, obj, grad⟩ alpha) fuel iters maxIters n ⟨p, none⟩ =
      .done (s', n', tr) stop) :
    List.IsChain (fun s t : Acc1 Direct => MovesAtMost |alpha| s.param t.param) (⟨p, none⟩ :: tr) :=
  (run_chain _ AccOk _ (fun n s s' b hs h => adagrad_iteration obj grad alpha n s s' b hs h) fuel n iters maxIters _ s'
    n' tr stop ⟨hw, hc, fun a ha => by cases ha⟩ h).1

theorem rms_iteration (obj : Direct → Option ℝ) (grad : Direct → Option (List ℝ)) (alpha gamma : ℝ)
    (h0 : 0 ≤ gamma) (h1' : gamma < 1) (n : Nat) (s s' : Acc1 Direct) (b : Bool) (hs : AccOk s)
    (h : rmsIterate ⟨directMethods, obj, grad⟩ alpha gamma n s = .done s' b) :
    AccOk s' ∧ MovesAtMost (|alpha| / Real.sqrt (1 - gamma)) s.param s'.param := by
  unfold rmsIterate at h
  split at h
  · cases h
  split at h
  · cases h
  split at h
  · cases h
  rename_i g _ _ a ha _ p hp
  cases h
  obtain ⟨hla, hpos, hsq⟩ := accum_squares h0 (by linarith) hs.2.2 ha
  cases hz : vzip (fun x y => alpha * x / Real.sqrt (y + 1e-6)) g a with
  | none => rw [hz] at hp; cases hp
  | some st =>
    rw [hz] at hp
    obtain ⟨h1, h2, h3, h4, h5, h6⟩ := direct_step hs.1 hs.2.1 hp
    refine ⟨⟨h3, ?_, fun c hc => ?_⟩, h4, fun i x y hx hy => ?_⟩
    · show Consistent p.lower p.upper
      rw [h1, h2]; exact hs.2.1
    · cases hc; exact hpos
    · have hi : i < st.length := by rw [h5]; exact (List.getElem?_eq_some_iff.1 hx).1
      refine (h6 i x y _ hx hy (List.getElem?_eq_getElem hi)).trans ?_
      obtain ⟨_, hst⟩ := vzip_some hz
      obtain ⟨u, v, hu, hv, he⟩ := zipWith_get (f := fun x y => alpha * x / Real.sqrt (y + 1e-6)) (a := g) (b := a)
        (i := i) (z := st[i]) (by rw [← hst]; exact List.getElem?_eq_getElem hi)
      rw [he]
      exact step_ratio alpha u v 1e-6 (1 - gamma) (by norm_num) (by linarith) (hsq i u v hu hv)

/-- C59: no entry moves by more than `learning_rate / √(1 - gamma)` in an iteration of `RmsProp`. -/
theorem rms_step_bounded (obj : Direct → Option ℝ) (grad : Direct → Option (List ℝ)) (alpha gamma : ℝ)
    (h0 : 0 ≤ gamma) (h1 : gamma < 1)
    (fuel n : Nat) (iters maxIters : Option Int) (p : Direct) (s' : Acc1 Direct) (n' : Nat) (tr : List (Acc1 Direct))
    (stop : Bool) (hw : Within p.vector p.lower p.upper) (hc : Consistent p.lower p.upper)
    (h : optimize (rmsIterate ⟨directMethods, obj, grad⟩ alpha gamma) fuel iters maxIters n ⟨p, none⟩ =
      .done (s', n', tr) stop) :
    List.IsChain (fun s t : Acc1 Direct => MovesAtMost (|alpha| / Real.sqrt (1 - gamma)) s.param t.param)
      (⟨p, none⟩ :: tr) :=
  (run_chain _ AccOk _ (fun n s s' b hs h => rms_iteration obj grad alpha gamma h0 h1 n s s' b hs h) fuel n iters
    maxIters _ s' n' tr stop ⟨hw, hc, fun a ha => by cases ha⟩ h).1

/-! ### Adam with a constant gradient -/

/-- `g.map (c * ·)`. -/
def scale (c : ℝ) (g : List ℝ) : List ℝ := g.map (c * ·)

/-- The accumulated average after `n` equal contributions. -/
def avgState (b : ℝ) (n : Nat) (g : List ℝ) : Option (List ℝ) := if n = 0 then none else some (scale (1 - b ^ n) g)

theorem zipWith_map_self (f : ℝ → ℝ → ℝ) (a b : ℝ → ℝ) (g : List ℝ) :
    List.zipWith f (g.map a) (g.map b) = g.map fun x => f (a x) (b x) := by
  induction g with
  | nil => rfl
  | cons x g ih => simp only [List.map_cons, List.zipWith_cons_cons, ih]

theorem accum_avg (b : ℝ) (n : Nat) (g : List ℝ) :
    accum b (1 - b) (avgState b n g) g = avgState b (n + 1) g := by
  unfold avgState
  rw [if_neg (Nat.succ_ne_zero n)]
  by_cases hn : n = 0
  · rw [if_pos hn, hn]
    simp [accum, scale]
  · rw [if_neg hn]
    unfold accum
    simp only [vzip, scale, List.length_map, if_true]
    congr 1
    have := zipWith_map_self (fun x y => b * x + (1 - b) * y) (fun x => (1 - b ^ n) * x) id g
    rw [List.map_id] at this
    rw [this]
    apply List.map_congr_left
    intro x _
    simp only [id]
    ring

/-- The unbounded `DirectParam` with vector `v`. -/
def free (v : List ℝ) : Direct := mkDirect v none

theorem free_project (v : List ℝ) : Direct.project (free v) = some (free v) := by
  refine direct_project_feasible (free v) (by simp [free, mkDirect, expandBound, Side.entries])
    (by simp [free, mkDirect, expandBound, Side.entries]) ?_
  intro i x _
  constructor
  · intro l hl
    simp [free, mkDirect, expandBound, Side.entries, List.getElem?_replicate] at hl
  · intro l hl
    simp [free, mkDirect, expandBound, Side.entries, List.getElem?_replicate] at hl

theorem free_step (c : Prob Direct) (hc : c.m = directMethods) (v st : List ℝ) (hl : v.length = st.length) :
    takeStep c (free v) st = some (free (List.zipWith (fun x y => x - y) v st)) := by
  unfold takeStep
  rw [hc]
  have h1 : directMethods.toVector (free v) = some v := rfl
  rw [h1]
  simp only [Option.bind_some, vzip, if_pos hl]
  have h2 : directMethods.fromVector (free v) (List.zipWith (fun x y => x - y) v st) =
      Direct.project ⟨List.zipWith (fun x y => x - y) v st, (free v).lower, (free v).upper⟩ := rfl
  rw [h2]
  have h3 : (⟨List.zipWith (fun x y => x - y) v st, (free v).lower, (free v).upper⟩ : Direct) =
      free (List.zipWith (fun x y => x - y) v st) := by
    unfold free mkDirect
    simp [expandBound, hl]
  rw [h3, free_project]

/-- The entries after `k` steps of size `α g / (|g| + 1e-8)`. -/
noncomputable def adamVector (alpha : ℝ) (v g : List ℝ) (k : Nat) : List ℝ :=
  List.zipWith (fun x y => x - k * (alpha * y / (|y| + 1e-8))) v g

theorem adam_constant_step (c : Prob Direct) (hc : c.m = directMethods) (alpha b1 b2 : ℝ)
    (h1 : 0 ≤ b1) (h1' : b1 < 1) (h2 : 0 ≤ b2) (h2' : b2 < 1) (v g : List ℝ) (hl : v.length = g.length)
    (hg : ∀ p, c.grad p = some g) (n : Nat) :
    adamIterate c alpha b1 b2 n
      ⟨free (adamVector alpha v g n), avgState b1 n g, avgState b2 n (g.map fun x => x * x)⟩ =
    .done ⟨free (adamVector alpha v g (n + 1)), avgState b1 (n + 1) g, avgState b2 (n + 1) (g.map fun x => x * x)⟩
      false := by
  have e1 : (1 : ℝ) - b1 ^ (n + 1) ≠ 0 := by
    have := pow_lt_one₀ h1 h1' (n := n + 1) (by omega); linarith
  have e2 : (1 : ℝ) - b2 ^ (n + 1) ≠ 0 := by
    have := pow_lt_one₀ h2 h2' (n := n + 1) (by omega); linarith
  unfold adamIterate
  simp only [hg, accum_avg]
  have s1 : avgState b1 (n + 1) g = some (scale (1 - b1 ^ (n + 1)) g) := if_neg (by omega)
  have s2 : avgState b2 (n + 1) (g.map fun x => x * x) = some (scale (1 - b2 ^ (n + 1)) (g.map fun x => x * x)) :=
    if_neg (by omega)
  simp only [s1, s2]
  have m1 : (scale (1 - b1 ^ (n + 1)) g).map (· / (1 - b1 ^ (n + 1))) = g.map id := by
    unfold scale
    rw [List.map_map]
    apply List.map_congr_left
    intro x _
    simp only [Function.comp, id]
    field_simp
  have m2 : (scale (1 - b2 ^ (n + 1)) (g.map fun x => x * x)).map (· / (1 - b2 ^ (n + 1))) = g.map fun x => x * x := by
    unfold scale
    rw [List.map_map]
    conv_rhs => rw [← List.map_id (g.map fun x => x * x)]
    apply List.map_congr_left
    intro x _
    simp only [Function.comp, id]
    field_simp
  rw [m1, m2]
  have hz : vzip (fun x y => alpha * x / (Real.sqrt y + 1e-8)) (g.map id) (g.map fun x => x * x) =
      some (g.map fun y => alpha * y / (|y| + 1e-8)) := by
    unfold vzip
    rw [if_pos (by simp), zipWith_map_self]
    congr 1
    apply List.map_congr_left
    intro x _
    simp only [id, Real.sqrt_mul_self_eq_abs]
  rw [hz]
  have hlen : (adamVector alpha v g n).length = (g.map fun y => alpha * y / (|y| + 1e-8)).length := by
    unfold adamVector
    rw [List.length_zipWith, List.length_map, hl, Nat.min_self]
  simp only [Option.bind_some, free_step c hc _ _ hlen]
  have hv : List.zipWith (fun x y => x - y) (adamVector alpha v g n) (g.map fun y => alpha * y / (|y| + 1e-8)) =
      adamVector alpha v g (n + 1) := by
    unfold adamVector
    clear hlen hz m1 m2 s1 s2 hg
    induction v generalizing g with
    | nil => simp
    | cons x v ih =>
      cases g with
      | nil => simp
      | cons y g =>
        simp only [List.zipWith_cons_cons, List.map_cons]
        rw [ih g (by simpa using hl)]
        congr 1
        push_cast
        ring
  rw [hv]

/-- C59: with a constant gradient `g`, every step of `Adam` is `learning_rate * g / (|g| + 1e-8)`, whatever the decay
rates are: the corrections of the averages are exact. -/
theorem adam_constant (c : Prob Direct) (hc : c.m = directMethods) (alpha b1 b2 : ℝ)
    (h1 : 0 ≤ b1) (h1' : b1 < 1) (h2 : 0 ≤ b2) (h2' : b2 < 1) (v g : List ℝ) (hl : v.length = g.length)
    (hg : ∀ p, c.grad p = some g) (m fuel : Nat) (hm : 0 < m) (hf : m ≤ fuel) :
    ∃ s' tr, optimize (adamIterate c alpha b1 b2) fuel (some m) none 0 ⟨mkDirect v none, none, none⟩ =
        .done (s', m, tr) false ∧ s'.param.vector = adamVector alpha v g m := by
  have h := optimize_exact_partial (adamIterate c alpha b1 b2) 0 m fuel none
    (fun n => ⟨free (adamVector alpha v g n), avgState b1 n g, avgState b2 n (g.map fun x => x * x)⟩)
    (fun _ => false) hm
    (fun i _ => by
      rw [Nat.zero_add]
      exact adam_constant_step c hc alpha b1 b2 h1 h1' h2 h2' v g hl hg i)
    (fun _ _ => rfl) (by simp) hf
  have hv : adamVector alpha v g 0 = v := by
    unfold adamVector
    clear h hg
    induction v generalizing g with
    | nil => rfl
    | cons x v ih =>
      cases g with
      | nil => simp at hl
      | cons y g => simp only [List.zipWith_cons_cons]; rw [ih g (by simpa using hl)]; simp
  simp only [hv] at h
  rw [Nat.zero_add] at h
  exact ⟨_, _, h, rfl⟩

/-- The hypotheses are met: a linear objective. -/
example : ∃ s' tr, optimize (adamIterate ⟨directMethods, fun p => some (p.vector.headD 0 * 2), fun _ => some [2]⟩
    (1 / 100) (9 / 10) (999 / 1000)) 5 (some 3) none 0 ⟨mkDirect [7] none, none, none⟩ = .done (s', 3, tr) false ∧
    s'.param.vector = adamVector (1 / 100) [7] [2] 3 :=
  adam_constant _ rfl (1 / 100) (9 / 10) (999 / 1000) (by norm_num) (by norm_num) (by norm_num) (by norm_num) [7] [2]
    rfl (fun _ => rfl) 3 5
    (by omega) (by omega)

end Verif.Opt
