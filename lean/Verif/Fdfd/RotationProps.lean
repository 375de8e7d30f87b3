import Verif.Fdfd.Rotation
import Verif.Fdfd.CurlProps
import Mathlib.Data.List.GetD
/-
Property C25 (shifts), for the older operators: they agree with the newer ones on three-dimensional
grids, and are plain periodic differences on two-dimensional ones.
-/
namespace Verif.Fdfd
open Matrix

theorem inside_iff (s c : List Nat) : Inside s c ↔
    c.length = s.length ∧ ∀ i, i < s.length → c.getD i 0 < s.getD i 0 := by
  unfold Inside
  rw [List.forall₂_iff_get]
  constructor
  · rintro ⟨h1, h2⟩
    refine ⟨h1, fun i hi => ?_⟩
    have := h2 i (h1 ▸ hi) hi
    rw [List.getD_eq_getElem _ _ (h1 ▸ hi), List.getD_eq_getElem _ _ hi]
    exact this
  · rintro ⟨h1, h2⟩
    refine ⟨h1, fun i hi hi' => ?_⟩
    have := h2 i hi'
    rw [List.getD_eq_getElem _ _ hi, List.getD_eq_getElem _ _ hi'] at this
    exact this

theorem getD_set (l : List Nat) (a i v : Nat) (ha : a < l.length) :
    (l.set a v).getD i 0 = if i = a then v else l.getD i 0 := by
  rw [List.getD_eq_getElem?_getD, List.getD_eq_getElem?_getD, List.getElem?_set]
  by_cases h : i = a
  · subst h; simp [ha]
  · rw [if_neg (fun e => h e.symm), if_neg h]

theorem idx_ext {l m : List Nat} (h : l.length = m.length) (h' : ∀ i, i < l.length → l.getD i 0 = m.getD i 0) :
    l = m := by
  apply List.ext_getElem h
  intro i h1 h2
  have := h' i h1
  rwa [List.getD_eq_getElem _ _ h1, List.getD_eq_getElem _ _ h2] at this

theorem csr_sub (s : List Nat) (axis : Nat) (ha : axis < s.length) (c c' : List Nat)
    (hc : Inside s c) (hc' : Inside s c') :
    csr (numel s) ((idxF (s.set axis 1)).map fun r =>
      (1, ravelF s (r.set axis (s.getD axis 0 - 1)), ravelF s r))
      ⟨ravelF s c, ravelF_lt s c hc⟩ ⟨ravelF s c', ravelF_lt s c' hc'⟩ =
    if c.getD axis 0 + 1 = s.getD axis 0 ∧ c' = c.set axis 0 then 1 else 0 := by
  have hci := (inside_iff s c).1 hc
  have hpos : 0 < s.getD axis 0 := Nat.lt_of_le_of_lt (Nat.zero_le _) (hci.2 axis ha)
  have hr : ∀ r, r ∈ idxF (s.set axis 1) → r.length = s.length ∧ r.getD axis 0 = 0 ∧
      Inside s (r.set axis (s.getD axis 0 - 1)) ∧ Inside s r := by
    intro r hr
    obtain ⟨h1, h2⟩ := (inside_iff _ _).1 ((mem_idxF _ _).1 hr)
    rw [List.length_set] at h1 h2
    have h0 := h2 axis ha
    rw [getD_set _ _ _ _ ha, if_pos rfl] at h0
    refine ⟨h1, by omega, (inside_iff _ _).2 ⟨by rw [List.length_set, h1], fun i hi => ?_⟩,
      (inside_iff _ _).2 ⟨h1, fun i hi => ?_⟩⟩
    · rw [getD_set _ _ _ _ (by rw [h1]; exact ha)]
      by_cases h : i = axis
      · subst h; rw [if_pos rfl]; omega
      · rw [if_neg h]
        have := h2 i hi
        rwa [getD_set _ _ _ _ ha, if_neg h] at this
    · have := h2 i hi
      rw [getD_set _ _ _ _ ha] at this
      by_cases h : i = axis
      · subst h; rw [if_pos rfl] at this; omega
      · rwa [if_neg h] at this
  unfold csr
  rw [List.map_map]
  by_cases hb : c.getD axis 0 + 1 = s.getD axis 0
  · have hmem : c.set axis 0 ∈ idxF (s.set axis 1) := by
      rw [mem_idxF, inside_iff]
      refine ⟨by rw [List.length_set, List.length_set, hci.1], fun i hi => ?_⟩
      rw [List.length_set] at hi
      rw [getD_set _ _ _ _ (by rw [hci.1]; exact ha), getD_set _ _ _ _ ha]
      by_cases h : i = axis
      · rw [if_pos h, if_pos h]; omega
      · rw [if_neg h, if_neg h]; exact hci.2 i hi
    have hback : (c.set axis 0).set axis (s.getD axis 0 - 1) = c := by
      apply idx_ext (by rw [List.length_set, List.length_set])
      intro i hi
      rw [getD_set _ _ _ _ (by rw [List.length_set, hci.1]; exact ha),
        getD_set _ _ _ _ (by rw [hci.1]; exact ha)]
      by_cases h : i = axis
      · subst h; rw [if_pos rfl]; omega
      · rw [if_neg h, if_neg h]
    rw [sum_single (idxF (s.set axis 1)) _ (c.set axis 0) hmem (idxF_nodup _)]
    · simp only [Function.comp, hback, true_and, hb]
      by_cases h : c' = c.set axis 0
      · rw [if_pos h, if_pos (by rw [h])]
      · rw [if_neg h, if_neg]
        intro e
        exact h ((ravelF_bijective s).2.1 _ _ hc' (hr _ hmem).2.2.2 e.symm)
    · intro r hr' hne
      simp only [Function.comp]
      rw [if_neg]
      rintro ⟨e, -⟩
      have e' := (ravelF_bijective s).2.1 _ _ (hr r hr').2.2.1 hc e
      apply hne
      rw [← e', List.set_set]
      obtain ⟨h1, h2, -⟩ := hr r hr'
      apply idx_ext (by rw [List.length_set])
      intro i hi
      rw [getD_set _ _ _ _ (by rw [h1]; exact ha)]
      by_cases h : i = axis
      · subst h; rw [if_pos rfl, h2]
      · rw [if_neg h]
  · rw [if_neg (fun h => hb h.1)]
    apply List.sum_eq_zero
    intro z hz
    obtain ⟨r, hr', rfl⟩ := List.mem_map.1 hz
    simp only [Function.comp]
    rw [if_neg]
    rintro ⟨e, -⟩
    have e' := (ravelF_bijective s).2.1 _ _ (hr r hr').2.2.1 hc e
    apply hb
    rw [← e', getD_set _ _ _ _ (by rw [(hr r hr').1]; exact ha), if_pos rfl]
    omega

/-- The index reached by one step up along the axis, periodically. -/
def stepUp (s : List Nat) (axis : Nat) (c : List Nat) : List Nat :=
  c.set axis ((c.getD axis 0 + 1) % s.getD axis 0)

theorem shifted_eq (s : List Nat) (axis : Nat) (hl : s.length = 2 ∨ s.length = 3) (ha : axis < s.length)
    (c : List Nat) (hc : Inside s c) :
    shiftedIdx s ((List.range 3).map fun a => if a = axis then 1 else 0) c = stepUp s axis c := by
  obtain ⟨h1, h2⟩ := (inside_iff s c).1 hc
  have hlen : (shiftedIdx s ((List.range 3).map fun a => if a = axis then 1 else 0) c).length = s.length := by
    simp only [shiftedIdx, List.length_zipWith, List.length_zip, List.length_map, List.length_range]
    omega
  apply idx_ext
  · rw [hlen, stepUp, List.length_set, h1]
  intro i hi
  rw [hlen] at hi
  rw [stepUp, getD_set _ _ _ _ (by rw [h1]; exact ha)]
  have hi3 : i < 3 := by omega
  have hz : i < (s.zip ((List.range 3).map fun a => if a = axis then 1 else 0)).length := by
    simp only [List.length_zip, List.length_map, List.length_range]; omega
  rw [shiftedIdx, List.getD_eq_getElem _ _ (by simp only [List.length_zipWith]; omega), List.getElem_zipWith,
    List.getElem_zip]
  simp only [List.getElem_map, List.getElem_range]
  have hs : s[i] = s.getD i 0 := (List.getD_eq_getElem _ _ hi).symm
  have hc' : c[i]'(by omega) = c.getD i 0 := (List.getD_eq_getElem _ _ _).symm
  rw [hs, hc']
  by_cases h : i = axis
  · subst h; simp
  · rw [if_neg h, if_neg h, Nat.add_zero, Nat.mod_eq_of_lt (h2 i hi)]

theorem stepUp_inside (s : List Nat) (axis : Nat) (ha : axis < s.length) (c : List Nat) (hc : Inside s c) :
    Inside s (stepUp s axis c) := by
  obtain ⟨h1, h2⟩ := (inside_iff s c).1 hc
  refine (inside_iff _ _).2 ⟨by rw [stepUp, List.length_set, h1], fun i hi => ?_⟩
  rw [stepUp, getD_set _ _ _ _ (by rw [h1]; exact ha)]
  by_cases h : i = axis
  · subst h; rw [if_pos rfl]
    exact Nat.mod_lt _ (Nat.lt_of_le_of_lt (Nat.zero_le _) (h2 i hi))
  · rw [if_neg h]; exact h2 i hi

/-- The entries of `rotation_bloch` for a shift by one. -/
theorem rotationBloch_up (axis : Nat) (s : List Nat) (hl : s.length = 2 ∨ s.length = 3) (ha : axis < s.length)
    (phase : ℂ) : ∃ M, rotationBloch axis s phase 1 = some M ∧ rotationBloch axis s phase (-1) = some Mᴴ ∧
      ∀ (c c' : List Nat) (hc : Inside s c) (hc' : Inside s c'),
        M ⟨ravelF s c, ravelF_lt s c hc⟩ ⟨ravelF s c', ravelF_lt s c' hc'⟩ =
          if c' = stepUp s axis c then
            (if c.getD axis 0 + 1 = s.getD axis 0 then Complex.exp (-Complex.I * phase) else 1) else 0 := by
  have hd : csr (numel s) ((idxF s).map fun c => ((1 : ℂ), ravelF s c,
        ravelF s (shiftedIdx s ((List.range 3).map fun a => if a = axis then 1 else 0) c))) =
      csr (numel s) ((idxF s).map fun c => ((1 : ℂ), ravelF s c, ravelF s (stepUp s axis c))) := by
    congr 1
    apply List.map_congr_left
    intro c hc
    rw [shifted_eq s axis hl ha c ((mem_idxF s c).1 hc)]
  unfold rotationBloch
  rw [if_neg (not_not.2 hl), if_neg (not_not.2 ha), if_neg (by simp), if_neg (not_not.2 hl), if_neg (not_not.2 ha),
    if_neg (by simp)]
  refine ⟨_, rfl, rfl, fun c c' hc hc' => ?_⟩
  simp only [hd]
  rw [if_neg (by decide)]
  simp only [Matrix.add_apply, Matrix.sub_apply, Matrix.smul_apply, smul_eq_mul]
  rw [csr_apply s (stepUp s axis) (fun _ => 1) (fun c hc => stepUp_inside s axis ha c hc) c c' hc hc',
    csr_sub s axis ha c c' hc hc']
  have hlt := ((inside_iff s c).1 hc).2 axis ha
  by_cases hb : c.getD axis 0 + 1 = s.getD axis 0
  · have : c.set axis 0 = stepUp s axis c := by rw [stepUp, hb, Nat.mod_self]
    rw [this]
    simp only [hb, true_and, if_true]
    by_cases h : c' = stepUp s axis c
    · simp only [if_pos h]; ring_nf
    · simp only [if_neg h]; ring
  · simp only [hb, false_and, if_false]
    ring

/-! ### Agreement with the newer operators on three-dimensional grids -/

variable {sh : Shape}

theorem stepUp_cell (a : Fin 3) (c : Cell sh) :
    stepUp sh.toList a.val (cellList c) = cellList (nextCell a c) := by
  match a with
  | 0 => rfl
  | 1 => rfl
  | 2 => rfl

theorem toList_getD (a : Fin 3) : sh.toList.getD a.val 0 = sh a := by
  match a with
  | 0 => rfl
  | 1 => rfl
  | 2 => rfl

theorem rotationBloch_shiftM (a : Fin 3) (phase : ℂ) :
    rotationBloch a.val sh.toList phase 1 = some (shiftM sh a 1 phase) ∧
    rotationBloch a.val sh.toList phase (-1) = some (shiftM sh a (-1) (star phase)) := by
  obtain ⟨M, h1, h2, h3⟩ : ∃ M : Mat sh.size, rotationBloch a.val sh.toList phase 1 = some M ∧
      rotationBloch a.val sh.toList phase (-1) = some Mᴴ ∧ ∀ c c' : Cell sh, M (pos c) (pos c') =
        if cellList c' = stepUp sh.toList a.val (cellList c) then
          (if (cellList c).getD a.val 0 + 1 = sh.toList.getD a.val 0 then Complex.exp (-Complex.I * phase)
            else 1) else 0 := by
    obtain ⟨M, h1, h2, h3⟩ := rotationBloch_up a.val sh.toList (Or.inr rfl) a.isLt phase
    exact ⟨M, h1, h2, fun c c' => h3 (cellList c) (cellList c') (cellList_inside c) (cellList_inside c')⟩
  have hM : M = shiftM sh a 1 phase := by
    refine mat_ext (sh := sh) (fun c c' => ?_)
    refine (h3 c c').trans ?_
    rw [shiftM, cmono_apply, move_next, stepUp_cell, cellList_getD, toList_getD]
    have hc := (c a).isLt
    by_cases h : c' = nextCell a c
    · rw [if_pos h, if_pos (by rw [h]), leave]
      by_cases hb : (c a).val + 1 = sh a
      · rw [if_pos hb, if_pos (by omega)]
      · rw [if_neg hb, if_neg (by omega), if_neg (by omega)]
    · rw [if_neg h, if_neg (fun e => h (cellList_inj e))]
  subst hM
  refine ⟨h1, h2.trans (congrArg some ?_)⟩
  refine mat_ext (sh := sh) (fun c c' => ?_)
  rw [Matrix.conjTranspose_apply, shiftM, shiftM, cmono_apply, cmono_apply, move_next, move_prev]
  have hdisp : ∀ (t : Int) (c : Cell sh), disp sh a t 0 c = unitDisp a t := by
    intro t c; funext b; simp [disp, unitDisp]
  have hnp : ∀ c : Cell sh, nextCell a (prevCell a c) = c := by
    intro c
    rw [← move_prev, ← move_next]
    have := move_back (sh := sh) a (-1) 0 rfl c
    simp only [hdisp] at this
    exact this
  have hpn : ∀ c : Cell sh, prevCell a (nextCell a c) = c := by
    intro c
    rw [← move_next, ← move_prev]
    have := move_back (sh := sh) a 1 0 rfl c
    simp only [hdisp] at this
    exact this
  by_cases h : c' = prevCell a c
  · subst h
    rw [if_pos (hnp c).symm, if_pos rfl]
    have hc := (c a).isLt
    have hp : ((prevCell a c) a).val = ((c a).val + (sh a - 1)) % sh a := by rw [prevCell, if_pos rfl]
    unfold leave
    by_cases h0 : (c a).val = 0
    · rw [hp, h0, Nat.zero_add, Nat.mod_eq_of_lt (by omega), if_pos (by omega), if_neg (by omega),
        if_pos (by omega)]
      rw [← starRingEnd_apply, ← Complex.exp_conj]
      congr 1
      simp
    · have : ((c a).val + (sh a - 1)) % sh a = (c a).val - 1 := by
        rw [show (c a).val + (sh a - 1) = ((c a).val - 1) + sh a by omega, Nat.add_mod_right,
          Nat.mod_eq_of_lt (by omega)]
      rw [hp, this, if_neg (by omega), if_neg (by omega), if_neg (by omega), if_neg (by omega), star_one]
  · rw [if_neg h, if_neg, star_zero]
    intro e
    exact h (by rw [e, hpn])

/-- On a three-dimensional grid without shear the older shift operators are the newer ones. The older
shift down conjugates the phase, so that this needs a real phase (see `rotation_bloch_lossy_false`). -/
theorem rotation_bloch_agrees_partial (a : Fin 3) (phase : Fin 3 → ℂ) (hp : star (phase a) = phase a)
    (s : Int) (hs : s = 1 ∨ s = -1) :
    rotationBloch a.val sh.toList (phase a) s = rotationBlochShift a sh s phase 0 := by
  rw [rotation_zero]
  rcases hs with rfl | rfl
  · exact (rotationBloch_shiftM a (phase a)).1
  · have := (rotationBloch_shiftM (sh := sh) a (phase a)).2
    rwa [hp] at this

example : star ((2 : ℝ) : ℂ) = ((2 : ℝ) : ℂ) := by simp

/-- With a complex phase (a decaying Bloch wave) shifting down is no longer the inverse of shifting up. -/
theorem rotation_bloch_lossy_false : ¬ ∀ (sh : Shape) (a : Fin 3) (phase : ℂ) (U D : Mat sh.size),
    rotationBloch a.val sh.toList phase 1 = some U → rotationBloch a.val sh.toList phase (-1) = some D →
    D * U = 1 := by
  intro h
  let sh : Shape := fun _ => 1
  have h1 := h sh 0 Complex.I _ _ (rotationBloch_shiftM (sh := sh) 0 Complex.I).1
    (rotationBloch_shiftM (sh := sh) 0 Complex.I).2
  rw [shiftM, shiftM, cmono_mul] at h1
  let c : Cell sh := fun _ => ⟨0, Nat.one_pos⟩
  have hall : ∀ x y : Cell sh, x = y := by
    intro x y; funext b; apply Fin.ext
    have h1 : (x b).val < 1 := (x b).isLt
    have h2 : (y b).val < 1 := (y b).isLt
    omega
  have h2 := congrFun (congrFun h1 (pos c)) (pos c)
  rw [cmono_apply, if_pos (hall _ _), Matrix.one_apply_eq] at h2
  rw [hall (moveCell c (unitDisp 0 (-1))) c] at h2
  have e1 : leave (sh 0) (star Complex.I) (((c 0).val : Int) + -1) = Complex.exp (-Complex.I * (- star Complex.I)) := by
    rw [leave, if_neg (by decide), if_pos (by decide)]
  have e2 : leave (sh 0) Complex.I (((c 0).val : Int) + 1) = Complex.exp (-Complex.I * Complex.I) := by
    rw [leave, if_pos (by decide)]
  rw [e1, e2, ← Complex.exp_add] at h2
  have e3 : -Complex.I * (-star Complex.I) + -Complex.I * Complex.I = ((2 : ℝ) : ℂ) := by
    have := Complex.I_mul_I
    simp only [RCLike.star_def, Complex.conj_I, neg_neg]
    push_cast
    linear_combination (-2 : ℂ) * this
  rw [e3, ← Complex.ofReal_exp] at h2
  have h3 : Real.exp 2 = 1 := by exact_mod_cast h2
  have : (1 : ℝ) < Real.exp 2 := Real.one_lt_exp_iff.2 (by norm_num)
  linarith

end Verif.Fdfd
