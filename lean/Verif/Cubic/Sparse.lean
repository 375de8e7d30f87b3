import Mathlib.Algebra.BigOperators.Ring.Finset
import Mathlib.Algebra.BigOperators.Intervals
import Mathlib.Algebra.Order.BigOperators.Group.Finset
import Mathlib.Tactic.Ring
import Mathlib.Tactic.Linarith

/-!
# Sparse matrices as they are assembled in `cubic_utils.py`

`spins/invdes/parametrization/cubic_utils.py` builds every matrix from a handful of `scipy.sparse`
constructors.  A matrix is modelled by its two sizes and the entries it denotes; the entries outside
of the sizes carry no meaning and no operation below reads them.  Storage formats (csr, csc, coo)
are not modelled, they do not change the matrix.
-/

namespace Verif.Cubic

open Finset

variable {K : Type*} [CommRing K]

/-- The exceptions the modelled functions raise. -/
inductive Err where
  /-- `ValueError('dimension mismatch')` of `A @ B`. -/
  | dims
  /-- `ValueError` / `IndexError` of a constructor that is given an impossible shape. -/
  | shape
  /-- `ValueError("The parametrization shape does not match the periodicity …")`,
  cubic_utils.py 824-826, 836-838. -/
  | periods
  /-- `ValueError('The fine grid has to be smaller or equal to the rough grid')`,
  cubic_utils.py 39-40. -/
  | fine
  /-- `ValueError('Invalid initial value')`, parametrization.py 220, 406. -/
  | initial
deriving DecidableEq, Repr

/-- A sparse matrix: sizes and entries. -/
structure SpMat (K : Type*) where
  rows : Nat
  cols : Nat
  ent : Nat → Nat → K

namespace SpMat

/-- `A @ v` for a vector `v`. -/
def mulVec (A : SpMat K) (v : Nat → K) (i : Nat) : K :=
  ∑ j ∈ range A.cols, A.ent i j * v j

/-- `A @ B`, which raises when the sizes do not match. -/
def matmul (A B : SpMat K) : Except Err (SpMat K) :=
  if A.cols = B.rows then
    .ok ⟨A.rows, B.cols, fun i j => ∑ k ∈ range A.cols, A.ent i k * B.ent k j⟩
  else .error .dims

/-- `sparse.eye(n)`. -/
def eye (n : Nat) : SpMat K := ⟨n, n, fun i j => if i = j then 1 else 0⟩

/-- `sparse.csr_matrix((r, c))`: all entries zero. -/
def zeros (r c : Nat) : SpMat K := ⟨r, c, fun _ _ => 0⟩

/-- `sparse.vstack([A, B])`. -/
def vstack (A B : SpMat K) : SpMat K :=
  ⟨A.rows + B.rows, A.cols, fun i j => if i < A.rows then A.ent i j else B.ent (i - A.rows) j⟩

/-- `sparse.vstack(Ms)` for a list of blocks of width `c`. -/
def vstackList (c : Nat) : List (SpMat K) → SpMat K
  | [] => zeros 0 c
  | A :: Ms => ⟨A.rows + (vstackList c Ms).rows, c,
      fun i j => if i < A.rows then A.ent i j else (vstackList c Ms).ent (i - A.rows) j⟩

/-- `sparse.hstack([A, B])`. -/
def hstack (A B : SpMat K) : SpMat K :=
  ⟨A.rows, A.cols + B.cols, fun i j => if j < A.cols then A.ent i j else B.ent i (j - A.cols)⟩

/-- `sparse.block_diag(tuple(k * [A]))`: `k` copies of `A` along the diagonal. -/
def blockDiag (k : Nat) (A : SpMat K) : SpMat K :=
  ⟨k * A.rows, k * A.cols,
    fun i j => if i / A.rows = j / A.cols then A.ent (i % A.rows) (j % A.cols) else 0⟩

/-- `A.transpose()`. -/
def transpose (A : SpMat K) : SpMat K := ⟨A.cols, A.rows, fun i j => A.ent j i⟩

/-- `A.indices = -1 * A.indices + A.shape[1] - 1` on a csr matrix: the columns in reverse order. -/
def flipCols (A : SpMat K) : SpMat K := ⟨A.rows, A.cols, fun i j => A.ent i (A.cols - 1 - j)⟩

/-- `sparse.csc_matrix((values, (ind_i, ind_j)), shape=(r, c))`: entries given as a list of
(row, column, value); the values of repeated positions are added up. -/
def coo (r c : Nat) (l : List (Nat × Nat × K)) : SpMat K :=
  ⟨r, c, fun i j => ((l.filter fun t => t.1 = i ∧ t.2.1 = j).map fun t => t.2.2).sum⟩

/-- `sparse.diags(d, 0, shape=(n, n))`. -/
def diags (n : Nat) (d : Nat → K) : SpMat K := ⟨n, n, fun i j => if i = j then d i else 0⟩

/-- `sparse.kron(A, sparse.identity(n))`. -/
def kronEye (A : SpMat K) (n : Nat) : SpMat K :=
  ⟨A.rows * n, A.cols * n, fun i j => if i % n = j % n then A.ent (i / n) (j / n) else 0⟩

/-! ## What the constructors do to a vector -/

theorem matmul_ok {A B : SpMat K} (h : A.cols = B.rows) :
    ∃ C, A.matmul B = .ok C ∧ C.rows = A.rows ∧ C.cols = B.cols ∧
      ∀ v i, C.mulVec v i = A.mulVec (B.mulVec v) i := by
  refine ⟨_, if_pos h, rfl, rfl, fun v i => ?_⟩
  simp only [mulVec]
  simp_rw [Finset.sum_mul, Finset.mul_sum]
  rw [Finset.sum_comm]
  exact Finset.sum_congr rfl fun j _ => Finset.sum_congr rfl fun k _ => by ring

theorem mulVec_congr (A : SpMat K) {v w : Nat → K} (h : ∀ j < A.cols, v j = w j) (i : Nat) :
    A.mulVec v i = A.mulVec w i :=
  Finset.sum_congr rfl fun j hj => by rw [h j (Finset.mem_range.1 hj)]

theorem eye_mulVec {n i : Nat} (h : i < n) (v : Nat → K) : (eye n : SpMat K).mulVec v i = v i := by
  simp [mulVec, eye, h]

theorem zeros_mulVec (r c : Nat) (v : Nat → K) (i : Nat) : (zeros r c).mulVec v i = 0 := by
  simp [mulVec, zeros]

theorem vstack_mulVec_lt {A B : SpMat K} (v : Nat → K) {i : Nat} (h : i < A.rows) :
    (vstack A B).mulVec v i = A.mulVec v i := by
  simp [mulVec, vstack, h]

theorem vstack_mulVec_ge {A B : SpMat K} (hc : A.cols = B.cols) (v : Nat → K) (i : Nat) :
    (vstack A B).mulVec v (A.rows + i) = B.mulVec v i := by
  simp [mulVec, vstack, hc]

theorem vstackList_cols (c : Nat) (Ms : List (SpMat K)) : (vstackList c Ms).cols = c := by
  cases Ms <;> rfl

theorem vstackList_rows (c h : Nat) (Ms : List (SpMat K)) (hr : ∀ A ∈ Ms, A.rows = h) :
    (vstackList c Ms).rows = h * Ms.length := by
  induction Ms with
  | nil => simp [vstackList, zeros]
  | cons A Ms ih =>
    simp only [vstackList, List.length_cons]
    rw [ih fun B hB => hr B (List.mem_cons_of_mem _ hB), hr A (List.mem_cons_self)]; ring

theorem vstackList_mulVec {c h : Nat} (Ms : List (SpMat K)) (hr : ∀ A ∈ Ms, A.rows = h)
    (hcc : ∀ A ∈ Ms, A.cols = c) (v : Nat → K) {i : Nat} (hi : i < h) (k : Nat) (hk : k < Ms.length) :
    (vstackList c Ms).mulVec v (i + h * k) = Ms[k].mulVec v i := by
  induction Ms generalizing k with
  | nil => simp at hk
  | cons A Ms ih =>
    have hA : A.rows = h := hr A (List.mem_cons_self)
    cases k with
    | zero =>
      simp only [mulVec, vstackList, Nat.mul_zero, Nat.add_zero, hA, hi, if_true,
        List.getElem_cons_zero, hcc A List.mem_cons_self]
    | succ k =>
      have hlt : ¬ i + h * (k + 1) < h := by
        rw [Nat.mul_succ]; omega
      have he : i + h * (k + 1) - h = i + h * k := by rw [Nat.mul_succ]; omega
      have := ih (fun B hB => hr B (List.mem_cons_of_mem _ hB))
        (fun B hB => hcc B (List.mem_cons_of_mem _ hB)) k (by simpa using hk)
      simp only [List.getElem_cons_succ]
      rw [← this]
      simp only [mulVec, vstackList, hA, hlt, if_false, he, vstackList_cols]

theorem hstack_mulVec (A B : SpMat K) (v : Nat → K) (i : Nat) :
    (hstack A B).mulVec v i = A.mulVec v i + B.mulVec (fun j => v (A.cols + j)) i := by
  simp only [mulVec, hstack, Finset.sum_range_add]
  congr 1
  · exact Finset.sum_congr rfl fun j hj => by simp [Finset.mem_range.1 hj]
  · exact Finset.sum_congr rfl fun j hj => by simp

theorem flipCols_mulVec (A : SpMat K) (v : Nat → K) (i : Nat) :
    (flipCols A).mulVec v i = A.mulVec (fun j => v (A.cols - 1 - j)) i := by
  simp only [mulVec, flipCols]
  rw [← Finset.sum_range_reflect]
  refine Finset.sum_congr rfl fun j hj => ?_
  have hj := Finset.mem_range.1 hj
  rw [show A.cols - 1 - (A.cols - 1 - j) = j by omega]

/-- A sum over `range (k * n)`, block by block. -/
theorem sum_range_mul (k n : Nat) (f : Nat → K) :
    ∑ j ∈ range (k * n), f j = ∑ b ∈ range k, ∑ j ∈ range n, f (j + n * b) := by
  induction k with
  | zero => simp
  | succ k ih =>
    rw [Nat.succ_mul, Finset.sum_range_add, ih, Finset.sum_range_succ]
    congr 1
    exact Finset.sum_congr rfl fun j _ => by rw [Nat.mul_comm k n, Nat.add_comm]

theorem add_mul_div' {j n : Nat} (hj : j < n) (b : Nat) : (j + n * b) / n = b := by
  rw [Nat.add_mul_div_left _ _ (by omega), Nat.div_eq_of_lt hj, Nat.zero_add]

theorem add_mul_mod' {j n : Nat} (hj : j < n) (b : Nat) : (j + n * b) % n = j := by
  rw [Nat.add_mul_mod_self_left, Nat.mod_eq_of_lt hj]

theorem blockDiag_mulVec {A : SpMat K} {k i b : Nat} (hi : i < A.rows) (hb : b < k) (v : Nat → K) :
    (blockDiag k A).mulVec v (i + A.rows * b) = A.mulVec (fun j => v (j + A.cols * b)) i := by
  simp only [mulVec, blockDiag, sum_range_mul]
  rw [Finset.sum_eq_single_of_mem b (Finset.mem_range.2 hb)]
  · refine Finset.sum_congr rfl fun j hj => ?_
    have hj := Finset.mem_range.1 hj
    rw [add_mul_div' hi, add_mul_div' hj, add_mul_mod' hi, add_mul_mod' hj, if_pos rfl]
  · intro c _ hc
    refine Finset.sum_eq_zero fun j hj => ?_
    have hj := Finset.mem_range.1 hj
    rw [add_mul_div' hi, add_mul_div' hj, if_neg (Ne.symm hc), zero_mul]

theorem diags_mulVec {n i : Nat} (h : i < n) (d v : Nat → K) :
    (diags n d).mulVec v i = d i * v i := by
  simp [mulVec, diags, h]

theorem kronEye_mulVec (A : SpMat K) {n i r : Nat} (hi : i < n) (v : Nat → K) :
    (kronEye A n).mulVec v (i + n * r) = ∑ c ∈ range A.cols, A.ent r c * v (i + n * c) := by
  simp only [mulVec, kronEye, sum_range_mul]
  refine Finset.sum_congr rfl fun c _ => ?_
  rw [Finset.sum_eq_single_of_mem i (Finset.mem_range.2 hi)]
  · rw [add_mul_mod' hi, add_mul_mod' hi, if_pos rfl, add_mul_div' hi, add_mul_div' hi]
  · intro j hj hne
    rw [add_mul_mod' hi, add_mul_mod' (Finset.mem_range.1 hj), if_neg (Ne.symm hne), zero_mul]

/-- The action of a matrix given by its list of entries: the entries of the row, each times the
value in its column. -/
theorem coo_mulVec {r c : Nat} (l : List (Nat × Nat × K)) (hc : ∀ t ∈ l, t.2.1 < c) (v : Nat → K)
    (i : Nat) :
    (coo r c l).mulVec v i = ((l.filter fun t => t.1 = i).map fun t => t.2.2 * v t.2.1).sum := by
  induction l with
  | nil => simp [mulVec, coo]
  | cons t l ih =>
    have ih := ih fun s hs => hc s (List.mem_cons_of_mem _ hs)
    have ht := hc t List.mem_cons_self
    by_cases h : t.1 = i
    · rw [List.filter_cons_of_pos (by simpa using h), List.map_cons, List.sum_cons, ← ih]
      simp only [mulVec, coo]
      rw [← Finset.sum_erase_add _ _ (Finset.mem_range.2 ht)]
      conv_rhs => rw [← Finset.sum_erase_add _ _ (Finset.mem_range.2 ht)]
      have h1 : ∀ j ∈ (range c).erase t.2.1,
          ((List.filter (fun t => decide (t.1 = i ∧ t.2.1 = j)) (t :: l)).map fun t => t.2.2).sum * v j
            = ((List.filter (fun t => decide (t.1 = i ∧ t.2.1 = j)) l).map fun t => t.2.2).sum * v j := by
        intro j hj
        rw [List.filter_cons_of_neg]
        simp [(Finset.ne_of_mem_erase hj).symm]
      rw [Finset.sum_congr rfl h1, List.filter_cons_of_pos (by simp [h]), List.map_cons,
        List.sum_cons]
      ring
    · rw [List.filter_cons_of_neg (by simpa using h), ← ih]
      simp only [mulVec, coo]
      refine Finset.sum_congr rfl fun j _ => ?_
      rw [List.filter_cons_of_neg (by simp [h])]

end SpMat

end Verif.Cubic
