import Verif.Fdfd.Cells
/-
Model of `spins/fdfd_tools/functional.py`. A field component is an array over the cells of the grid.
-/
namespace Verif.Fdfd

abbrev Arr (sh : Shape) := Cell sh → ℂ
/-- `field_t`: three arrays. -/
abbrev FieldT (sh : Shape) := Fin 3 → Arr sh

/-- `np.roll(f, shift, axis=ax)`: element `i` moves to `(i + shift) mod n`. -/
def npRoll {sh : Shape} (f : Arr sh) (shift : Int) (ax : Fin 3) : Arr sh := fun c =>
  f (fun b => if b = ax then
      ⟨(((c b).val - shift) % (sh b : Int)).toNat, by
        have hb : 0 < sh b := Nat.lt_of_le_of_lt (Nat.zero_le _) (c b).isLt
        have h1 := Int.emod_nonneg (((c b).val : Int) - shift) (b := (sh b : Int)) (by omega)
        have h2 := Int.emod_lt_of_pos (((c b).val : Int) - shift) (b := (sh b : Int)) (by omega)
        omega⟩
    else c b)

variable {sh : Shape}

/-- `dh` of `curl_h` (30-31), with `dxyz_b` the meshgrid of `dxes[1]`. -/
noncomputable def fnDh (d : Dxes) (f : Arr sh) (ax : Fin 3) : Arr sh := fun c =>
  (f c - npRoll f 1 ax c) / d.h ax (c ax)

/-- `curl_h` (21-42). -/
noncomputable def fnCurlH (d : Dxes) (h : FieldT sh) : FieldT sh :=
  ![fnDh d (h 2) 1 - fnDh d (h 1) 2, fnDh d (h 0) 2 - fnDh d (h 2) 0, fnDh d (h 1) 0 - fnDh d (h 0) 1]

/-- `de` of `curl_e` (54-55). -/
noncomputable def fnDe (d : Dxes) (f : Arr sh) (ax : Fin 3) : Arr sh := fun c =>
  (npRoll f (-1) ax c - f c) / d.e ax (c ax)

/-- `curl_e` (45-66). -/
noncomputable def fnCurlE (d : Dxes) (e : FieldT sh) : FieldT sh :=
  ![fnDe d (e 2) 1 - fnDe d (e 1) 2, fnDe d (e 0) 2 - fnDe d (e 2) 0, fnDe d (e 1) 0 - fnDe d (e 0) 1]

/-- `e_full` (69-100): `op_1` without `mu`, `op_mu` with it. -/
noncomputable def fnEFull (omega : ℂ) (d : Dxes) (epsilon : FieldT sh) (mu : Option (FieldT sh))
    (e : FieldT sh) : FieldT sh :=
  match mu with
  | none =>
    let curls := fnCurlH d (fnCurlE d e)
    fun a c => curls a c - omega ^ 2 * epsilon a c * e a c
  | some m =>
    let curls := fnCurlH d (fun a c => m a c * fnCurlE d e a c)
    fun a c => curls a c - omega ^ 2 * epsilon a c * e a c

/-- `eh_full` (103-131). -/
noncomputable def fnEhFull (omega : ℂ) (d : Dxes) (epsilon : FieldT sh) (mu : Option (FieldT sh))
    (e h : FieldT sh) : FieldT sh × FieldT sh :=
  match mu with
  | none =>
    (fun a c => fnCurlH d h a c - Complex.I * omega * epsilon a c * e a c,
     fun a c => fnCurlE d e a c + Complex.I * omega * h a c)
  | some m =>
    (fun a c => fnCurlH d h a c - Complex.I * omega * epsilon a c * e a c,
     fun a c => fnCurlE d e a c + Complex.I * omega * m a c * h a c)

/-- `e2h` (134-161). -/
noncomputable def fnE2h (omega : ℂ) (d : Dxes) (mu : Option (FieldT sh)) (e : FieldT sh) : FieldT sh :=
  match mu with
  | none => fun a c => fnCurlE d e a c / (-Complex.I * omega)
  | some m => fun a c => fnCurlE d e a c / (-Complex.I * omega * m a c)

end Verif.Fdfd
