import Mathlib.Data.EReal.Basic
import Mathlib.Data.EReal.Operations
import Mathlib.Analysis.SpecialFunctions.Pow.Real

/-!
# Linear-program bounds (src/opt/opt_internal.h, opt_glpk.c, opt_clp.cpp, opt_lpsolve.c)

A bound is an extended real (`EReal`): a double that is not NaN, without rounding.  The solver
libraries are not modelled; what they are told is, together with the documented meaning of it.
-/

namespace Verif.Opt

/-- `DBL_MAX`. -/
noncomputable def dblMax : ℝ := 2 ^ 1024 - 2 ^ 971

/-- `aa_isfinite` (opt_internal.h 49-72). -/
def isFinite (l : EReal) : Prop := l ≠ ⊥ ∧ l ≠ ⊤

/-- `aa_opt_is_lbound` (opt_internal.h 75-79). -/
def isLb (l : EReal) : Prop := ((-dblMax : ℝ) : EReal) < l ∧ isFinite l

/-- `aa_opt_is_ubound` (opt_internal.h 81-85). -/
def isUb (u : EReal) : Prop := ((dblMax : ℝ) : EReal) > u ∧ isFinite u

/-- `aa_feq(l,u,0)` (math.h 114-116; opt_internal.h 43-47), that is `fabs(l-u) <= 0`.  The
difference of equal infinities is NaN, so they do not compare equal; the difference of other
doubles is zero only if they are equal. -/
def isEq (l u : EReal) : Prop := isFinite l ∧ l = u

/-! ## GLPK (opt_glpk.c) -/

/-- GLPK bound types. -/
inductive GlpType | fr | lo | up | db | fx
  deriving DecidableEq

open Classical in
/-- `bounds_type` (opt_glpk.c 155-177).  `none` is a failed assertion. -/
noncomputable def boundsType (l u : EReal) : Option GlpType :=
  if isEq l u then some .fx
  else if ¬ isLb l ∧ isUb u then if u < ((dblMax : ℝ) : EReal) then some .up else none
  else if isLb l ∧ ¬ isUb u then if l > ((-dblMax : ℝ) : EReal) then some .lo else none
  else if isLb l ∧ isUb u then
    if u < ((dblMax : ℝ) : EReal) ∧ l > ((-dblMax : ℝ) : EReal) then some .db else none
  else if ¬ isLb l ∧ ¬ isUb u then some .fr
  else none

/-- The values that GLPK allows a row or column with these bounds (documentation of
`glp_set_row_bnds` and `glp_set_col_bnds`: a fixed one is fixed at `lb`). -/
def glpAllows (t : GlpType) (l u : EReal) (x : ℝ) : Prop :=
  match t with
  | .fr => True
  | .lo => l ≤ x
  | .up => (x : EReal) ≤ u
  | .db => l ≤ x ∧ (x : EReal) ≤ u
  | .fx => (x : EReal) = l

/-- The loop of `s_set_bnd` and `s_set_cstr_bnd` (opt_glpk.c 193-219): the bounds of the columns or
rows from `j` on; `bnd` holds what GLPK knows. -/
noncomputable def glpSetBnd (lower upper : Nat → EReal) : Nat → Nat →
    (Nat → GlpType × EReal × EReal) → Option (Nat → GlpType × EReal × EReal)
  | 0, _, bnd => some bnd
  | n + 1, j, bnd =>
    match boundsType (lower j) (upper j) with
    | none => none
    | some t => glpSetBnd lower upper n (j + 1) (Function.update bnd j (t, lower j, upper j))

/-! ## CLP (opt_clp.cpp) -/

open Classical in
/-- The arguments of `setColumnBounds`, `setRowBounds` in `s_set_bnd`, `s_set_cstr_bnd`
(opt_clp.cpp 154-168, 186-200). -/
noncomputable def clpBounds (lo hi : EReal) : EReal × EReal :=
  (if isFinite lo then lo else ((-dblMax : ℝ) : EReal),
   if isFinite hi then hi else ((dblMax : ℝ) : EReal))

/-- The values that CLP allows: `-COIN_DBL_MAX` and `COIN_DBL_MAX` (and anything beyond) are its
infinities. -/
def clpAllows (b : EReal × EReal) (x : ℝ) : Prop :=
  (((-dblMax : ℝ) : EReal) < b.1 → b.1 ≤ x) ∧ (b.2 < ((dblMax : ℝ) : EReal) → (x : EReal) ≤ b.2)

/-- The loop of `s_set_bnd` and `s_set_cstr_bnd` (opt_clp.cpp 154-168, 186-200). -/
noncomputable def clpSetBnd (lower upper : Nat → EReal) : Nat → Nat →
    (Nat → EReal × EReal) → Nat → EReal × EReal
  | 0, _, bnd => bnd
  | n + 1, j, bnd =>
    clpSetBnd lower upper n (j + 1) (Function.update bnd j (clpBounds (lower j) (upper j)))

/-- Bounds passed on as they are, meaning an interval of the extended reals: `chgColumnLower`,
`chgColumnUpper`, `addRow` in `aa_opt_clp_crscreate` (opt_clp.cpp 310-345) and `set_bounds` in
`s_set_bnd`, `s_finish` (opt_lpsolve.c 172-181, 293-312). -/
def rawAllows (l u : EReal) (x : ℝ) : Prop := l ≤ x ∧ (x : EReal) ≤ u

/-! ## LP-Solve (opt_lpsolve.c) -/

/-- Constraint types of LP-Solve (`FR` is 0). -/
inductive LpType | fr | le | ge | eq
  deriving DecidableEq

/-- A row of an LP-Solve problem: coefficients, type, right-hand side. -/
structure LpRow where
  coef : Nat → ℝ
  type : LpType
  rh : EReal

/-- The value of a row. -/
def rowVal (n : Nat) (coef x : Nat → ℝ) : ℝ := ∑ j ∈ Finset.range n, coef j * x j

/-- The points a row allows. -/
def LpRow.Allows (n : Nat) (r : LpRow) (x : Nat → ℝ) : Prop :=
  match r.type with
  | .fr => True
  | .le => (rowVal n r.coef x : EReal) ≤ r.rh
  | .ge => r.rh ≤ rowVal n r.coef x
  | .eq => (rowVal n r.coef x : EReal) = r.rh

open Classical in
/-- `s_count_rows` (opt_lpsolve.c 183-200). -/
noncomputable def countRows (lower upper : Nat → EReal) : Nat → Nat → Nat
  | 0, _ => 0
  | m + 1, i =>
    (if ¬ isLb (lower i) ∧ ¬ isUb (upper i) then 0
      else if isLb (lower i) ∧ isUb (upper i) then 2 else 1) + countRows lower upper m (i + 1)

/-- `s_set_row` (opt_lpsolve.c 202-215): row `ilp` counts from 1.  `set_constr_type` fails for a
row that does not exist. -/
def setRow (rows : List LpRow) (t : LpType) (coef : Nat → ℝ) (ilp : Nat) (val : EReal) :
    Option (List LpRow) :=
  if 1 ≤ ilp ∧ ilp ≤ rows.length then some (rows.set (ilp - 1) ⟨coef, t, val⟩) else none

/-- Outcome of `s_set_cstr_gm`: success, the error code, or a failed assertion, with the rows. -/
inductive LpOut
  | ok (rows : List LpRow)
  | err (rows : List LpRow)
  | abort

open Classical in
/-- The loop of `s_set_cstr_gm` (opt_lpsolve.c 218-279); `A i j` is row `i` of the matrix and
`count` the count of rows computed before. -/
noncomputable def setCstr (A : Nat → Nat → ℝ) (lower upper : Nat → EReal) (count : Nat) :
    Nat → Nat → Nat → List LpRow → LpOut
  | 0, _, ilp, rows => if ilp = count + 1 then .ok rows else .abort
  | m + 1, i, ilp, rows =>
    let l := lower i
    let u := upper i
    let finish (t : LpType) (rh : EReal) (ilp : Nat) (rows : List LpRow) : LpOut :=
      match setRow rows t (A i) ilp rh with
      | none => .err rows
      | some rows => setCstr A lower upper count m (i + 1) (ilp + 1) rows
    if ¬ isLb l ∧ ¬ isUb u then finish .fr 0 ilp rows
    else if isEq l u then finish .eq u ilp rows
    else if ¬ isLb l ∧ isUb u then finish .le u ilp rows
    else if isLb l ∧ ¬ isUb u then finish .ge l ilp rows
    else
      match setRow rows .le (A i) ilp u with
      | none => .err rows
      | some rows => finish .ge l (ilp + 1) rows

/-- The constraint rows after `aa_opt_lpsolve_gmcreate` (opt_lpsolve.c 315-351).  `make_lp` starts
with zero rows; the error code is ignored. -/
noncomputable def lpsolveGm (m : Nat) (A : Nat → Nat → ℝ) (lower upper : Nat → EReal) :
    Option (List LpRow) :=
  let count := countRows lower upper m 0
  match setCstr A lower upper count m 0 1 (List.replicate count ⟨fun _ => 0, .le, 0⟩) with
  | .ok rows => some rows
  | .err rows => some rows
  | .abort => none

open Classical in
/-- The rows that `aa_opt_lpsolve_crscreate` adds (opt_lpsolve.c 354-413); `A i` is the row that
the compressed storage stands for. -/
noncomputable def lpsolveCrs (A : Nat → Nat → ℝ) (lower upper : Nat → EReal) :
    Nat → Nat → List LpRow
  | 0, _ => []
  | m + 1, i =>
    let l := lower i
    let u := upper i
    (if isEq l u then [⟨A i, .eq, u⟩]
     else if ¬ isLb l ∧ isUb u then [⟨A i, .le, u⟩]
     else if isLb l ∧ ¬ isUb u then [⟨A i, .ge, l⟩]
     else [⟨A i, .le, u⟩, ⟨A i, .ge, l⟩]) ++ lpsolveCrs A lower upper m (i + 1)

end Verif.Opt
