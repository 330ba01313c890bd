import Verif.Model.Opt

/-!
# Linear programs in the solver back ends (src/opt/opt.c, opt_glpk.c, opt_clp.cpp, opt_lpsolve.c)

A solver library is an object that holds a program, the documented effect of the calls on it, and an
arbitrary function that solves what it holds.  `none` is an abort (an error of GLPK, an exception of
CLP, a failed assertion).  Numbers are reals and extended reals; the libraries' own thresholds for
infinity (`1e20`, `1e27`, `1e30`) are left out, as are negative column indices.
-/

namespace Verif.Lp

open Verif.Opt

/-- include/amino/opt/opt.h:78-81 `enum aa_opt_direction`. -/
inductive Dir | max | min
  deriving DecidableEq

/-- include/amino/opt/opt.h:86-90 `enum aa_opt_type`. -/
inductive Kind | cont | bin | int
  deriving DecidableEq

/-- A loop `for( i = 0; i < k; i ++ )` that starts at `i`. -/
def loop {σ : Type} (f : Nat → σ → Option σ) : Nat → Nat → σ → Option σ
  | 0, _, s => some s
  | k + 1, i, s =>
    match f i s with
    | none => none
    | some s => loop f k (i + 1) s

/-- include/amino/math.h:339-348 `AA_MATREF`. -/
def matref (A : Nat → ℝ) (lda i j : Nat) : ℝ := A (j * lda + i)

/-- A matrix in compressed rows: the arguments `A_values`, `A_cols`, `A_row_ptr`. -/
structure Crs where
  val : Nat → ℝ
  col : Nat → Nat
  ptr : Nat → Nat

/-- The live contexts (`struct aa_opt_cx`) and problems of the solver library. -/
structure Heap where
  cx : Nat
  prob : Nat
  deriving DecidableEq

/-- src/opt/opt_internal.h:138-148 `cx_finish`, for a problem that exists. -/
def cxFinish (h : Heap) : Heap := { h with cx := h.cx + 1 }

/-- The library's constructors: `glp_create_prob`, `new ClpSimplex`, `make_lp`. -/
def newProb (h : Heap) : Heap := { h with prob := h.prob + 1 }

/-- src/opt/opt_glpk.c:90-101, opt_clp.cpp:71-81, opt_lpsolve.c:100-110 `s_destroy`. -/
def destroy (h : Heap) : Heap := ⟨h.cx - 1, h.prob - 1⟩

/-- A call on an existing context; the sizes are the ones of the program. -/
inductive Change
  /-- `aa_opt_set_direction` -/
  | dir (d : Dir)
  /-- `aa_opt_set_obj` -/
  | obj (c : Nat → ℝ)
  /-- `aa_opt_set_bnd` -/
  | bnd (xl xu : Nat → EReal)
  /-- `aa_opt_set_cstr_gm` -/
  | cstr (A : Nat → ℝ) (lda : Nat) (bl bu : Nat → EReal)
  /-- `aa_opt_set_type` -/
  | type (j : Nat) (k : Kind)

/-! ## GLPK -/

/-- A GLPK problem object; rows and columns count from 1. -/
structure Glp where
  nr : Nat
  nc : Nat
  dir : Dir
  obj : Nat → ℝ
  row : Nat → GlpType × EReal × EReal
  col : Nat → GlpType × EReal × EReal
  mat : Nat → Nat → ℝ
  isInt : Nat → Bool

/-- `glp_create_prob`. -/
noncomputable def glpCreate : Glp :=
  ⟨0, 0, .min, fun _ => 0, fun _ => (.fr, 0, 0), fun _ => (.fx, 0, 0), fun _ _ => 0, fun _ => false⟩

/-- `glp_set_obj_dir`. -/
def glpSetObjDir (P : Glp) (d : Dir) : Glp := { P with dir := d }

/-- `glp_add_rows`: an error unless a row is added.  New rows are free and empty. -/
def glpAddRows (P : Glp) (k : Nat) : Option Glp :=
  if 1 ≤ k then some { P with nr := P.nr + k } else none

/-- `glp_add_cols`: an error unless a column is added.  New columns are fixed at zero. -/
def glpAddCols (P : Glp) (k : Nat) : Option Glp :=
  if 1 ≤ k then some { P with nc := P.nc + k } else none

/-- `glp_set_obj_coef`; coefficient 0 is the constant term. -/
def glpSetObjCoef (P : Glp) (j : Nat) (v : ℝ) : Option Glp :=
  if j ≤ P.nc then some { P with obj := Function.update P.obj j v } else none

/-- `glp_set_col_bnds`. -/
def glpSetColBnds (P : Glp) (j : Nat) (b : GlpType × EReal × EReal) : Option Glp :=
  if 1 ≤ j ∧ j ≤ P.nc then some { P with col := Function.update P.col j b } else none

/-- `glp_set_row_bnds`. -/
def glpSetRowBnds (P : Glp) (i : Nat) (b : GlpType × EReal × EReal) : Option Glp :=
  if 1 ≤ i ∧ i ≤ P.nr then some { P with row := Function.update P.row i b } else none

/-- The indices `ind[1..len]` are between 1 and `n` and differ. -/
def GoodInd (n len : Nat) (ind : Nat → Nat) : Prop :=
  (∀ k, 1 ≤ k → k ≤ len → 1 ≤ ind k ∧ ind k ≤ n) ∧
    ∀ k k', 1 ≤ k → k ≤ len → 1 ≤ k' → k' ≤ len → ind k = ind k' → k = k'

/-- The vector with elements `val[1..len]` at the places `ind[1..len]`. -/
noncomputable def sparse (len : Nat) (ind : Nat → Nat) (val : Nat → ℝ) (c : Nat) : ℝ :=
  ∑ k ∈ Finset.Icc 1 len, if ind k = c then val k else 0

open Classical in
/-- `glp_set_mat_row`: replaces a row; an error for indices that do not exist or occur twice. -/
noncomputable def glpSetMatRow (P : Glp) (i len : Nat) (ind : Nat → Nat) (val : Nat → ℝ) :
    Option Glp :=
  if 1 ≤ i ∧ i ≤ P.nr ∧ len ≤ P.nc ∧ GoodInd P.nc len ind then
    some { P with mat := fun r c => if r = i then sparse len ind val c else P.mat r c }
  else none

open Classical in
/-- `glp_set_mat_col`. -/
noncomputable def glpSetMatCol (P : Glp) (j len : Nat) (ind : Nat → Nat) (val : Nat → ℝ) :
    Option Glp :=
  if 1 ≤ j ∧ j ≤ P.nc ∧ len ≤ P.nr ∧ GoodInd P.nr len ind then
    some { P with mat := fun r c => if c = j then sparse len ind val r else P.mat r c }
  else none

/-- `glp_set_col_kind`: a binary column is an integer one with the bounds 0 and 1. -/
noncomputable def glpSetColKind (P : Glp) (j : Nat) (k : Kind) : Option Glp :=
  if 1 ≤ j ∧ j ≤ P.nc then
    match k with
    | .cont => some { P with isInt := Function.update P.isInt j false }
    | .int => some { P with isInt := Function.update P.isInt j true }
    | .bin => some { P with isInt := Function.update P.isInt j true,
                            col := Function.update P.col j (.db, 0, 1) }
  else none

/-- src/opt/opt_glpk.c:182-191 `s_set_obj`. -/
def glpObj (n : Nat) (c : Nat → ℝ) (P : Glp) : Option Glp :=
  loop (fun j P => glpSetObjCoef P (j + 1) (c j)) n 0 P

/-- src/opt/opt_glpk.c:193-205 `s_set_bnd`. -/
noncomputable def glpBnd (n : Nat) (xl xu : Nat → EReal) (P : Glp) : Option Glp :=
  loop (fun j P => (boundsType (xl j) (xu j)).bind fun t => glpSetColBnds P (j + 1) (t, xl j, xu j))
    n 0 P

/-- src/opt/opt_glpk.c:207-219 `s_set_cstr_bnd`. -/
noncomputable def glpCstrBnd (m : Nat) (bl bu : Nat → EReal) (P : Glp) : Option Glp :=
  loop (fun i P => (boundsType (bl i) (bu i)).bind fun t => glpSetRowBnds P (i + 1) (t, bl i, bu i))
    m 0 P

/-- src/opt/opt_glpk.c:221-236 `s_set_cstr_mat_gm`: `rows[i]` is `i+1`; the library reads both arrays
from index 1 and gets pointers to one element before them. -/
noncomputable def glpMatGm (m n : Nat) (A : Nat → ℝ) (lda : Nat) (P : Glp) : Option Glp :=
  loop (fun j P => glpSetMatCol P (j + 1) m (fun k => (k - 1) + 1) (fun k => matref A lda (k - 1) j))
    n 0 P

/-- src/opt/opt_glpk.c:240-249 `s_set_cstr_gm`. -/
noncomputable def glpCstrGm (m n : Nat) (A : Nat → ℝ) (lda : Nat) (bl bu : Nat → EReal) (P : Glp) :
    Option Glp :=
  (glpMatGm m n A lda P).bind (glpCstrBnd m bl bu)

/-- src/opt/opt_glpk.c:263-297 `s_init`. -/
noncomputable def glpInit (h : Heap) (m n : Nat) (bl bu : Nat → EReal) (c : Nat → ℝ)
    (xl xu : Nat → EReal) : Option (Heap × Glp) :=
  let P := glpCreate
  let h := cxFinish (newProb h)
  let P := glpSetObjDir P .max
  ((((glpAddRows P m).bind fun P => glpAddCols P n).bind (glpCstrBnd m bl bu)).bind
    (glpBnd n xl xu)).bind (glpObj n c) |>.map fun P => (h, P)

/-- src/opt/opt_glpk.c:299-316 `aa_opt_glpk_gmcreate`. -/
noncomputable def glpGm (h : Heap) (m n : Nat) (A : Nat → ℝ) (lda : Nat) (bl bu : Nat → EReal)
    (c : Nat → ℝ) (xl xu : Nat → EReal) : Option (Heap × Glp) :=
  (glpInit h m n bl bu c xl xu).bind fun r => (glpMatGm m n A lda r.2).map fun P => (r.1, P)

/-- The loop of `aa_opt_glpk_crscreate` (src/opt/opt_glpk.c:336-347).  A negative size of the array
`inds` is undefined. -/
noncomputable def glpMatCrs (m : Nat) (C : Crs) (P : Glp) : Option Glp :=
  loop (fun i P =>
    if C.ptr (i + 1) < C.ptr i then none
    else glpSetMatRow P (i + 1) (C.ptr (i + 1) - C.ptr i) (fun k => C.col (C.ptr i + (k - 1)) + 1)
      (fun k => C.val (C.ptr i + (k - 1)))) m 0 P

/-- src/opt/opt_glpk.c:319-351 `aa_opt_glpk_crscreate`: it makes a second context and forgets the
first. -/
noncomputable def glpCrs (h : Heap) (m n : Nat) (C : Crs) (bl bu : Nat → EReal)
    (c : Nat → ℝ) (xl xu : Nat → EReal) : Option (Heap × Glp) :=
  (glpInit h m n bl bu c xl xu).bind fun r => (glpMatCrs m C r.2).map fun P => (cxFinish r.1, P)

/-- src/opt/opt_glpk.c:104-205 `s_set_direction`, `s_set_type`, `s_set_obj`, `s_set_bnd`,
`s_set_cstr_gm`: the result and the problem. -/
noncomputable def glpChange (m n : Nat) (P : Glp) : Change → Option (Int × Glp)
  | .dir d => some (0, glpSetObjDir P d)
  | .obj c => (glpObj n c P).map fun P => (0, P)
  | .bnd xl xu => (glpBnd n xl xu P).map fun P => (0, P)
  | .cstr A lda bl bu => (glpCstrGm m n A lda bl bu P).map fun P => (0, P)
  | .type j k => (glpSetColKind P (j + 1) k).map fun P => (0, P)

/-- What a solver call of GLPK gives: the return value, whether the status is `GLP_OPT`, and the
values of the columns. -/
structure GlpRes where
  ret : Int
  opt : Bool
  x : Nat → ℝ

/-- The solver calls: `glp_simplex` and, after it, `glp_intopt`. -/
structure GlpLib where
  simplex : Glp → GlpRes
  intopt : Glp → GlpRes

/-- src/opt/opt_glpk.c:54-88 `s_solve`: the result and the vector. -/
def glpSolve (L : GlpLib) (P : Glp) (n : Nat) (x : Nat → ℝ) : Int × (Nat → ℝ) :=
  let r := if ∃ j, j < P.nc ∧ P.isInt (j + 1) = true then L.intopt P else L.simplex P
  (r.ret, fun j => if j < n then r.x (j + 1) else x j)

/-- src/opt/opt_glpk.c:376-395 `aa_opt_lp_glpk`. -/
noncomputable def lpGlpk (L : GlpLib) (h : Heap) (m n : Nat) (A : Nat → ℝ) (lda : Nat)
    (bl bu : Nat → EReal) (c : Nat → ℝ) (xl xu : Nat → EReal) (x : Nat → ℝ) :
    Option (Heap × Int × (Nat → ℝ)) :=
  (glpGm h m n A lda bl bu c xl xu).map fun r => (destroy r.1, glpSolve L r.2 n x)

/-- src/opt/opt_glpk.c:355-373 `aa_opt_lp_crs_glpk`. -/
noncomputable def lpCrsGlpk (L : GlpLib) (h : Heap) (m n : Nat) (C : Crs)
    (bl bu : Nat → EReal) (c : Nat → ℝ) (xl xu : Nat → EReal) (x : Nat → ℝ) :
    Option (Heap × Int × (Nat → ℝ)) :=
  (glpCrs h m n C bl bu c xl xu).map fun r => (destroy r.1, glpSolve L r.2 n x)

/-! ## CLP -/

/-- A CLP model; rows and columns count from 0. -/
structure Clp where
  nr : Nat
  nc : Nat
  dir : Dir
  obj : Nat → ℝ
  row : Nat → EReal × EReal
  col : Nat → EReal × EReal
  mat : Nat → Nat → ℝ

/-- `new ClpSimplex()` and `resize`: free rows; columns from zero up. -/
noncomputable def clpCreate (nr nc : Nat) : Clp :=
  ⟨nr, nc, .min, fun _ => 0, fun _ => (((-dblMax : ℝ) : EReal), ((dblMax : ℝ) : EReal)),
    fun _ => (0, ((dblMax : ℝ) : EReal)), fun _ _ => 0⟩

/-- `setOptimizationDirection`: -1 maximizes, 1 minimizes. -/
def clpSetDir (P : Clp) (v : Int) : Clp := { P with dir := if v = -1 then .max else .min }

/-- `setObjectiveCoefficient`. -/
def clpSetObjCoef (P : Clp) (j : Nat) (v : ℝ) : Option Clp :=
  if j < P.nc then some { P with obj := Function.update P.obj j v } else none

/-- `setColumnBounds`. -/
def clpSetColBounds (P : Clp) (j : Nat) (b : EReal × EReal) : Option Clp :=
  if j < P.nc then some { P with col := Function.update P.col j b } else none

/-- `setRowBounds`. -/
def clpSetRowBounds (P : Clp) (i : Nat) (b : EReal × EReal) : Option Clp :=
  if i < P.nr then some { P with row := Function.update P.row i b } else none

/-- `modifyCoefficient`. -/
def clpModify (P : Clp) (i j : Nat) (v : ℝ) : Option Clp :=
  if i < P.nr ∧ j < P.nc then
    some { P with mat := fun r c => if r = i ∧ c = j then v else P.mat r c }
  else none

open Classical in
/-- `addColumn`: the elements `val` at the rows `ind`. -/
noncomputable def clpAddColumn (P : Clp) (len : Nat) (ind : Nat → Nat) (val : Nat → ℝ)
    (l u : EReal) (c : ℝ) : Option Clp :=
  if (∀ k, k < len → ind k < P.nr) ∧ ∀ k k', k < len → k' < len → ind k = ind k' → k = k' then
    some ⟨P.nr, P.nc + 1, P.dir, Function.update P.obj P.nc c, P.row,
      Function.update P.col P.nc (l, u),
      fun i j => if j = P.nc then ∑ k ∈ Finset.range len, if ind k = i then val k else 0
        else P.mat i j⟩
  else none

open Classical in
/-- `addRow`. -/
noncomputable def clpAddRow (P : Clp) (len : Nat) (ind : Nat → Nat) (val : Nat → ℝ) (l u : EReal) :
    Option Clp :=
  if (∀ k, k < len → ind k < P.nc) ∧ ∀ k k', k < len → k' < len → ind k = ind k' → k = k' then
    some ⟨P.nr + 1, P.nc, P.dir, P.obj, Function.update P.row P.nr (l, u), P.col,
      fun i j => if i = P.nr then ∑ k ∈ Finset.range len, if ind k = j then val k else 0
        else P.mat i j⟩
  else none

/-- `chgColumnLower`, `chgColumnUpper`, `chgObjCoefficients`. -/
def clpChg (P : Clp) (xl xu : Nat → EReal) (c : Nat → ℝ) : Clp :=
  { P with col := fun j => if j < P.nc then (xl j, xu j) else P.col j,
           obj := fun j => if j < P.nc then c j else P.obj j }

/-- src/opt/opt_clp.cpp:143-152 `s_set_obj`. -/
def clpObj (n : Nat) (c : Nat → ℝ) (P : Clp) : Option Clp :=
  loop (fun j P => clpSetObjCoef P j (c j)) n 0 P

/-- src/opt/opt_clp.cpp:154-168 `s_set_bnd`. -/
noncomputable def clpBnd (n : Nat) (xl xu : Nat → EReal) (P : Clp) : Option Clp :=
  loop (fun j P => clpSetColBounds P j (clpBounds (xl j) (xu j))) n 0 P

/-- src/opt/opt_clp.cpp:186-200 `s_set_cstr_bnd`. -/
noncomputable def clpCstrBnd (m : Nat) (bl bu : Nat → EReal) (P : Clp) : Option Clp :=
  loop (fun i P => clpSetRowBounds P i (clpBounds (bl i) (bu i))) m 0 P

/-- src/opt/opt_clp.cpp:170-184 `s_set_cstr_mat_gm`. -/
def clpMatGm (m n : Nat) (A : Nat → ℝ) (lda : Nat) (P : Clp) : Option Clp :=
  loop (fun j P => loop (fun i P => clpModify P i j (matref A lda i j)) m 0 P) n 0 P

/-- src/opt/opt_clp.cpp:265-307 `aa_opt_clp_gmcreate`. -/
noncomputable def clpGm (h : Heap) (m n : Nat) (A : Nat → ℝ) (lda : Nat) (bl bu : Nat → EReal)
    (c : Nat → ℝ) (xl xu : Nat → EReal) : Option (Heap × Clp) :=
  let h := cxFinish (newProb h)
  ((((loop (fun j P => clpAddColumn P m (fun i => i) (fun i => matref A lda i j) (xl j) (xu j) (c j))
    n 0 (clpCreate m 0)).bind (clpBnd n xl xu)).bind (clpObj n c)).bind (clpCstrBnd m bl bu)).map
    fun P => (h, clpSetDir P (-1))

/-- src/opt/opt_clp.cpp:310-345 `aa_opt_clp_crscreate`. -/
noncomputable def clpCrs (h : Heap) (m n : Nat) (C : Crs) (bl bu : Nat → EReal)
    (c : Nat → ℝ) (xl xu : Nat → EReal) : Option (Heap × Clp) :=
  (loop (fun i P =>
    if C.ptr (i + 1) < C.ptr i then none
    else clpAddRow P (C.ptr (i + 1) - C.ptr i) (fun k => C.col (C.ptr i + k))
      (fun k => C.val (C.ptr i + k)) (bl i) (bu i)) m 0 (clpCreate 0 n)).map
    fun P => (cxFinish (newProb h), clpSetDir (clpChg P xl xu c) (-1))

/-- src/opt/opt_clp.cpp:84-211 `s_set_direction`, `s_set_type`, `s_set_obj`, `s_set_bnd`,
`s_set_cstr_gm`. -/
noncomputable def clpChange (m n : Nat) (P : Clp) : Change → Option (Int × Clp)
  | .dir .max => some (0, clpSetDir P (-1))
  | .dir .min => some (0, clpSetDir P 1)
  | .obj c => (clpObj n c P).map fun P => (0, P)
  | .bnd xl xu => (clpBnd n xl xu P).map fun P => (0, P)
  | .cstr A lda bl bu => ((clpMatGm m n A lda P).bind (clpCstrBnd m bl bu)).map fun P => (0, P)
  | .type _ _ => some (-1, P)

/-- `initialSolve` and `getColSolution`, or an exception. -/
abbrev ClpLib := Clp → Option (Int × (Nat → ℝ))

/-- src/opt/opt_clp.cpp:49-70 `s_solve`. -/
def clpSolve (L : ClpLib) (P : Clp) (n : Nat) (x : Nat → ℝ) : Int × (Nat → ℝ) :=
  match L P with
  | none => (-1, x)
  | some r => (r.1, fun j => if j < n then r.2 j else x j)

/-- src/opt/opt_clp.cpp:350-368 `aa_opt_lp_clp`. -/
noncomputable def lpClp (L : ClpLib) (h : Heap) (m n : Nat) (A : Nat → ℝ) (lda : Nat)
    (bl bu : Nat → EReal) (c : Nat → ℝ) (xl xu : Nat → EReal) (x : Nat → ℝ) :
    Option (Heap × Int × (Nat → ℝ)) :=
  (clpGm h m n A lda bl bu c xl xu).map fun r => (destroy r.1, clpSolve L r.2 n x)

/-- src/opt/opt_clp.cpp:370-387 `aa_opt_lp_crs_clp`. -/
noncomputable def lpCrsClp (L : ClpLib) (h : Heap) (m n : Nat) (C : Crs)
    (bl bu : Nat → EReal) (c : Nat → ℝ) (xl xu : Nat → EReal) (x : Nat → ℝ) :
    Option (Heap × Int × (Nat → ℝ)) :=
  (clpCrs h m n C bl bu c xl xu).map fun r => (destroy r.1, clpSolve L r.2 n x)

/-! ## LP-Solve -/

/-- An LP-Solve problem.  Columns count from 1 in the library and from 0 here. -/
structure Lps where
  nc : Nat
  dir : Dir
  obj : Nat → ℝ
  rows : List LpRow
  col : Nat → EReal × EReal

/-- `set_obj`. -/
def lpsSetObj (P : Lps) (j : Nat) (v : ℝ) : Lps :=
  if 1 ≤ j ∧ j ≤ P.nc then { P with obj := Function.update P.obj (j - 1) v } else P

/-- `set_bounds`. -/
def lpsSetBounds (P : Lps) (j : Nat) (l u : EReal) : Lps :=
  if 1 ≤ j ∧ j ≤ P.nc then { P with col := Function.update P.col (j - 1) (l, u) } else P

/-- src/opt/opt_lpsolve.c:162-170 `s_set_obj`, and 301-304 in `s_finish`. -/
def lpsObj (n : Nat) (c : Nat → ℝ) (P : Lps) : Option Lps :=
  loop (fun j P => some (lpsSetObj P (1 + j) (c j))) n 0 P

/-- src/opt/opt_lpsolve.c:172-181 `s_set_bnd`, and 306-309 in `s_finish`. -/
def lpsBnd (n : Nat) (xl xu : Nat → EReal) (P : Lps) : Option Lps :=
  loop (fun j P => some (lpsSetBounds P (1 + j) (xl j) (xu j))) n 0 P

/-- src/opt/opt_lpsolve.c:218-279 `s_set_cstr_gm`. -/
noncomputable def lpsCstr (m : Nat) (A : Nat → ℝ) (lda : Nat) (bl bu : Nat → EReal) (P : Lps) :
    Option (Int × Lps) :=
  match setCstr (fun i j => matref A lda i j) bl bu (countRows bl bu m 0) m 0 1 P.rows with
  | .ok rows => some (0, { P with rows := rows })
  | .err rows => some (-1, { P with rows := rows })
  | .abort => none

/-- src/opt/opt_lpsolve.c:293-312 `s_finish`. -/
def lpsFinish (h : Heap) (n : Nat) (c : Nat → ℝ) (xl xu : Nat → EReal) (P : Lps) :
    Option (Heap × Lps) :=
  ((lpsObj n c P).bind (lpsBnd n xl xu)).map fun P => (cxFinish h, P)

/-- src/opt/opt_lpsolve.c:315-351 `aa_opt_lpsolve_gmcreate`, if `make_lp` succeeds: it makes a second
context and forgets the first. -/
noncomputable def lpsGm (h : Heap) (m n : Nat) (A : Nat → ℝ) (lda : Nat) (bl bu : Nat → EReal)
    (c : Nat → ℝ) (xl xu : Nat → EReal) : Option (Heap × Lps) :=
  let P : Lps := ⟨n, .max, fun _ => 0,
    List.replicate (countRows bl bu m 0) ⟨fun _ => 0, .le, 0⟩, fun _ => (0, ⊤)⟩
  let h := cxFinish (newProb h)
  (((lpsBnd n xl xu P).bind (lpsObj n c)).bind (lpsCstr m A lda bl bu)).bind
    fun r => lpsFinish h n c xl xu r.2

/-- The row that `add_constraintex` gets from `aa_opt_lpsolve_crscreate`. -/
noncomputable def crsRow (C : Crs) (i j : Nat) : ℝ :=
  ∑ k ∈ Finset.range (C.ptr (i + 1) - C.ptr i),
    if C.col (C.ptr i + k) + 1 = j + 1 then C.val (C.ptr i + k) else 0

open Classical in
/-- src/opt/opt_lpsolve.c:354-413 `aa_opt_lpsolve_crscreate`, if `make_lp` succeeds; not modelled for
rows of negative length or with columns that do not exist. -/
noncomputable def lpsCrs (h : Heap) (m n : Nat) (C : Crs) (bl bu : Nat → EReal)
    (c : Nat → ℝ) (xl xu : Nat → EReal) : Option (Heap × Lps) :=
  if ∀ i, i < m → C.ptr i ≤ C.ptr (i + 1) ∧ ∀ k, C.ptr i ≤ k → k < C.ptr (i + 1) → C.col k < n then
    lpsFinish (newProb h) n c xl xu
      ⟨n, .max, fun _ => 0, lpsolveCrs (crsRow C) bl bu m 0, fun _ => (0, ⊤)⟩
  else none

/-- src/opt/opt_lpsolve.c:112-181, 218-279: the calls on a context.  `s_set_type` is not modelled. -/
noncomputable def lpsChange (m n : Nat) (P : Lps) : Change → Option (Int × Lps)
  | .dir d => some (0, { P with dir := d })
  | .obj c => (lpsObj n c P).map fun P => (0, P)
  | .bnd xl xu => (lpsBnd n xl xu P).map fun P => (0, P)
  | .cstr A lda bl bu => lpsCstr m A lda bl bu P
  | .type _ _ => none

/-- `solve` and `get_variables`. -/
abbrev LpsLib := Lps → Int × (Nat → ℝ)

/-- src/opt/opt_lpsolve.c:86-98 `s_solve`.  `get_variables` writes all columns. -/
def lpsSolve (L : LpsLib) (P : Lps) (n : Nat) (x : Nat → ℝ) : Option (Int × (Nat → ℝ)) :=
  if n = P.nc then some ((L P).1, fun j => if j < P.nc then (L P).2 j else x j) else none

/-- src/opt/opt_lpsolve.c:45-65 `aa_opt_lp_lpsolve`. -/
noncomputable def lpLpsolve (L : LpsLib) (h : Heap) (m n : Nat) (A : Nat → ℝ) (lda : Nat)
    (bl bu : Nat → EReal) (c : Nat → ℝ) (xl xu : Nat → EReal) (x : Nat → ℝ) :
    Option (Heap × Int × (Nat → ℝ)) :=
  (lpsGm h m n A lda bl bu c xl xu).bind fun r =>
    (lpsSolve L r.2 n x).map fun s => (destroy r.1, s)

/-- src/opt/opt_lpsolve.c:67-84 `aa_opt_lp_crs_lpsolve`. -/
noncomputable def lpCrsLpsolve (L : LpsLib) (h : Heap) (m n : Nat) (C : Crs)
    (bl bu : Nat → EReal) (c : Nat → ℝ) (xl xu : Nat → EReal) (x : Nat → ℝ) :
    Option (Heap × Int × (Nat → ℝ)) :=
  (lpsCrs h m n C bl bu c xl xu).bind fun r =>
    (lpsSolve L r.2 n x).map fun s => (destroy r.1, s)

end Verif.Lp
