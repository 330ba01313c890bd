/-
Linear programs from symbolic constraints: `lp` of lisp/opt/opt-matrix.lisp, with
lisp/opt/opt-symbolic.lisp and lisp/sparse.lisp below it.

Simplified: numbers are the elements of an ordered field, `big` is `most-positive-double-float`.  The tree
maps and sets of variables are sorted lists.  The map from terms to constraints is a list whose order (that
of the rows of the matrix) is not modelled: a changed constraint moves to the end.  Vectors are functions.
`none` stands for a signalled error (failed assertion, type error, division by zero).
-/
import Mathlib.Algebra.Order.Field.Basic
import Mathlib.Data.List.Basic
import Mathlib.Logic.Function.Basic

namespace Verif.OptExp

/-- The relations of constraints. -/
inductive Rel | le | ge | eq
deriving DecidableEq

/-- A constraint `(rel (+ (* f v) …) rhs)` (lisp/opt/opt-symbolic.lisp:45-51 and 60-70). -/
structure Cstr (V K : Type) where
  rel : Rel
  terms : List (K × V)
  rhs : K

/-- `normalized-constraint` (lisp/opt/opt-symbolic.lisp:106-109). -/
structure Nc (V K : Type) where
  lower : Option K
  upper : Option K
  terms : List (V × K)

variable {V K : Type} [LinearOrder V] [Field K] [LinearOrder K]

/-- The body of the loop of `normalize-terms` (lisp/opt/opt-symbolic.lisp:128-136), and that of
`optexp-add-objective` (455-464): add a factor to what the map has for the variable. -/
def ins (v : V) (f : K) : List (V × K) → List (V × K)
  | [] => [(v, f)]
  | (w, g) :: m =>
      if v < w then (v, f) :: (w, g) :: m
      else if v = w then (w, f + g) :: m
      else (w, g) :: ins v f m

/-- `normalize-terms` (lisp/opt/opt-symbolic.lisp:126-137). -/
def normTerms (terms : List (K × V)) : List (V × K) :=
  terms.foldl (fun m t => ins t.2 t.1 m) []

/-- The bound of `<=` (lisp/opt/opt-symbolic.lisp:141-144). -/
def updLe (o : Option K) (value : K) : Option K :=
  match o with
  | some c => some (min c value)
  | none => some value

/-- The bound of `>=` (lisp/opt/opt-symbolic.lisp:145-148). -/
def updGe (o : Option K) (value : K) : Option K :=
  match o with
  | some c => some (max c value)
  | none => some value

/-- One bound of `=` (lisp/opt/opt-symbolic.lisp:149-156): an error if there is another value. -/
def updEq (o : Option K) (value : K) : Option (Option K) :=
  match o with
  | some c => if c = value then some (some c) else none
  | none => some (some value)

/-- `update-normalized-constraint` (lisp/opt/opt-symbolic.lisp:139-157). -/
def upd (nc : Nc V K) (rel : Rel) (value : K) : Option (Nc V K) :=
  match rel with
  | .le => some { nc with upper := updLe nc.upper value }
  | .ge => some { nc with lower := updGe nc.lower value }
  | .eq => (updEq nc.lower value).bind fun l => (updEq nc.upper value).map fun u =>
      { nc with lower := l, upper := u }

/-- `tree-set-insert` on variables. -/
def insVar (v : V) : List V → List V
  | [] => [v]
  | w :: m => if v < w then v :: w :: m else if v = w then w :: m else w :: insVar v m

/-- The class `optexp` (lisp/opt/opt-symbolic.lisp:339-376).  `dxl` is `none` while it is the integer 0 of
the `:initform`, which is no double-float. -/
structure Oe (V K : Type) where
  cons : List (Nc V K)
  obj : List (V × K)
  vars : List V
  bin : List V
  int : List V
  dxl : Option K
  dxu : K
  dbl : K
  dbu : K

/-- `make-optexp` (lisp/opt/opt-symbolic.lisp:381-382). -/
def mk (big : K) : Oe V K := ⟨[], [], [], [], [], none, big, -big, big⟩

/-- `(tree-map-find map terms)` on constraints, or a new one (lisp/opt/opt-symbolic.lisp:420-422). -/
def find (L : List (Nc V K)) (terms : List (V × K)) : Nc V K :=
  (L.find? (fun c => decide (c.terms = terms))).getD ⟨none, none, terms⟩

/-- `optexp-add-constraint` (lisp/opt/opt-symbolic.lisp:416-426). -/
def addConstraint (oe : Oe V K) (c : Cstr V K) : Option (Oe V K) :=
  (upd (find oe.cons (normTerms c.terms)) c.rel c.rhs).map fun nc =>
    { oe with
      cons := oe.cons.filter (fun d => decide (d.terms ≠ normTerms c.terms)) ++ [nc]
      vars := (normTerms c.terms).foldl (fun s t => insVar t.1 s) oe.vars }

/-- The fold over the constraints (lisp/opt/opt-symbolic.lisp:481-484). -/
def addAll : Oe V K → List (Cstr V K) → Option (Oe V K)
  | oe, [] => some oe
  | oe, c :: cs => (addConstraint oe c).bind fun oe => addAll oe cs

/-- `optexp-add-objective` (lisp/opt/opt-symbolic.lisp:455-464). -/
def addObjective (oe : Oe V K) (t : K × V) : Oe V K :=
  { oe with obj := ins t.2 t.1 oe.obj, vars := insVar t.2 oe.vars }

/-- `optexp-set-binary` (lisp/opt/opt-symbolic.lisp:466-469). -/
def setBinary (oe : Oe V K) (v : V) : Oe V K := { oe with bin := insVar v oe.bin }

/-- `(setf (optexp-default-x-upper oe) u)`.  Two slots declare this accessor (lisp/opt/opt-symbolic.lisp:364-372);
`later` says which of the two methods replaced the other. -/
def setXUpper (later : Bool) (oe : Oe V K) (u : K) : Oe V K :=
  if later then { oe with dbl := u } else { oe with dxu := u }

/-- `optexp` as `lp` calls it (lisp/opt/opt-symbolic.lisp:476-504); integer variables go to
`optexp-set-binary` too (493). -/
def optexp (big : K) (later : Bool) (cs : List (Cstr V K)) (objs : List (K × V)) (bins ints : List V)
    (dxl dxu dbl dbu : K) : Option (Oe V K) :=
  (addAll (mk big) cs).map fun oe =>
    let oe := objs.foldl addObjective oe
    let oe := bins.foldl setBinary oe
    let oe := ints.foldl setBinary oe
    let oe := { oe with dxl := some dxl }
    let oe := setXUpper later oe dxu
    let oe := { oe with dbl := dbl }
    { oe with dbu := dbu }

/-- `(when xl (/ xl f))` (lisp/opt/opt-symbolic.lisp:214-215). -/
def divBound (f : K) : Option K → Option (Option K)
  | none => some none
  | some l => if f = 0 then none else some (some (l / f))

/-- Store a bound if there is one (lisp/opt/opt-symbolic.lisp:214-215). -/
def setBound (a : Nat → K) (i : Nat) : Option K → Nat → K
  | none => a
  | some l => Function.update a i l

/-- The loop of `opt-bounds` (lisp/opt/opt-symbolic.lisp:202-215); `has` are the indices with a bound. -/
def boundsLoop (vars : List V) : List (Nc V K) → List Nat → (Nat → K) → (Nat → K) →
    Option ((Nat → K) × (Nat → K))
  | [], _, lo, up => some (lo, up)
  | nc :: L, has, lo, up =>
      match nc.terms with
      | [(v, f)] =>
          if vars.idxOf v ∈ has then none
          else
            (divBound f (if f < 0 then nc.upper else nc.lower)).bind fun xl =>
            (divBound f (if f < 0 then nc.lower else nc.upper)).bind fun xu =>
            boundsLoop vars L (vars.idxOf v :: has) (setBound lo (vars.idxOf v) xl)
              (setBound up (vars.idxOf v) xu)
      | _ => boundsLoop vars L has lo up

/-- `optexp-bounds-matrix` (lisp/opt/opt-symbolic.lisp:512-516) with `opt-bounds` (193-217): the keyword
`:default-lower` is given twice, and the first one counts; the upper default is that of `opt-bounds`. -/
def boundsMatrix (big : K) (oe : Oe V K) : Option ((Nat → K) × (Nat → K)) :=
  oe.dxl.bind fun dl => boundsLoop oe.vars oe.cons [] (fun _ => dl) (fun _ => big)

/-- `normalized-constraint-bounds-p` (lisp/opt/opt-symbolic.lisp:111-113). -/
def isBound (nc : Nc V K) : Bool := nc.terms.length == 1

/-- A matrix in compressed rows as it is filled (lisp/sparse.lisp:45-54). -/
structure Crs (K : Type) where
  vals : List K
  cols : List Nat
  ptrs : List Nat

/-- `crs-matrix-inc-row` (lisp/sparse.lisp:56-61). -/
def Crs.incRow (C : Crs K) : Crs K := { C with ptrs := C.ptrs ++ [C.vals.length] }

/-- `crs-matrix-add-elt` (lisp/sparse.lisp:73-81). -/
def Crs.addElt (C : Crs K) (j : Nat) (f : K) : Crs K :=
  { C with vals := C.vals ++ [f], cols := C.cols ++ [j] }

/-- A row of `opt-constraint-crs` (lisp/opt/opt-symbolic.lisp:255-260). -/
def addRow (vars : List V) (C : Crs K) (nc : Nc V K) : Crs K :=
  (nc.terms.foldl (fun C t => C.addElt (vars.idxOf t.1) t.2) C).incRow

/-- `opt-terms-vec` (lisp/opt/opt-symbolic.lisp:225-232). -/
def termsVec (vars : List V) (terms : List (V × K)) : Nat → K :=
  terms.foldl (fun c t => Function.update c (vars.idxOf t.1) t.2) (fun _ => 0)

/-- `lp-matrices` (lisp/opt/opt-matrix.lisp:43-51) with the numbers of rows and columns. -/
structure Mats (V K : Type) where
  vars : List V
  m : Nat
  n : Nat
  A : Crs K
  bl : Nat → K
  bu : Nat → K
  c : Nat → K
  xl : Nat → K
  xu : Nat → K

/-- `optexp-matrix` (lisp/opt/opt-matrix.lisp:57-75) with `opt-constraint-crs`
(lisp/opt/opt-symbolic.lisp:234-263); a matrix without rows or columns is a type error
(lisp/sparse.lisp:49-50, 63-71). -/
def matrices (big : K) (oe : Oe V K) : Option (Mats V K) :=
  let rows := oe.cons.filter (fun c => !isBound c)
  if rows.length = 0 ∨ oe.vars.length = 0 then none
  else
    (boundsMatrix big oe).map fun b =>
      { vars := oe.vars
        m := rows.length
        n := oe.vars.length
        A := rows.foldl (addRow oe.vars) (Crs.incRow ⟨[], [], []⟩)
        bl := fun i => ((rows[i]?.bind fun r => r.lower).getD oe.dbl)
        bu := fun i => ((rows[i]?.bind fun r => r.upper).getD oe.dbu)
        c := termsVec oe.vars oe.obj
        xl := b.1
        xu := b.2 }

/-- `lp` up to the call of the solver (lisp/opt/opt-matrix.lisp:153-178 and 109-136): the matrices, the
integer and the binary variables; `opt-set-type` asserts that these are variables of the problem (99-107). -/
def lp (big : K) (later : Bool) (cs : List (Cstr V K)) (objs : List (K × V)) (bins ints : List V)
    (dxl dxu dbl dbu : K) : Option (Mats V K × List V × List V) :=
  (optexp big later cs objs bins ints dxl dxu dbl dbu).bind fun oe =>
    (matrices big oe).bind fun M =>
      if (∀ v ∈ oe.int, v ∈ M.vars) ∧ ∀ v ∈ oe.bin, v ∈ M.vars then some (M, oe.int, oe.bin) else none

end Verif.OptExp
