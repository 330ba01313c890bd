import Verif.Model.Mat
import Mathlib.Data.Real.Basic

/-!
# Quadratic programs solved by CGAL (src/opt/opt_cgal.cpp)

Over the reals; the conversion of a solution to doubles is exact. `m` and `n` are below 2^31, so that the conversions
to `int` keep them. What `CGAL::solve_quadratic_program` gives is an argument.
-/

namespace Verif.Qp

open Mat

/-- `enum aa_opt_rel_type`, include/amino/opt/opt.h:56-60; the last constructor is any other value. -/
inductive Rel | eq | leq | geq | other (k : Int)

/-- `CGAL::Comparison_result` as far as it is used. -/
inductive Cmp | equal | smaller
deriving DecidableEq

/-- `CGAL::Quadratic_program`: numbers of variables and constraints, and entries with their defaults. `a j i` is
the entry of variable `j` in constraint `i`, `d i j` for `j ≤ i` the entries `i, j` and `j, i` of twice the quadratic
part. -/
structure Program where
  n : Nat
  m : Nat
  r : Cmp
  a : Nat → Nat → ℝ
  b : Nat → ℝ
  c : Nat → ℝ
  c0 : ℝ
  d : Nat → Nat → ℝ
  fl : Nat → Bool
  l : Nat → ℝ
  fu : Nat → Bool
  u : Nat → ℝ

/-- the constructor of `CGAL::Quadratic_program`. -/
def Program.new (r : Cmp) (fl : Bool) (l : ℝ) (fu : Bool) (u : ℝ) : Program :=
  { n := 0, m := 0, r := r, a := fun _ _ => 0, b := fun _ => 0, c := fun _ => 0, c0 := 0, d := fun _ _ => 0,
    fl := fun _ => fl, l := fun _ => l, fu := fun _ => fu, u := fun _ => u }

/-- `set_a`. -/
def Program.setA (p : Program) (j i : Nat) (v : ℝ) : Program :=
  { p with n := max p.n (j + 1), m := max p.m (i + 1), a := fun j' i' => if j' = j ∧ i' = i then v else p.a j' i' }

/-- `set_b`. -/
def Program.setB (p : Program) (i : Nat) (v : ℝ) : Program :=
  { p with m := max p.m (i + 1), b := fun i' => if i' = i then v else p.b i' }

/-- `set_c`. -/
def Program.setC (p : Program) (j : Nat) (v : ℝ) : Program :=
  { p with n := max p.n (j + 1), c := fun j' => if j' = j then v else p.c j' }

/-- `set_d`, of which CGAL demands that the second index is not greater. -/
def Program.setD (p : Program) (i j : Nat) (v : ℝ) : Program :=
  { p with n := max p.n (i + 1), d := fun i' j' => if i' = i ∧ j' = j then v else p.d i' j' }

/-- `set_l`. -/
def Program.setL (p : Program) (j : Nat) (f : Bool) (v : ℝ) : Program :=
  { p with n := max p.n (j + 1), fl := fun j' => if j' = j then f else p.fl j',
           l := fun j' => if j' = j then v else p.l j' }

/-- `set_u`. -/
def Program.setU (p : Program) (j : Nat) (f : Bool) (v : ℝ) : Program :=
  { p with n := max p.n (j + 1), fu := fun j' => if j' = j then f else p.fu j',
           u := fun j' => if j' = j then v else p.u j' }

/-- what the solver found. -/
inductive Status | optimal | infeasible | unbounded
deriving DecidableEq

/-- `CGAL::Quadratic_program_solution`: its status, the values of the variables, and whether the certificate that it
holds passes the check of `solves_quadratic_program`. -/
structure Solution where
  status : Status
  x : List ℝ
  certified : Bool

/-- src/opt/opt_cgal.cpp:88-93: the relation. -/
def relOf : Rel → Option Cmp
  | .eq => some .equal
  | .leq => some .smaller
  | _ => none

/-- src/opt/opt_cgal.cpp:127. -/
def lineL (l : Option Nat) (w : Mem ℝ) (j : Nat) (p : Program) : Program :=
  match l with
  | some l => p.setL j true (w (l + j))
  | none => p

/-- src/opt/opt_cgal.cpp:128. -/
def lineU (u : Option Nat) (w : Mem ℝ) (j : Nat) (p : Program) : Program :=
  match u with
  | some u => p.setU j true (w (u + j))
  | none => p

/-- src/opt/opt_cgal.cpp:95-129: the program that is handed to CGAL. -/
noncomputable def build (r : Cmp) (m n A ldA b c : Nat) (c0 : ℝ) (D ldD : Nat) (l u : Option Nat) (w : Mem ℝ) :
    Program :=
  let p := Program.new r l.isSome 0 u.isSome 1
  let p := forN m (fun i p => forN n (fun j p => p.setA j i (w (A + j * ldA + i))) p) p
  let p := forN m (fun i p => p.setB i (w (b + i))) p
  let p := forN n (fun j p => p.setC j (w (c + j))) p
  let p := { p with c0 := c0 }
  let p := forN n (fun j1 p => forN n (fun j2 p => p.setD j1 j1 (2 * w (D + j2 * ldD + j1))) p) p
  forN n (fun j p => lineU u w j (lineL l w j p)) p

/-- src/opt/opt_cgal.cpp:146-151: the values are stored. -/
def put (x : Nat) (v : List ℝ) (w : Mem ℝ) : Mem ℝ :=
  forN v.length (fun j w => store w (x + j) (v.getD j 0)) w

/-- src/opt/opt_cgal.cpp:67-158 `aa_opt_qp_solve_cgal`. -/
noncomputable def solveCgal (solve : Program → Solution) (type : Rel) (m n A ldA b c : Nat) (c0 : ℝ) (D ldD : Nat)
    (l u : Option Nat) (x : Nat) (w : Mem ℝ) : Int × Mem ℝ :=
  match relOf type with
  | none => (-1, w)
  | some r =>
    let s := solve (build r m n A ldA b c c0 D ldD l u w)
    if s.certified then (0, put x s.x w) else (-1, w)

end Verif.Qp
