/-
What a user of `lp` expects (C155), stated on the constraints and the objective as they are given.
-/
import Verif.Model.OptExp
import Mathlib.Algebra.BigOperators.Intervals

namespace Verif.OptExp

variable {V K : Type} [LinearOrder V] [Field K] [LinearOrder K]

/-- The value of a sum of factor times variable. -/
def lin (terms : List (K × V)) (x : V → K) : K := (terms.map fun t => t.1 * x t.2).sum

/-- The constraint holds. -/
def Cstr.Holds (c : Cstr V K) (x : V → K) : Prop :=
  match c.rel with
  | .le => lin c.terms x ≤ c.rhs
  | .ge => c.rhs ≤ lin c.terms x
  | .eq => lin c.terms x = c.rhs

/-- The variable is named by a constraint or by the objective. -/
def Occurs (cs : List (Cstr V K)) (objs : List (K × V)) (v : V) : Prop :=
  (∃ c ∈ cs, ∃ t ∈ c.terms, t.2 = v) ∨ ∃ t ∈ objs, t.2 = v

/-- The constraint is about `v` alone. -/
def Cstr.Only (c : Cstr V K) (v : V) : Prop := c.terms ≠ [] ∧ ∀ t ∈ c.terms, t.2 = v

/-- The factor of the variable in a constraint about it alone. -/
def Cstr.factor (c : Cstr V K) : K := (c.terms.map Prod.fst).sum

/-- Some constraint about `v` alone bounds it from below. -/
def HasLower (cs : List (Cstr V K)) (v : V) : Prop :=
  ∃ c ∈ cs, c.Only v ∧ (c.rel = .eq ∨ (c.rel = .ge ∧ 0 < c.factor) ∨ (c.rel = .le ∧ c.factor < 0))

/-- Some constraint about `v` alone bounds it from above. -/
def HasUpper (cs : List (Cstr V K)) (v : V) : Prop :=
  ∃ c ∈ cs, c.Only v ∧ (c.rel = .eq ∨ (c.rel = .le ∧ 0 < c.factor) ∨ (c.rel = .ge ∧ c.factor < 0))

/-- A point satisfies the described program: the constraints, and the default bounds for the variables
that have no bound on that side. -/
def Sat (cs : List (Cstr V K)) (objs : List (K × V)) (dxl dxu : K) (x : V → K) : Prop :=
  (∀ c ∈ cs, c.Holds x) ∧
  ∀ v, Occurs cs objs v → (¬ HasLower cs v → dxl ≤ x v) ∧ (¬ HasUpper cs v → x v ≤ dxu)

/-- Row `i` of a matrix in compressed rows times a vector. -/
def Crs.row (A : Crs K) (i : Nat) (y : Nat → K) : K :=
  ∑ k ∈ Finset.Ico (A.ptrs.getD i 0) (A.ptrs.getD (i + 1) 0), A.vals.getD k 0 * y (A.cols.getD k 0)

/-- A vector is feasible for the matrices, as the solver reads them. -/
def Mats.Feasible (M : Mats V K) (y : Nat → K) : Prop :=
  (∀ i < M.m, M.bl i ≤ M.A.row i y ∧ M.A.row i y ≤ M.bu i) ∧ ∀ j < M.n, M.xl j ≤ y j ∧ y j ≤ M.xu j

/-- The matrix can be handed to a solver: the pointers to the rows ascend from 0 to the number of entries,
and columns are in range. -/
def Mats.Wf (M : Mats V K) : Prop :=
  M.A.ptrs.length = M.m + 1 ∧ M.A.ptrs.getD 0 0 = 0 ∧ M.A.ptrs.getD M.m 0 = M.A.vals.length ∧
  M.A.cols.length = M.A.vals.length ∧ (∀ i < M.m, M.A.ptrs.getD i 0 ≤ M.A.ptrs.getD (i + 1) 0) ∧
  ∀ k < M.A.cols.length, M.A.cols.getD k 0 < M.n

end Verif.OptExp
