import Mathlib.Data.Nat.Notation

/-!
# Sparse matrices of the Lisp library

lisp/sparse.lisp:40-111, matrices in compressed row storage.

`none` is an error that is signalled: a failed assertion, an index outside an array, or a number that is not of
the type of its slot. Simplified: columns are natural numbers, and no number is too large for its type.
-/

namespace Verif.Sparse

/-- lisp/sparse.lisp:45-54 `crs-matrix`. -/
structure Crs (α : Type) where
  rows : ℕ
  cols : ℕ
  colInd : List ℕ
  rowPtr : List ℕ
  data : List α
  dataFill : ℕ
  rowFill : ℕ

variable {α : Type}

/-- lisp/sparse.lisp:56-61 `crs-matrix-inc-row`. -/
def incRow (m : Crs α) : Option (Crs α) :=
  if m.rowFill < m.rowPtr.length then
    some { m with rowPtr := m.rowPtr.set m.rowFill m.dataFill, rowFill := m.rowFill + 1 }
  else none

/-- lisp/sparse.lisp:63-71 `make-crs-matrix`; counts of rows and columns are at least 1. New arrays have zeros. -/
def make (zero : α) (rows cols elts : ℕ) : Option (Crs α) :=
  if 1 ≤ rows ∧ 1 ≤ cols then
    incRow ⟨rows, cols, List.replicate elts 0, List.replicate (rows + 1) 0, List.replicate elts zero, 0, 0⟩
  else none

/-- lisp/sparse.lisp:73-81 `crs-matrix-add-elt`. -/
def addElt (m : Crs α) (p : ℕ × α) : Option (Crs α) :=
  if p.1 < m.cols ∧ m.dataFill < m.data.length ∧ m.dataFill < m.colInd.length then
    some { m with
      data := m.data.set m.dataFill p.2
      colInd := m.colInd.set m.dataFill p.1
      dataFill := m.dataFill + 1 }
  else none

/-- lisp/sparse.lisp:86-89: the elements of a row. -/
def addElts : Crs α → List (ℕ × α) → Option (Crs α)
  | m, [] => some m
  | m, p :: ps => (addElt m p).bind fun m => addElts m ps

/-- lisp/sparse.lisp:84-91 `crs-matrix-add-row`. -/
def addRow (m : Crs α) (cs : List ℕ) (vs : List α) : Option (Crs α) :=
  if cs.length = vs.length then (addElts m (cs.zip vs)).bind incRow else none

/-- lisp/sparse.lisp:108-110: all rows. -/
def addRows : Crs α → List (List ℕ × List α) → Option (Crs α)
  | m, [] => some m
  | m, r :: rs => (addRow m r.1 r.2).bind fun m => addRows m rs

/-- lisp/sparse.lisp:94-111 `crs-matrix`. -/
def crs (zero : α) (css : List (List ℕ)) (vss : List (List α)) : Option (Crs α) :=
  if css.length = vss.length then
    if (css.zip vss).all fun r => r.1.length = r.2.length then
      let n := css.foldl (fun n cs => cs.foldl (fun n j => max n (j + 1)) n) 0
      let e := css.foldl (fun e cs => e + cs.length) 0
      (make zero css.length n e).bind fun m => addRows m (css.zip vss)
    else none
  else none

end Verif.Sparse
