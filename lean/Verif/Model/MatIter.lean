import Verif.Model.Mat

/-!
# Iterators of the C++ vectors and matrices, and the constructors from lists
(include/amino/mat.hpp)

An iterator is an address with what it carries unchanged; a range-based `for` is a walk from `begin`
to `end`, which stops when the two addresses are *equal*. Walks take the number of steps that they
may do; `none` says that the end has not been met within them. Only `operator++` and `operator!=` are
modelled of the iterators (`operator--`, `operator+=` and postfix `operator++` of the iterators of a
matrix are templates whose bodies do not type-check, so no program instantiates them).
-/

namespace Verif.MatIter

open Verif.Mat

variable {K : Type}

/-- The walk of a range-based `for`: `step` is what `operator++` adds to the address. -/
def walk (step : Nat) : Nat → Nat → Nat → Option (List Nat)
  | 0, cur, stop => if cur = stop then some [] else none
  | n + 1, cur, stop =>
      if cur = stop then some [] else (walk step n (cur + step) stop).map (cur :: ·)

/-- include/amino/mat.hpp:555-558, 603-605, 631-645 `DVec::begin`, `DVec::end`, `operator++`,
`operator!=`: the addresses that a range-based `for` over a vector refers to. -/
def vecWalk (v : DVec) (fuel : Nat) : Option (List Nat) :=
  walk v.inc fuel v.data (v.data + v.inc * v.len)

/-- include/amino/mat.hpp:840-842, 875-877, 891-894, 1022-1036 `row_begin`, `row_end`, `operator++`: the views
that a range-based `for` over `row_container()` refers to. -/
def rowWalk (A : DMat) (fuel : Nat) : Option (List DVec) :=
  (walk 1 fuel A.data (A.data + A.rows)).map fun l => l.map fun a => ⟨A.cols, a, A.ld⟩

/-- include/amino/mat.hpp:840-842, 875-877, 954-962, 1046-1060 `col_begin`, `col_end`, `operator++`: the views
that a range-based `for` over `col_container()` refers to. -/
def colWalk (A : DMat) (fuel : Nat) : Option (List DVec) :=
  (walk A.ld fuel A.data (A.data + A.cols * A.ld)).map fun l => l.map fun a => ⟨A.rows, a, 1⟩

/-- include/amino/mat.hpp:403-405, 706, 720 `std::copy` of a list to an output iterator at address
`a`; `none` for a store at or after `lim`, the end of what has been allocated. -/
def put (lim inc : Nat) : Nat → List K → Mem K → Option (Mem K)
  | _, [], m => some m
  | a, x :: xs, m => if a < lim then put lim inc (a + inc) xs (store m a x) else none

/-- include/amino/mat.hpp:704-708, 719-722: the loop of `col_mat` and of `row_mat`: the iterator of
the matrix goes up to its end, `it` goes on by one each time; `none` if `it` is dereferenced at its
end. -/
def fill (lim step inc stop : Nat) : Nat → List (List K) → Mem K → Option (Mem K)
  | cur, [], m => if cur = stop then some m else none
  | cur, l :: ls, m =>
      if cur = stop then some m
      else (put lim inc cur l m).bind (fill lim step inc stop (cur + step) ls)

/-- include/amino/mat.hpp:683-689 `DMat::alloc`, its elements at `base`. -/
def allocMat (base rows cols : Nat) : DMat := ⟨rows, cols, base, rows⟩

/-- include/amino/mat.hpp:697-711 `DMat::col_mat`; the size of the first list is read from a list that
does not exist if there is none. -/
def colMat (base : Nat) (x : List (List K)) (m : Mem K) : Option (DMat × Mem K) :=
  match x with
  | [] => none
  | l :: _ =>
      let A := allocMat base l.length x.length
      (fill (base + A.rows * A.cols) A.ld 1 (A.data + A.cols * A.ld) A.data x m).map fun m => (A, m)

/-- include/amino/mat.hpp:713-725 `DMat::row_mat`. -/
def rowMat (base : Nat) (x : List (List K)) (m : Mem K) : Option (DMat × Mem K) :=
  match x with
  | [] => none
  | l :: _ =>
      let A := allocMat base x.length l.length
      (fill (base + A.rows * A.cols) 1 A.ld (A.data + A.rows) A.data x m).map fun m => (A, m)

/-- include/amino/mat.hpp:384-390 `DVec::alloc`, its elements at `base`. -/
def allocVec (base len : Nat) : DVec := ⟨len, base, 1⟩

/-- include/amino/mat.hpp:403-405 `DVec::assign`; `lim` is the end of the array that the vector
views. -/
def assign (lim : Nat) (v : DVec) (x : List K) (m : Mem K) : Option (Mem K) := put lim v.inc v.data x m

/-- include/amino/mat.hpp:413-425 `DVec::init`. -/
def init (base : Nat) (x : List K) (m : Mem K) : Option (DVec × Mem K) :=
  (assign (base + x.length) (allocVec base x.length) x m).map fun m => (allocVec base x.length, m)

end Verif.MatIter
