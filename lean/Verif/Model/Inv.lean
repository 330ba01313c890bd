import Verif.Model.Mat
import Mathlib.Algebra.Order.Archimedean.Real.Basic

/-!
# Inverse of a matrix in place (src/la.c:203-228, src/mat.c:556-582)

Memory is that of `Verif.Mat` over the reals. `dgetrf` and `dgetri` are arbitrary functions on memory. The
pivots and the workspace are blocks of the region of the thread, apart from everything else (C01), and kept
out of the memory. `none` stands for a failed size check or assertion and for `xerbla`, which stops the
program. Conversions of sizes to `int` are not modelled.
-/

namespace Verif.Inv

open Mat

/-- `dgetrf(m, n, a, lda)`: the memory after the call, the pivots (from 0), and `info`. -/
abbrev Getrf := (m n a lda : Nat) → Mem ℝ → Mem ℝ × (Nat → Nat) × Int

/-- `dgetri(n, a, lda, ipiv, work, lwork)` with a workspace of `size` elements: the memory after the call, and
the first element of the workspace. -/
abbrev Getri := (n a lda : Nat) → (ipiv : Nat → Nat) → (size : Nat) → (lwork : Int) → Mem ℝ → Mem ℝ × ℝ

/-- a `double` as an `int`. -/
noncomputable def toInt (x : ℝ) : Int := if 0 ≤ x then ⌊x⌋ else ⌈x⌉

/-- src/la.c:214-224, src/mat.c:569-577: at most `fuel` rounds; `none` also if these do not suffice. -/
noncomputable def loop (ri : Getri) (n a lda : Nat) (p : Nat → Nat) : Nat → Int → Mem ℝ → Option (Mem ℝ)
  | 0, _, _ => none
  | fuel + 1, lwork, s =>
    let r := ri n a lda p (if lwork < 0 then 1 else lwork.toNat) lwork s
    if lwork > 0 then some r.1
    else if lwork = -1 then loop ri n a lda p fuel (toInt r.2) r.1
    else none

/-- The common text of both functions: factor, invert, return what `dgetrf` said. LAPACK stops at a leading
dimension less than `max 1 n`. -/
noncomputable def inv (rf : Getrf) (ri : Getri) (fuel n a lda : Nat) (s : Mem ℝ) : Option (Mem ℝ × Int) :=
  if lda < max 1 n then none
  else
    let r := rf n n a lda s
    (loop ri n a lda r.2.1 fuel (-1) r.1).map fun s' => (s', r.2.2)

/-- src/la.c:203-228 `aa_la_inv`. -/
noncomputable def laInv (rf : Getrf) (ri : Getri) (fuel n a : Nat) (s : Mem ℝ) : Option (Mem ℝ × Int) :=
  inv rf ri fuel n a n s

/-- src/mat.c:556-582 `aa_dmat_inv`. -/
noncomputable def dmatInv (rf : Getrf) (ri : Getri) (fuel : Nat) (A : DMat) (s : Mem ℝ) : Option (Mem ℝ × Int) :=
  if A.rows ≠ A.cols then none else inv rf ri fuel A.rows A.data A.ld s

/-- src/mat.c:417-433 `aa_dmat_lacpy` of a whole matrix. -/
def lacpy (A B : DMat) (s : Mem ℝ) : Option (Mem ℝ) :=
  if A.rows ≠ B.rows ∨ A.cols ≠ B.cols then none else some (dlacpy A.rows A.cols A.data A.ld B.data B.ld s)

/-- include/amino/mat.hpp:343-353 `DMatExpInverse::eval`: what `B = A.inverse()` does. -/
noncomputable def cppInverse (rf : Getrf) (ri : Getri) (fuel : Nat) (A B : DMat) (s : Mem ℝ) : Option (Mem ℝ) :=
  (lacpy A B s).bind fun s => (dmatInv rf ri fuel B s).map (·.1)

/-- python/amino/mat.py:400-404 `DMat.inv`, with the copy of lines 278-283 at the address `b`: the new matrix. -/
noncomputable def pyInv (rf : Getrf) (ri : Getri) (fuel : Nat) (A : DMat) (b : Nat) (s : Mem ℝ) :
    Option (DMat × Mem ℝ) :=
  let M : DMat := ⟨A.rows, A.cols, b, A.rows⟩
  (lacpy A M s).bind fun s => (dmatInv rf ri fuel M s).map fun r => (M, r.1)

end Verif.Inv
