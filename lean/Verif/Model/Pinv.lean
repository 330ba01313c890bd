import Verif.Model.La
import Mathlib.LinearAlgebra.Matrix.PosDef
import Mathlib.LinearAlgebra.Matrix.NonsingularInverse

/-!
# Pseudo-inverses and damped least squares (src/la.c, src/mat.c, src/rx/scene_wk.c)

LAPACK routines are represented by their documented effect on memory. Scratch memory taken from the
region allocator is passed as an address; the theorems assume it disjoint from the operands.
-/

namespace Verif.Pinv

open Verif.Mat Verif.La

/-- `cblas_dsyrk`, column major, upper half, no transpose, `alpha = 1`, `beta = 0`: the upper half of
`C` becomes that of `A A^T`, where `A` is `n x k`. -/
def dsyrk (n k a lda c ldc : Nat) (m : Mem ℝ) : Mem ℝ :=
  forN n (fun j m => forN (j + 1) (fun i m => store m (c + (ldc * j + i))
    (forN k (fun l s => s + m (a + (lda * l + i)) * m (a + (lda * l + j))) 0)) m) m

/-- the symmetric matrix whose upper half is stored at `b`. -/
def symU (n b ldb : Nat) (m : Mem ℝ) : Matrix (Fin n) (Fin n) ℝ :=
  fun i j => if i ≤ j then m (b + (ldb * j.val + i.val)) else m (b + (ldb * i.val + j.val))

/-- the right hand sides of `dposv`. -/
def rhs (n nrhs x ldx : Nat) (m : Mem ℝ) : Matrix (Fin n) (Fin nrhs) ℝ :=
  fun i j => m (x + (ldx * j.val + i.val))

/-- `dposv('U', n, nrhs, B, ldb, X, ldx)`: solves `B X' = X` in place for a positive definite `B` given
by its upper half, which is overwritten by the Cholesky factor (`chol`, left unspecified). For other
`B` it returns a positive code and leaves `X`. -/
noncomputable def dposv (chol : Mem ℝ → Nat → Nat → ℝ) (n nrhs b ldb x ldx : Nat) (m : Mem ℝ) :
    Mem ℝ × Int :=
  let S := symU n b ldb m
  let sol := S⁻¹ * rhs n nrhs x ldx m
  let m1 := forN n (fun j m1 => forN (j + 1) (fun i m1 => store m1 (b + (ldb * j + i)) (chol m i j)) m1) m
  open Classical in
  if S.PosDef then
    (forN nrhs (fun j m1 => forN n (fun i m1 => store m1 (x + (ldx * j + i))
      (if h : i < n ∧ j < nrhs then sol ⟨i, h.1⟩ ⟨j, h.2⟩ else 0)) m1) m1, 0)
  else (m1, 1)

/-- src/mat.c:735-737, 776-777 and src/la.c:264-265: `for( x = B; x < B + rows*ld; x += ld+1 ) *x += k`. -/
def addDiag (rows b ld : Nat) (k : ℝ) (m : Mem ℝ) : Mem ℝ :=
  forPtr b (b + rows * ld) (ld + 1) (fun x m => store m x (m x + k)) m

/-- the part common to src/mat.c:728-744, src/mat.c:770-783 and src/la.c:257-272: with `P` of size
`rows x cols`, `B = P P^T` (upper half), `B += k I`, solve `B X = P` into `P`. -/
noncomputable def cholSolve (chol : Mem ℝ → Nat → Nat → ℝ) (rows cols : Nat) (k : ℝ) (p ldp b ldb : Nat)
    (m : Mem ℝ) : Mem ℝ × Int :=
  dposv chol rows cols b ldb p ldp (addDiag rows b ldb k (dsyrk rows cols p ldp b ldb m))

/-- src/mat.c:697-803 `aa_dmat_dpinv`. `tmp` is the scratch memory: the copy `Ap` of `A` when
`m ≤ n`, the array `B` otherwise. -/
noncomputable def dpinv (chol : Mem ℝ → Nat → Nat → ℝ) (A : DMat) (k : ℝ) (As : DMat) (tmp : Nat) (m : Mem ℝ) :
    Option (Mem ℝ × Int) :=
  if A.rows ≠ As.cols ∨ A.cols ≠ As.rows then none
  else if A.rows ≤ A.cols then
    let Ap : DMat := ⟨A.rows, A.cols, tmp, A.rows⟩
    let m := dlacpy A.rows A.cols A.data A.ld Ap.data Ap.ld m
    let (m, r) := cholSolve chol Ap.rows Ap.cols k Ap.data Ap.ld As.data As.ld m
    (mtrans Ap As m).map (fun m => (m, r))
  else
    (mtrans A As m).map fun m => cholSolve chol As.rows As.cols k As.data As.ld tmp A.cols m

/-- src/la.c:236-277 `aa_la_dpinv`: arrays without padding. `tmp` is the copy of `A`, `tmp2` the
array `B` used when `m > n`. The code of `dposv` is ignored. -/
noncomputable def dpinvArr (chol : Mem ℝ → Nat → Nat → ℝ) (rows cols : Nat) (k : ℝ) (a as tmp tmp2 : Nat)
    (m : Mem ℝ) : Mem ℝ :=
  let b := if rows ≤ cols then as else tmp2
  let ldb := if rows ≤ cols then cols else rows
  let m := forN (rows * cols) (fun i m => store m (tmp + i) (m (a + i))) m
  let m := (cholSolve chol rows cols k tmp rows b ldb m).1
  transposeLd rows cols tmp rows as cols m

/-- src/la.c:347-357 `aa_la_dls`. -/
noncomputable def dls (chol : Mem ℝ → Nat → Nat → ℝ) (rows cols : Nat) (k : ℝ) (a x y as tmp tmp2 : Nat)
    (m : Mem ℝ) : Mem ℝ :=
  mvmul cols rows as x y (dpinvArr chol rows cols k a as tmp tmp2 m)

/-- src/la.c:359-372 `aa_la_np`: `B = A^* A - I`. -/
def np (rows cols a as b : Nat) (m : Mem ℝ) : Mem ℝ :=
  let m := dgemm false false cols cols rows 1 as cols a rows 0 b cols m
  forN cols (fun i m => store m (b + (cols * i + i)) (m (b + (cols * i + i)) - 1)) m

/-- src/la.c:375-391 `aa_la_xlsnp`; `b` is the scratch array. -/
noncomputable def xlsnp (rows cols a as x yp y b : Nat) (m : Mem ℝ) : Mem ℝ :=
  let m := mvmul cols rows as x y m
  let m := np rows cols a as b m
  dgemv false cols cols (-1) b cols yp 1 1 y 1 m

/-- src/la.c:393-403 `aa_la_dlsnp`. -/
noncomputable def dlsnp (chol : Mem ℝ → Nat → Nat → ℝ) (rows cols : Nat) (k : ℝ)
    (a x yp y as tmp tmp2 b : Nat) (m : Mem ℝ) : Mem ℝ :=
  xlsnp rows cols a as x yp y b (dpinvArr chol rows cols k a as tmp tmp2 m)

/-- include/amino/rx/scene_wk_internal.h:88-116 `aa_rx_wk_get_n`: `N = alpha (J^* J - I)`. -/
def wkGetN (J Js : DMat) (alpha : ℝ) (N : DMat) (m : Mem ℝ) : Option (Mem ℝ) :=
  (gemm false false alpha Js J 0 N m).map fun m =>
    forPtr N.data (N.data + N.cols * N.ld) (N.ld + 1) (fun x m => store m x (m x - alpha)) m

/-- src/rx/scene_wk.c:107-141 `aa_rx_wk_dx2dq_np`, after `aa_rx_wk_get_js` has filled the Jacobian and
its pseudo-inverse. -/
noncomputable def wkDx2dqNp (J Js N : DMat) (dx dqr dq : DVec) (m : Mem ℝ) : Option (Mem ℝ) :=
  if dx.len ≠ J.rows ∨ dqr.len ≠ J.cols ∨ dq.len ≠ J.cols then none
  else do
    let m ← wkGetN J Js 1 N m
    let m ← gemv false 1 Js dx 0 dq m
    gemv false (-1) N dqr 1 dq m

/-! ## Pseudo-inverses from the singular value decomposition

The scratch arrays `U`, `S`, `Vt` are kept as functions of their indices. -/

/-- what `dgesdd` computes from a matrix of the given size: `U`, `S`, `Vt`. -/
abbrev Svd := Nat → Nat → (Nat → Nat → ℝ) → (Nat → Nat → ℝ) × (Nat → ℝ) × (Nat → Nat → ℝ)

/-- src/la_impl.c:536-551 the matrix that `aa_la_d_svd` hands to `dgesdd`: a copy without padding
(src/la_impl.c `aa_la_d_dup`), read with the leading dimension of the original. -/
def svdInput (A : DMat) (ap : Nat) (m : Mem ℝ) : Nat → Nat → ℝ :=
  let m := dlacpy A.rows A.cols A.data A.ld ap A.rows m
  fun i j => m (ap + (A.ld * j + i))

/-- `cblas_dger`, column major: `C += alpha x y^T`, with `C` of size `rows x cols`. -/
def dger (rows cols : Nat) (alpha : ℝ) (x y : Nat → ℝ) (c ldc : Nat) (m : Mem ℝ) : Mem ℝ :=
  forN cols (fun j m => forN rows (fun i m => store m (c + (ldc * j + i))
    (m (c + (ldc * j + i)) + alpha * x i * y j)) m) m

/-- src/mat.c:645-651 and 830-836: add `1/S[i] v_i u_i^T` from `i` on while `test S[i]`, at most `n`
times; also the index at which the loop stopped. -/
noncomputable def svdLoop (rows cols : Nat) (test : ℝ → Prop) (U : Nat → Nat → ℝ) (S : Nat → ℝ)
    (Vt : Nat → Nat → ℝ) (as : Nat) : Nat → Nat → Mem ℝ → Mem ℝ × Nat
  | 0, i, m => (m, i)
  | n + 1, i, m =>
    open Classical in
    if test (S i) then
      svdLoop rows cols test U S Vt as n (i + 1)
        (dger cols rows (1 / S i) (fun a => Vt i a) (fun b => U b i) as cols m)
    else (m, i)

/-- src/mat.c:619-656 `aa_dmat_pinv`. `eps` is `DBL_EPSILON`. -/
noncomputable def pinv (svd : Svd) (eps : ℝ) (A : DMat) (tol : ℝ) (As : DMat) (ap : Nat) (m : Mem ℝ) :
    Option (Mem ℝ) :=
  if A.rows ≠ As.cols ∨ A.cols ≠ As.rows then none
  else
    let (U, S, Vt) := svd A.rows A.cols (svdInput A ap m)
    let tol := if tol < 0 then (max A.rows A.cols : Nat) * S 0 * eps else tol
    some (svdLoop A.rows A.cols (fun s => s > tol) U S Vt As.data (min A.rows A.cols) 0 (mzero As m)).1

/-- src/mat.c:807-853 `aa_dmat_dzdpinv`. -/
noncomputable def dzdpinv (svd : Svd) (A : DMat) (smin : ℝ) (As : DMat) (ap : Nat) (m : Mem ℝ) :
    Option (Mem ℝ) :=
  if A.rows ≠ As.cols ∨ A.cols ≠ As.rows then none
  else
    let (U, S, Vt) := svd A.rows A.cols (svdInput A ap m)
    let kmin := min A.rows A.cols
    let (m, i) := svdLoop A.rows A.cols (fun s => s ≥ smin) U S Vt As.data kmin 0 (mzero As m)
    some (forN (kmin - i) (fun k m => dger A.cols A.rows (S (i + k) / (smin * smin)) (fun a => Vt (i + k) a)
      (fun b => U b (i + k)) As.data A.cols m) m)

/-- src/la.c:313-341 `aa_la_dzdpinv`. -/
noncomputable def dzdpinvArr (svd : Svd) (rows cols : Nat) (s2min : ℝ) (a as ap : Nat) (m : Mem ℝ) : Mem ℝ :=
  let (U, S, Vt) := svd rows cols (svdInput ⟨rows, cols, a, rows⟩ ap m)
  let m := forN (rows * cols) (fun i m => store m (as + i) 0) m
  forN (min rows cols) (fun i m =>
    dger cols rows (S i / max (S i * S i) s2min) (fun a => Vt i a) (fun b => U b i) as cols m) m

end Verif.Pinv
