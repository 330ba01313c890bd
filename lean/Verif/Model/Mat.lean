import Mathlib.Algebra.Ring.Defs
import Mathlib.Data.List.ProdSigma

/-!
# Vector and matrix views (src/mat.c, include/amino/mat.h, include/amino/mat.hpp)

Memory is a function from the address of a `double` (in units of one double) to its value in a
commutative ring. A view holds an address, as the C structures do. Sizes are naturals: the casts of
`size_t` to `int` for BLAS and LAPACK are not modelled. `none` stands for a call of the error handler
`aa_la_err` (which aborts unless replaced) or for a division by zero. BLAS and LAPACK routines are
represented by their documented effect, as loops.
-/

namespace Verif.Mat

variable {K : Type} [CommRing K]

abbrev Mem (K : Type) := Nat → K

/-- one store. -/
def store (m : Mem K) (a : Nat) (v : K) : Mem K := fun b => if b = a then v else m b

/-- include/amino/mat.h:63-67 `struct aa_dvec`. -/
@[ext] structure DVec where
  len : Nat
  data : Nat
  inc : Nat
deriving DecidableEq, Repr

/-- include/amino/mat.h:72-77 `struct aa_dmat`. -/
@[ext] structure DMat where
  rows : Nat
  cols : Nat
  data : Nat
  ld : Nat
deriving DecidableEq, Repr

/-- include/amino/mat.h:85 `AA_DVEC_REF`, the address. -/
def DVec.ref (v : DVec) (i : Nat) : Nat := v.data + i * v.inc

/-- include/amino/mat.h:94 `AA_DMAT_REF`, the address. -/
def DMat.ref (M : DMat) (i j : Nat) : Nat := M.data + (M.ld * j + i)

/-! ## Views -/

/-- src/mat.c:103-116 `aa_dvec_slice`. -/
def slice (src : DVec) (start stop step : Nat) : Option DVec :=
  if stop > src.len ∨ stop < start then none
  else if step = 0 then none
  else some ⟨(stop - start) / step, src.data + src.inc * start, src.inc * step⟩

/-- include/amino/mat.hpp:453-457 `DVec::slice`. -/
def sliceCpp (src : DVec) (start stop _step : Nat) : Option DVec := slice src start stop stop

/-- include/amino/mat.hpp:436-442 `DVec::view` of a mutable and of a constant array. -/
def viewCpp (len data inc : Nat) : DVec := ⟨len, data, inc⟩
def viewConstCpp (len data _inc : Nat) : DVec := viewCpp len data 1

/-- src/mat.c:119-126 `aa_dmat_row_vec`. -/
def rowVec (src : DMat) (row : Nat) : Option DVec :=
  if row ≥ src.rows then none else some ⟨src.cols, src.data + row, src.ld⟩

/-- src/mat.c:128-135 `aa_dmat_col_vec`. -/
def colVec (src : DMat) (col : Nat) : Option DVec :=
  if col ≥ src.cols then none else some ⟨src.rows, src.data + col * src.ld, 1⟩

/-- src/mat.c:137-141 `aa_dmat_diag_vec`. -/
def diagVec (src : DMat) : DVec := ⟨min src.rows src.cols, src.data, src.ld + 1⟩

/-- include/amino/mat.h:268-269 `AA_MAT_DIAG`. -/
def diagMacro (src : DMat) : DVec := ⟨src.cols, src.data, 1 + src.ld⟩

/-- src/mat.c:162-182 `aa_dmat_block`. -/
def block (src : DMat) (row_start col_start row_end col_end : Nat) : Option DMat :=
  if row_start ≥ row_end ∨ row_start ≥ src.rows ∨ row_end > src.rows ∨
     col_start ≥ col_end ∨ col_start ≥ src.cols ∨ col_end > src.cols then none
  else some ⟨row_end - row_start, col_end - col_start,
    src.data + col_start * src.ld + row_start, src.ld⟩

/-- src/mat.c:150-160 `aa_dmat_view_block`. -/
def viewBlock (src : DMat) (row_start col_start rows cols : Nat) : Option DMat :=
  block src row_start col_start (row_start + rows) (col_start + cols)

/-! ## Loops -/

/-- `for( x = start; x < end; x += inc ) body`. With `inc = 0` the C loop runs for ever if
`start < end`; every use below has `end = start + n*inc`. -/
def forPtr {σ : Type} (x e inc : Nat) (f : Nat → σ → σ) (s : σ) : σ :=
  if x < e ∧ 0 < inc then forPtr (x + inc) e inc f (f x s) else s
termination_by e - x

/-- the same with a second pointer `y` advancing by `incy`. -/
def forPtr2 {σ : Type} (x e inc y incy : Nat) (f : Nat → Nat → σ → σ) (s : σ) : σ :=
  if x < e ∧ 0 < inc then forPtr2 (x + inc) e inc (y + incy) incy f (f x y s) else s
termination_by e - x

/-- `for( i = 0; i < n; i++ ) body`. -/
def forN {σ : Type} (n : Nat) (f : Nat → σ → σ) (s : σ) : σ := (List.range n).foldl (fun s k => f k s) s

/-! ## BLAS level 1 and auxiliary LAPACK routines (documented effect) -/

/-- `cblas_dcopy`. -/
def dcopy (n x incx y incy : Nat) (m : Mem K) : Mem K :=
  forN n (fun k m => store m (y + k * incy) (m (x + k * incx))) m

/-- `cblas_daxpy`. -/
def daxpy (n : Nat) (a : K) (x incx y incy : Nat) (m : Mem K) : Mem K :=
  forN n (fun k m => store m (y + k * incy) (a * m (x + k * incx) + m (y + k * incy))) m

/-- `cblas_dscal`. -/
def dscal (n : Nat) (a : K) (x incx : Nat) (m : Mem K) : Mem K :=
  forN n (fun k m => store m (x + k * incx) (a * m (x + k * incx))) m

/-- `cblas_dswap`. -/
def dswap (n x incx y incy : Nat) (m : Mem K) : Mem K :=
  forN n (fun k m => store (store m (y + k * incy) (m (x + k * incx))) (x + k * incx) (m (y + k * incy))) m

/-- `dlaset` with `uplo = "G"`. -/
def dlaset (rows cols : Nat) (alpha beta : K) (a lda : Nat) (m : Mem K) : Mem K :=
  forN cols (fun j m => forN rows (fun i m => store m (a + (lda * j + i)) (if i = j then beta else alpha)) m) m

/-- `dlacpy` with `uplo = "G"`. -/
def dlacpy (rows cols a lda b ldb : Nat) (m : Mem K) : Mem K :=
  forN cols (fun j m => forN rows (fun i m => store m (b + (ldb * j + i)) (m (a + (lda * j + i)))) m) m

/-- `dlascl` with type `"G"` and `cfrom = 1`. -/
def dlascl (rows cols : Nat) (cto : K) (a lda : Nat) (m : Mem K) : Mem K :=
  forN cols (fun j m => forN rows (fun i m => store m (a + (lda * j + i)) (cto * m (a + (lda * j + i)))) m) m

/-! ## Mutators -/

/-- src/mat.c:293-300 `aa_dvec_set`. -/
def vset (v : DVec) (alpha : K) (m : Mem K) : Mem K :=
  forPtr v.data (v.data + v.len * v.inc) v.inc (fun x m => store m x alpha) m

/-- src/mat.c:302-306 `aa_dvec_zero`. -/
def vzero (v : DVec) (m : Mem K) : Mem K := vset v 0 m

/-- src/mat.c:280-291 `aa_dmat_set`. -/
def mset (A : DMat) (alpha beta : K) (m : Mem K) : Mem K := dlaset A.rows A.cols alpha beta A.data A.ld m

/-- src/mat.c:309-313 `aa_dmat_zero`. -/
def mzero (A : DMat) (m : Mem K) : Mem K := mset A 0 0 m

/-- src/mat.c:317-322 `aa_dvec_swap`. -/
def vswap (x y : DVec) (m : Mem K) : Option (Mem K) :=
  if x.len ≠ y.len then none else some (dswap x.len x.data x.inc y.data y.inc m)

/-- src/mat.c:324-328 `aa_dvec_scal`. -/
def vscal (a : K) (x : DVec) (m : Mem K) : Mem K := dscal x.len a x.data x.inc m

/-- src/mat.c:330-334 `s_inc`. -/
def sInc (n : Nat) (alpha : K) (x inc : Nat) (m : Mem K) : Mem K :=
  forPtr x (x + n * inc) inc (fun x m => store m x (m x + alpha)) m

/-- src/mat.c:336-340 `aa_dvec_inc`. -/
def vinc (alpha : K) (x : DVec) (m : Mem K) : Mem K := sInc x.len alpha x.data x.inc m

/-- src/mat.c:342-347 `aa_dvec_copy`. -/
def vcopy (x y : DVec) (m : Mem K) : Option (Mem K) :=
  if x.len ≠ y.len then none else some (dcopy x.len x.data x.inc y.data y.inc m)

/-- src/mat.c:349-354 `aa_dvec_axpy`. -/
def vaxpy (a : K) (x y : DVec) (m : Mem K) : Option (Mem K) :=
  if x.len ≠ y.len then none else some (daxpy x.len a x.data x.inc y.data y.inc m)

/-- src/mat.c:356-361 `aa_dvec_dot`. -/
def vdot (x y : DVec) (m : Mem K) : Option K :=
  if x.len ≠ y.len then none
  else some (forN x.len (fun k s => s + m (x.data + k * x.inc) * m (y.data + k * y.inc)) 0)

/-- src/mat.c:443-453 `s_ssd`. -/
def sSsd (n : Nat) (a : K) (x incx y incy : Nat) (m : Mem K) : K :=
  forPtr2 x (x + n * incx) incx y incy (fun x y a => a + (m x - m y) * (m x - m y)) a

/-- src/mat.c:456-463 `aa_dvec_ssd`. -/
def vssd (x y : DVec) (m : Mem K) : Option K :=
  if x.len ≠ y.len then none else some (sSsd x.len 0 x.data x.inc y.data y.inc m)

/-- src/mat.c:465-480 `aa_dmat_ssd`. -/
def mssd (A B : DMat) (m : Mem K) : Option K :=
  if A.rows ≠ B.rows ∨ A.cols ≠ B.cols then none
  else some (forPtr2 A.data (A.data + A.cols * A.ld) A.ld B.data B.ld
    (fun Ac Bc a => sSsd A.rows a Ac 1 Bc 1 m) 0)

/-- src/mat.c:413-437 `aa_dmat_lacpy` with "G", `aa_dmat_copy`. -/
def mcopy (A B : DMat) (m : Mem K) : Option (Mem K) :=
  if A.rows ≠ B.rows ∨ A.cols ≠ B.cols then none
  else some (dlacpy A.rows A.cols A.data A.ld B.data B.ld m)

/-- src/mat.c:489-499 `aa_dmat_scal`. -/
def mscal (A : DMat) (alpha : K) (m : Mem K) : Mem K := dlascl A.rows A.cols alpha A.data A.ld m

/-- src/mat.c:501-515 `aa_dmat_inc`. -/
def minc (A : DMat) (alpha : K) (m : Mem K) : Mem K :=
  if A.rows = A.cols then sInc (A.rows * A.cols) alpha A.data 1 m
  else forPtr A.data (A.data + A.cols * A.ld) A.ld (fun x m => sInc A.rows alpha x 1 m) m

/-- src/mat.c:517-535 `aa_dmat_axpy`. -/
def maxpy (alpha : K) (X Y : DMat) (m : Mem K) : Option (Mem K) :=
  if X.rows ≠ Y.rows ∨ X.cols ≠ Y.cols then none
  else if X.rows = X.ld ∧ X.rows = Y.ld then some (daxpy (X.rows * X.cols) alpha X.data 1 Y.data 1 m)
  else some (forPtr2 X.data (X.data + X.cols * X.ld) X.ld Y.data Y.ld
    (fun x y m => daxpy X.rows alpha x 1 y 1 m) m)

/-- src/mat.c:537-555 `aa_dmat_trans`. -/
def mtrans (A B : DMat) (m : Mem K) : Option (Mem K) :=
  if A.rows ≠ B.cols ∨ A.cols ≠ B.rows then none
  else some (forPtr2 B.data (B.data + A.cols) 1 A.data A.ld
    (fun Brow Acol m => dcopy A.rows Acol 1 Brow B.ld m) m)

/-! ## Products -/

/-- address of element `(i,k)` of `op(A)`, `A` given by its pointer and leading dimension. -/
def opAddr (trans : Bool) (a lda i k : Nat) : Nat := if trans then a + (lda * i + k) else a + (lda * k + i)

/-- `cblas_dgemv` in column major order on an `rows x cols` array. -/
def dgemv (trans : Bool) (rows cols : Nat) (alpha : K) (a lda x incx : Nat) (beta : K) (y incy : Nat)
    (m : Mem K) : Mem K :=
  let (r, c) := if trans then (cols, rows) else (rows, cols)
  forN r (fun i m => store m (y + i * incy)
    (alpha * forN c (fun k s => s + m (opAddr trans a lda i k) * m (x + k * incx)) 0 +
      beta * m (y + i * incy))) m

/-- src/mat.c:371-391 `aa_dmat_gemv`. -/
def gemv (trans : Bool) (alpha : K) (A : DMat) (x : DVec) (beta : K) (y : DVec) (m : Mem K) :
    Option (Mem K) :=
  if (if trans then A.rows ≠ x.len ∨ A.cols ≠ y.len else A.rows ≠ y.len ∨ A.cols ≠ x.len) then none
  else some (dgemv trans A.rows A.cols alpha A.data A.ld x.data x.inc beta y.data y.inc m)

/-- `cblas_dgemm` in column major order: `op(A)` is `M x Kd`, `op(B)` is `Kd x N`. -/
def dgemm (ta tb : Bool) (M N Kd : Nat) (alpha : K) (a lda b ldb : Nat) (beta : K) (c ldc : Nat)
    (m : Mem K) : Mem K :=
  forN N (fun j m => forN M (fun i m => store m (c + (ldc * j + i))
    (alpha * forN Kd (fun k s => s + m (opAddr ta a lda i k) * m (opAddr tb b ldb k j)) 0 +
      beta * m (c + (ldc * j + i)))) m) m

/-- src/mat.c:393-411, the size checks of `aa_dmat_gemm`. -/
def gemmOk (A B C : DMat) : Bool := A.rows = C.rows ∧ A.cols = B.rows ∧ B.cols = C.cols

/-- src/mat.c:393-416 `aa_dmat_gemm`. -/
def gemm (ta tb : Bool) (alpha : K) (A B : DMat) (beta : K) (C : DMat) (m : Mem K) : Option (Mem K) :=
  if gemmOk A B C then
    some (dgemm ta tb A.rows B.cols A.cols alpha A.data A.ld B.data B.ld beta C.data C.ld m)
  else none

/-- the addresses of its first operand that the `cblas_dgemm` call in `aa_dmat_gemm` reads. -/
def gemmReadsA (ta : Bool) (A : DMat) : List Nat :=
  (List.range A.rows).flatMap fun i => (List.range A.cols).map fun k => opAddr ta A.data A.ld i k

end Verif.Mat
