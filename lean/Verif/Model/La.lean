import Verif.Model.Mat
import Verif.Model.Tf
import Verif.Model.Heap
import Mathlib.Order.WithBot
import Mathlib.Analysis.Real.Sqrt

/-!
# Small linear algebra (src/la.c, src/la_impl.c, include/amino/la_impl.h)

Arrays are pointers into the memory of `Verif.Model.Mat`. The functions without square roots are
over an arbitrary field, the others over the reals. `AA_TYPE` is `double`; the `float` instance of
src/la_impl.c has the same text.
-/

namespace Verif.La

open Verif.Mat

variable {K : Type} [Field K]

/-! ## Scalars of vectors (src/la.c:51-82) -/

/-- src/la.c:53-58 `aa_la_min`; `HUGE_VAL` is `⊤`, `AA_MIN(a,b)` (include/amino/math.h) is `a < b ? a : b`. -/
noncomputable def lmin (n x : Nat) (m : Mem ℝ) : WithTop ℝ :=
  forN n (fun i v => if v < (m (x + i) : WithTop ℝ) then v else (m (x + i) : WithTop ℝ)) ⊤

/-- src/la.c:60-65 `aa_la_max`; `-HUGE_VAL` is `⊥`. -/
noncomputable def lmax (n x : Nat) (m : Mem ℝ) : WithBot ℝ :=
  forN n (fun i v => if v > (m (x + i) : WithBot ℝ) then v else (m (x + i) : WithBot ℝ)) ⊥

/-- src/la.c:67-72 `aa_la_dot`. -/
def dot (n x y : Nat) (m : Mem K) : K := forN n (fun i a => a + m (x + i) * m (y + i)) 0

/-- src/la_impl.c:688-704 `aa_la_d_ssd`. -/
def ssdInc (n x incx y incy : Nat) (m : Mem K) : K :=
  forN n (fun k a => a + (m (x + k * incx) - m (y + k * incy)) * (m (x + k * incx) - m (y + k * incy))) 0

/-- src/la.c:78-80 `aa_la_ssd`. -/
def ssd (n x y : Nat) (m : Mem K) : K := ssdInc n x 1 y 1 m

/-- src/la.c:74-76 `aa_la_norm`. -/
noncomputable def norm (n x : Nat) (m : Mem ℝ) : ℝ := Real.sqrt (dot n x x m)

/-- src/la.c:82-84 `aa_la_dist`. -/
noncomputable def dist (n x y : Nat) (m : Mem ℝ) : ℝ := Real.sqrt (ssd n x y m)

/-! ## Elementwise operations (src/la.c:86-160) -/

/-- src/la.c:88-91 `aa_la_sinc`. -/
def sinc (n : Nat) (alpha : K) (x : Nat) (m : Mem K) : Mem K :=
  forN n (fun i m => store m (x + i) (m (x + i) + alpha)) m

/-- src/la.c:93-97 `aa_la_vinc`. -/
def vinc (n x y : Nat) (m : Mem K) : Mem K :=
  forN n (fun i m => store m (y + i) (m (y + i) + m (x + i))) m

/-- src/la.c:99-102 `aa_la_axpy`. -/
def axpy (n : Nat) (alpha : K) (x y : Nat) (m : Mem K) : Mem K :=
  forN n (fun i m => store m (y + i) (m (y + i) + alpha * m (x + i))) m

/-- src/la.c:104-108 `aa_la_axpy3`. -/
def axpy3 (n : Nat) (alpha : K) (x y z : Nat) (m : Mem K) : Mem K :=
  forN n (fun i m => store m (z + i) (alpha * m (x + i) + m (y + i))) m

/-- src/la.c:110-113 `aa_la_scal`. -/
def scal (n : Nat) (alpha : K) (x : Nat) (m : Mem K) : Mem K :=
  forN n (fun i m => store m (x + i) (m (x + i) * alpha)) m

/-- src/la.c:115-118 `aa_la_sadd`. -/
def sadd (n : Nat) (alpha : K) (x r : Nat) (m : Mem K) : Mem K :=
  forN n (fun i m => store m (r + i) (alpha + m (x + i))) m

/-- src/la.c:120-123 `aa_la_smul`. -/
def smul (n : Nat) (alpha : K) (x r : Nat) (m : Mem K) : Mem K :=
  forN n (fun i m => store m (r + i) (alpha * m (x + i))) m

/-- src/la.c:125-128 `aa_la_ssub`. -/
def ssub (n : Nat) (alpha : K) (x r : Nat) (m : Mem K) : Mem K :=
  forN n (fun i m => store m (r + i) (alpha - m (x + i))) m

/-- src/la.c:130-133 `aa_la_sdiv`. -/
def sdiv (n : Nat) (alpha : K) (x r : Nat) (m : Mem K) : Mem K :=
  forN n (fun i m => store m (r + i) (alpha / m (x + i))) m

/-- src/la.c:135-139 `aa_la_vadd`. -/
def vadd (n x y r : Nat) (m : Mem K) : Mem K :=
  forN n (fun i m => store m (r + i) (m (x + i) + m (y + i))) m

/-- src/la.c:141-145 `aa_la_vsub`. -/
def vsub (n x y r : Nat) (m : Mem K) : Mem K :=
  forN n (fun i m => store m (r + i) (m (x + i) - m (y + i))) m

/-- src/la.c:147-151 `aa_la_vmul`. -/
def vmul (n x y r : Nat) (m : Mem K) : Mem K :=
  forN n (fun i m => store m (r + i) (m (x + i) * m (y + i))) m

/-- src/la.c:153-157 `aa_la_vdiv`. -/
def vdiv (n x y r : Nat) (m : Mem K) : Mem K :=
  forN n (fun i m => store m (r + i) (m (x + i) / m (y + i))) m

/-- src/la.c:159-163 `aa_la_cross`, three stores in order (the output may alias an input). -/
def cross (a b c : Nat) (m : Mem K) : Mem K :=
  let m := store m (c + 0) (m (a + 1) * m (b + 2) - m (a + 2) * m (b + 1))
  let m := store m (c + 1) (m (a + 2) * m (b + 0) - m (a + 0) * m (b + 2))
  store m (c + 2) (m (a + 0) * m (b + 1) - m (a + 1) * m (b + 0))

/-- src/la.c:165-167 `aa_la_normalize`; the division `1.0/0` is `none`. -/
noncomputable def normalize (n x : Nat) (m : Mem ℝ) : Option (Mem ℝ) :=
  if norm n x m = 0 then none else some (scal n (1 / norm n x m) x m)

/-! ## Matrices (src/la.c:169-205) -/

/-- src/la.c:171-177 `aa_la_transpose2`. -/
def transpose2 (rows cols a at_ : Nat) (m : Mem K) : Mem K :=
  forN rows (fun i m => forN cols (fun j m => store m (at_ + (cols * i + j)) (m (a + (rows * j + i)))) m) m

/-- src/la.c:180-188 `aa_la_transpose`; the inner loop is over `j = i+1+d`. -/
def transpose (n a : Nat) (m : Mem K) : Mem K :=
  forN n (fun i m => forN (n - (i + 1)) (fun d m =>
    let j := i + 1 + d
    let t := m (a + (n * j + i))
    let m := store m (a + (n * j + i)) (m (a + (n * i + j)))
    store m (a + (n * i + j)) t) m) m

/-- src/la_impl.c:45-53 `aa_la_d_transpose`. -/
def transposeLd (rows cols a lda b ldb : Nat) (m : Mem K) : Mem K :=
  forN cols (fun i m => forN rows (fun j m => store m (b + (ldb * j + i)) (m (a + (lda * i + j)))) m) m

/-- src/la.c:190-192 `aa_la_trace`: `cblas_dasum` sums absolute values. -/
def trace (n a : Nat) (m : Mem ℝ) : ℝ := forN n (fun k s => s + |m (a + k * (n + 1))|) 0

/-- src/la.c:194-203 `aa_la_wdot`. -/
def wdot (n x a y : Nat) (m : Mem K) : K :=
  forN n (fun i s => s + m (y + i) * forN n (fun k s => s + m (a + i * n + k) * m (x + k)) 0) 0

/-- src/la.c:494-507 `aa_la_det3x3`, with the column major `AA_MATREF(R,3,i,j) = R[3*j+i]`. -/
def det3x3 (r : Nat) (m : Mem K) : K :=
  let R := fun i j => m (r + (3 * j + i))
  R 0 0 * (R 1 1 * R 2 2 - R 1 2 * R 2 1) - R 0 1 * (R 1 0 * R 2 2 - R 1 2 * R 2 0) +
    R 0 2 * (R 1 0 * R 2 1 - R 1 1 * R 2 0)

/-- include/amino/math.h:483-488 `aa_la_diag`. -/
def diag (n a : Nat) (x : K) (m : Mem K) : Mem K := forN n (fun i m => store m (a + (i * n + i)) x) m

/-- include/amino/math.h:490-495 `aa_la_ident`. -/
def ident (n a : Nat) (m : Mem K) : Mem K :=
  diag n a 1 (forN (n * n) (fun i m => store m (a + i) 0) m)

/-- include/amino/math.h:497-503 `aa_la_mvmul`. -/
def mvmul (rows cols a x b : Nat) (m : Mem K) : Mem K := dgemv false rows cols 1 a rows x 1 0 b 1 m

/-! ## Interpolation (src/la.c:400-492) -/

/-- src/la_impl.c:361-374 `aa_la_d_lerp`. -/
def lerp (n : Nat) (u : K) (v1 inc1 v2 inc2 vu incu : Nat) (m : Mem K) : Mem K :=
  forN n (fun k m => store m (vu + k * incu) (m (v1 + k * inc1) + u * (m (v2 + k * inc2) - m (v1 + k * inc1)))) m

/-- src/la.c:413-421 `aa_la_linterp`; `none` on division by zero. -/
def linterp [DecidableEq K] (n : Nat) (t0 : K) (x0 : Nat) (t1 : K) (x1 : Nat) (ti : K) (xi : Nat) (m : Mem K) :
    Option (Mem K) :=
  if t1 - t0 = 0 then none else some (lerp n ((ti - t0) / (t1 - t0)) x0 1 x1 1 xi 1 m)

/-- src/la.c:438-449 the rows of the inverse Vandermonde matrix for `a`, `b` and `c`. -/
def quadM0 (t0 t1 t2 : K) : K × K × K :=
  (t1 * t2 / ((t1 - t0) * (t2 - t0)), -t0 * t2 / ((t1 - t0) * (t2 - t1)), t0 * t1 / ((t2 - t0) * (t2 - t1)))
def quadM1 (t0 t1 t2 : K) : K × K × K :=
  (-(t2 + t1) / ((t1 - t0) * (t2 - t0)), (t2 + t0) / ((t1 - t0) * (t2 - t1)), -(t1 + t0) / ((t2 - t0) * (t2 - t1)))
def quadM2 (t0 t1 t2 : K) : K × K × K :=
  (1 / ((t1 - t0) * (t2 - t0)), -1 / ((t1 - t0) * (t2 - t1)), 1 / ((t2 - t0) * (t2 - t1)))

def dot3 (M : K × K × K) (a b c : K) : K := M.1 * a + M.2.1 * b + M.2.2 * c

/-- src/la.c:416-460 `aa_la_quadterp`; `none` on division by zero. -/
def quadterp [DecidableEq K] (n : Nat) (t0 : K) (x0 : Nat) (t1 : K) (x1 : Nat) (t2 : K) (x2 : Nat) (ti : K)
    (xi : Nat) (m : Mem K) : Option (Mem K) :=
  if (t1 - t0) * (t2 - t0) = 0 ∨ (t1 - t0) * (t2 - t1) = 0 ∨ (t2 - t0) * (t2 - t1) = 0 then none
  else some (forN n (fun i m => store m (xi + i)
    (dot3 (quadM0 t0 t1 t2) (m (x0 + i)) (m (x1 + i)) (m (x2 + i)) +
     dot3 (quadM1 t0 t1 t2) (m (x0 + i)) (m (x1 + i)) (m (x2 + i)) * ti +
     dot3 (quadM2 t0 t1 t2) (m (x0 + i)) (m (x1 + i)) (m (x2 + i)) * (ti * ti))) m)

/-- src/la.c:462-487 `aa_la_quadterp_dx`; `none` on division by zero. -/
def quadterpDx [DecidableEq K] (n : Nat) (t0 : K) (x0 : Nat) (t1 : K) (x1 : Nat) (t2 : K) (x2 : Nat) (ti : K)
    (xi : Nat) (m : Mem K) : Option (Mem K) :=
  if (t1 - t0) * (t2 - t0) = 0 ∨ (t1 - t0) * (t2 - t1) = 0 ∨ (t2 - t0) * (t2 - t1) = 0 then none
  else some (forN n (fun i m => store m (xi + i)
    (dot3 (quadM1 t0 t1 t2) (m (x0 + i)) (m (x1 + i)) (m (x2 + i)) +
     dot3 (quadM2 t0 t1 t2) (m (x0 + i)) (m (x1 + i)) (m (x2 + i)) * (ti / 2))) m)

/-! ## Planes (src/la.c:510-518) -/

/-- src/la.c:510-513 `aa_la_point_plane`; `cblas_dnrm2` is the norm. -/
noncomputable def pointPlane (n point plane : Nat) (m : Mem ℝ) : Option ℝ :=
  if norm n plane m = 0 then none
  else some ((dot n point plane m + m (plane + n)) / norm n plane m)

/-- src/la.c:515-518 `aa_la_plane_hessian`, for `n ≥ 1`. -/
noncomputable def planeHessian (n plane : Nat) (m : Mem ℝ) : Option (Mem ℝ) :=
  if norm (n - 1) plane m = 0 then none else some (dscal n (1 / norm (n - 1) plane m) plane 1 m)

/-! ## Statistics of matrices (src/la_impl.c:376-434, 776-790) -/

/-- src/la_impl.c:376-388 `aa_la_d_colmean`; `none` on division by zero. -/
def colmean [DecidableEq K] (rows cols a lda x : Nat) (m : Mem K) : Option (Mem K) :=
  let m := forN rows (fun i m => store m (x + i) 0) m
  let m := forN cols (fun i m => daxpy rows 1 (a + i * lda) 1 x 1 m) m
  if (cols : K) = 0 then none else some (dscal rows (1 / (cols : K)) x 1 m)

/-- src/la_impl.c:391-403 `aa_la_d_rowmean`. -/
def rowmean [DecidableEq K] (rows cols a lda x : Nat) (m : Mem K) : Option (Mem K) :=
  let m := forN cols (fun i m => store m (x + i) 0) m
  let m := forN rows (fun i m => daxpy cols 1 (a + i) lda x 1 m) m
  if (rows : K) = 0 then none else some (dscal cols (1 / (rows : K)) x 1 m)

/-- `cblas_dsyr`, upper half, column major, of a local array `t`. -/
def dsyr (n : Nat) (t : Nat → K) (e lde : Nat) (m : Mem K) : Mem K :=
  forN n (fun j m => forN (j + 1) (fun i m => store m (e + (lde * j + i)) (m (e + (lde * j + i)) + t i * t j)) m) m

/-- src/la_impl.c:405-434 `aa_la_d_colcov`; the local array `t` holds `A_j - x`. `none` on division by
zero; `cols = 0` is not used (`n-1` wraps round). -/
def colcov [DecidableEq K] (rows cols a lda x e lde : Nat) (m : Mem K) : Option (Mem K) :=
  let m := forN rows (fun j m => forN rows (fun i m => store m (e + (j * lde + i)) 0) m) m
  let m := forN cols (fun j m =>
    let t := fun r => m (a + (j * lda + r)) + -1 * m (x + r)
    dsyr rows t e lde m) m
  if ((cols - 1 : Nat) : K) = 0 then none
  else
    let m := dscal (rows * rows) (1 / ((cols - 1 : Nat) : K)) e 1 m
    some (forN rows (fun i m => forN (rows - (i + 1)) (fun d m =>
      let j := i + 1 + d
      store m (e + (rows * i + j)) (m (e + (rows * j + i)))) m) m)

/-- src/la_impl.c:776-790 `aa_la_d_vecstd`; `none` on division by zero (`n = 1`); `n = 0` is not used. -/
noncomputable def vecstd (n x incx : Nat) (mu : ℝ) (m : Mem ℝ) : Option ℝ :=
  if n - 1 = 0 then none
  else some (Real.sqrt (forN n (fun k a => a + (m (x + k * incx) - mu) * (m (x + k * incx) - mu)) 0 / ((n - 1 : Nat) : ℝ)))

/-! ## Angles and extrema -/

/-- src/la_impl.c:710-733 `aa_la_d_angle`. -/
noncomputable def angle (n x incx y incy : Nat) (m : Mem ℝ) : ℝ :=
  let nx := Real.sqrt (forN n (fun k a => a + m (x + k * incx) * m (x + k * incx)) 0)
  let ny := Real.sqrt (forN n (fun k a => a + m (y + k * incy) * m (y + k * incy)) 0)
  let s := forN n (fun k a => a + (ny * m (x + k * incx) - nx * m (y + k * incy)) *
    (ny * m (x + k * incx) - nx * m (y + k * incy))) 0
  let c := forN n (fun k a => a + (ny * m (x + k * incx) + nx * m (y + k * incy)) *
    (ny * m (x + k * incx) + nx * m (y + k * incy))) 0
  2 * Tf.atan2 (Real.sqrt s) (Real.sqrt c)

/-- include/amino/la_impl.h:307-318 `aa_la_d_minloc`, over any order. The loop starts at 1. -/
def minloc {α : Type} [LT α] [DecidableLT α] (n x incx : Nat) (m : Nat → α) : Nat :=
  (forN (n - 1) (fun k (s : Nat × α) =>
    if m (x + (k + 1) * incx) < s.2 then (k + 1, m (x + (k + 1) * incx)) else s) (0, m x)).1

/-- include/amino/la_impl.h:343-354 `aa_la_d_maxloc`. -/
def maxloc {α : Type} [LT α] [DecidableLT α] (n x incx : Nat) (m : Nat → α) : Nat :=
  (forN (n - 1) (fun k (s : Nat × α) =>
    if m (x + (k + 1) * incx) > s.2 then (k + 1, m (x + (k + 1) * incx)) else s) (0, m x)).1

/-- include/amino/la_impl.h:321-339 `aa_la_d_mat_max`: location and value. -/
def matMax {α : Type} [LT α] [DecidableLT α] (rows cols a lda : Nat) (m : Nat → α) : (Nat × Nat) × α :=
  forN rows (fun i s => forN cols (fun j (s : (Nat × Nat) × α) =>
    if m (a + (lda * j + i)) > s.2 then ((i, j), m (a + (lda * j + i))) else s) s) ((0, 0), m a)

/-! ## Medians (src/la_impl.c:629-685) -/

/-- src/la_impl.c:629-636 `aa_la_d_compar`. (The `float` instance `aa_la_s_compar` also reads its
arguments as `double`, beyond the element.) -/
noncomputable def compar (a b : ℝ) : Int := if a < b then -1 else if a > b then 1 else 0

/-- src/la_impl.c:638-655 `aa_la_d_nmedian` of an array, sorted in place by `aa_aheap_sort`. -/
noncomputable def nmedian (n : Nat) (x : Nat → ℝ) : ℝ :=
  if n = 0 then 0
  else if n = 1 then x 0
  else
    let y := Heap.sort compar n x
    if n % 2 = 1 then y (n / 2) else (y (n / 2) + y (n / 2 - 1)) / 2

/-- src/la_impl.c:657-662 `aa_la_d_median`: works on a copy. -/
noncomputable def median (n x incx : Nat) (m : Mem ℝ) : ℝ := nmedian n (fun k => m (x + k * incx))

/-- src/la_impl.c:664-674 `aa_la_d_mad`. -/
noncomputable def mad (n : Nat) (u : ℝ) (x incx : Nat) (m : Mem ℝ) : ℝ :=
  nmedian n (fun k => |u - m (x + k * incx)|)

/-- src/la_impl.c:676-685 `aa_la_d_mad2`. -/
noncomputable def mad2 (rows n u a lda : Nat) (m : Mem ℝ) : ℝ :=
  nmedian n (fun i => Real.sqrt (ssdInc rows (a + i * lda) 1 u 1 m))

end Verif.La
