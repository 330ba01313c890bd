import Verif.Model.La

/-!
# Average orientation and relative translation (src/tf.c, src/tf/quat_ord.c)

Arrays of quaternions and of points are column-major in the memory of `Verif.Model.Mat`. The
eigenvalue routine `geev` of LAPACK is an arbitrary function.
-/

namespace Verif.TfAvg

open Verif.Mat Verif.Tf

/-- the four numbers at `AA_MATCOL(qq,ldqq,i)` (include/amino/math.h:339). -/
def colQ (qq ld i : Nat) (m : Mem ℝ) : Quat :=
  ⟨m (qq + i * ld), m (qq + i * ld + 1), m (qq + i * ld + 2), m (qq + i * ld + 3)⟩

/-- element `k` of the array of a quaternion. -/
def qat (q : Quat) (k : Nat) : ℝ := if k = 0 then q.x else if k = 1 then q.y else if k = 2 then q.z else q.w

/-- the quaternion whose array begins at element `a`. -/
def qOf (v : Nat → ℝ) (a : Nat) : Quat := ⟨v a, v (a + 1), v (a + 2), v (a + 3)⟩

/-- src/tf/quat_ord.c:922-943 `aa_tf_quat_davenport_matrix`: 16 elements, column-major. Each
`cblas_dgemm` adds `w[i]` times the 4x1 matrix `q` times its transpose. -/
def davenportMatrix (n : Nat) (w : Nat → ℝ) (qq ld : Nat) (m : Mem ℝ) : Nat → ℝ :=
  forN n (fun i M => fun a => M a + w i * (qat (colQ qq ld i m) (a % 4) * qat (colQ qq ld i m) (a / 4)))
    (fun _ => 0)

/-- `aa_la_d_eev` with `n = 4` and `Vl = NULL` (src/la_impl.c:571-601): real parts of the eigenvalues and
the right eigenvectors, column-major. -/
abbrev Eev := (Nat → ℝ) → (Nat → ℝ) × (Nat → ℝ)

/-- the general case of `aa_tf_quat_davenport`, src/tf.c:497-508. -/
noncomputable def davenportEig (eev : Eev) (M : Nat → ℝ) : Quat :=
  qOf (eev M).2 (4 * La.maxloc 4 0 1 (eev M).1)

/-- src/tf.c:473-509 `aa_tf_quat_davenport`; `w = none` is `NULL`. -/
noncomputable def davenport (eev : Eev) (n : Nat) (w : Option (Nat → ℝ)) (qq ld : Nat) (m : Mem ℝ) : Quat :=
  if n = 0 then ⟨0, 0, 0, 1⟩
  else if n = 1 then colQ qq ld 0 m
  else match w with
    | none => davenportEig eev (davenportMatrix n (fun _ => 1 / (n : ℝ)) qq ld m)
    | some w => davenportEig eev (davenportMatrix n w qq ld m)

/-- the three numbers at `p`. -/
def vOf (p : Nat) (m : Mem ℝ) : V3 := ⟨m p, m (p + 1), m (p + 2)⟩

/-- element `k` of the array of a vector. -/
def vat (v : V3) (k : Nat) : ℝ := if k = 0 then v.x else if k = 1 then v.y else v.z

/-- src/tf.c:525-538 `aa_tf_relx`. -/
def relx (n : Nat) (R : M3) (x ldx y ldy z ldz : Nat) (m : Mem ℝ) : Mem ℝ :=
  let m := dlacpy 3 n y ldy z ldz m
  forN n (fun j m =>
    let xp := rot9 R (vOf (x + ldx * j) m)
    forN 3 (fun i m => store m (z + (ldz * j + i)) (m (z + (ldz * j + i)) - vat xp i)) m) m

/-- src/tf.c:541-549 `aa_tf_relx_mean`; `yp` is the array of `3*n` numbers of the local region. `none` on
division by zero. -/
noncomputable def relxMean (n : Nat) (R : M3) (x ldx y ldy rel yp : Nat) (m : Mem ℝ) : Option (Mem ℝ) :=
  open Classical in La.colmean 3 n yp 3 rel (relx n R x ldx y ldy yp 3 m)

/-- src/tf.c:552-561 `aa_tf_relx_median`. -/
noncomputable def relxMedian (n : Nat) (R : M3) (x ldx y ldy rel yp : Nat) (m : Mem ℝ) : Mem ℝ :=
  let m := relx n R x ldx y ldy yp 3 m
  forN 3 (fun i m => store m (rel + i) (La.median n (yp + i) 3 m)) m

end Verif.TfAvg
