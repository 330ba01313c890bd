import Verif.Model.TfVel

/-!
# Checks, projections, nearest rotation vectors and random poses (src/tf.c)

Exact arithmetic. The inverse of LAPACK is an arbitrary function `inv`.
-/

namespace Verif.Tf

noncomputable section

/-- the nine numbers of the array. -/
def M3.arr (R : M3) : List ℝ := [R.m0, R.m1, R.m2, R.m3, R.m4, R.m5, R.m6, R.m7, R.m8]

/-- include/amino/math.h:114-116 `aa_feq`. -/
def feq (a b tol : ℝ) : Bool := decide (|a - b| ≤ tol)

/-- src/math.c:47-52 `aa_veq`: stops at the first pair that differs. -/
def veq (tol : ℝ) : List ℝ → List ℝ → Bool
  | a :: as, b :: bs => if !feq a b tol then false else veq tol as bs
  | _, _ => true

/-- src/la.c:496-507 `aa_la_det3x3`; `AA_MATREF(R,3,i,j)` is `R[j*3+i]`. -/
def det3x3 (R : M3) : ℝ :=
  R.m0 * (R.m4 * R.m8 - R.m7 * R.m5) - R.m3 * (R.m1 * R.m8 - R.m7 * R.m2) + R.m6 * (R.m1 * R.m5 - R.m4 * R.m2)

/-- src/tf.c:330-339 `aa_tf_isrotmat`; `inv` is `aa_la_inv` (src/la.c:203-228), whose status is ignored. -/
def isrotmat (inv : M3 → M3) (R : M3) : Bool :=
  let Rt := transp R
  let Ri := inv R
  let d := det3x3 R
  veq 0.0001 Rt.arr Ri.arr && feq d 1 0.0001

/-- src/tf.c:564-573 `aa_tf_proj`; `none` where the code divides by zero. -/
def proj (a b : V3) : Option V3 :=
  let ab := vdot a b
  let bb := vdot b b
  if bb = 0 then none
  else
    let k := ab / bb
    some ⟨k * b.x, k * b.y, k * b.z⟩

/-- src/tf.c:575-583 `aa_tf_proj_orth`. -/
def projOrth (a b : V3) : Option V3 :=
  (proj a b).map fun p => ⟨a.x - p.x, a.y - p.y, a.z - p.z⟩

/-- src/tf.c:308-315 `aa_tf_quat2rotvec_near`. -/
def quat2rotvecNear (q : Quat) (near : V3) : V3 := rotvecNear (axang2rotvec (quat2axang q)) near

/-- src/math.c:73-75 `aa_frand`, with `r` the value of `rand()` and `M` that of `RAND_MAX`. -/
def frand (M r : Nat) : ℝ := (r : ℝ) / (M : ℝ)

/-- src/tf.c:512-516 `aa_tf_qurand`; `r i` is what the call number `i` of `rand()` in `aa_vrand`
(src/math.c:83-86) returns. `none` where `aa_tf_qnormalize` divides by zero. -/
def qurand (M : Nat) (r : Nat → Nat) : Option Quat :=
  let q : Quat := ⟨frand M (r 0) - 0.5, frand M (r 1) - 0.5, frand M (r 2) - 0.5, frand M (r 3) - 0.5⟩
  if qnorm q = 0 then none else some (qnormalize q)

/-- src/tf.c:518-523 `aa_tf_qutr_rand`: the quaternion is at the beginning of the array. -/
def qutrRand (M : Nat) (r : Nat → Nat) : Option Qutr :=
  let x := fun i => frand M (r i) - 0.5
  let q : Quat := ⟨x 0, x 1, x 2, x 3⟩
  if qnorm q = 0 then none else some ⟨qnormalize q, ⟨x 4, x 5, x 6⟩⟩

/-- src/tf/tfmatrix.c:830-834 `aa_tf_tfmat_normalize`: the rotation part, at the beginning of the array. -/
def tfmatNormalize (T : Tfm) : Tfm := ⟨rotmatNormalize T.R, T.v⟩

end

end Verif.Tf
