import Mathlib.Analysis.SpecialFunctions.Trigonometric.Basic
import Mathlib.Analysis.SpecialFunctions.Complex.Arg
import Mathlib.Analysis.SpecialFunctions.Log.Basic
import Mathlib.Analysis.SpecialFunctions.Sqrt

/-!
# Transforms: vectors, quaternions, rotation matrices, rigid transforms

Transcription of `src/tf/quat.c`, `src/tf/quat_ord.c`, `src/tf/quat_duqu.c`, `src/tf/quat_qutr.c`,
`src/tf/tfmatrix.c`, `src/tf/conv.c` and `src/tf.c` over the real numbers.  `double` arithmetic is
read as exact real arithmetic; rounding, infinities and NaN are not modelled.  C arrays of fixed
length become structures, one field per array element:

* `double[3]` is `V3` (elements 0, 1, 2);
* `double[4]` quaternion is `Quat` with `AA_TF_QUAT_X..W` = 0..3 (include/amino/tf/spatial.h);
* `double[9]` is `M3`, column major: element `k` of the array is field `mk`;
* `double[12]` is `Tfm` (rotation 0..8, translation 9..11);
* `double[7]` is `Qutr` (quaternion 0..3, translation 4..6);
* `double[8]` is `Duqu` (real 0..3, dual 4..7).
-/

namespace Verif.Tf

noncomputable section

@[ext] structure V3 where
  x : ℝ
  y : ℝ
  z : ℝ

@[ext] structure Quat where
  x : ℝ
  y : ℝ
  z : ℝ
  w : ℝ

/-- Column-major 3x3 array: `RREF(R,row,col) = R[3*col+row]` (src/tf/tfmatrix.c:133). -/
@[ext] structure M3 where
  m0 : ℝ
  m1 : ℝ
  m2 : ℝ
  m3 : ℝ
  m4 : ℝ
  m5 : ℝ
  m6 : ℝ
  m7 : ℝ
  m8 : ℝ

@[ext] structure Tfm where
  R : M3
  v : V3

@[ext] structure Qutr where
  q : Quat
  v : V3

@[ext] structure Duqu where
  real : Quat
  dual : Quat

/-! ## Vectors -/

/-- include/amino/tf/spatial.h:604-605,611 `AA_TF_VDOT`; include/amino_internal.h:64 `dot3`. -/
def vdot (a b : V3) : ℝ := a.x * b.x + a.y * b.y + a.z * b.z

/-- include/amino/tf/spatial.h:643-646 `AA_TF_CROSSX`; src/tf/quat.c:51-56 `aa_tf_cross`. -/
def cross (a b : V3) : V3 :=
  ⟨a.y * b.z - a.z * b.y, a.z * b.x - a.x * b.z, a.x * b.y - a.y * b.x⟩

/-- src/tf/quat.c:59-68 `aa_tf_cross_a`: cross product accumulated onto `c`. -/
def crossA (a b c : V3) : V3 :=
  ⟨c.x + a.y * b.z - a.z * b.y, c.y + a.z * b.x - a.x * b.z, c.z + a.x * b.y - a.y * b.x⟩

/-- src/tf/quat_ord.c:103-107 `aa_tf_vnorm`. -/
def vnorm (a : V3) : ℝ := Real.sqrt (vdot a a)

/-- the `FOR_VEC(i) v[i] = k*v[i]` idiom. -/
def vscal (k : ℝ) (a : V3) : V3 := ⟨k * a.x, k * a.y, k * a.z⟩

def vadd (a b : V3) : V3 := ⟨a.x + b.x, a.y + b.y, a.z + b.z⟩

def vneg (a : V3) : V3 := ⟨-a.x, -a.y, -a.z⟩

/-- src/tf/quat_ord.c:116-121 `aa_tf_vnormalize`, src/tf/tfmatrix.c:91-97 `vnormalize2`. -/
def vnormalize (a : V3) : V3 :=
  let n := Real.sqrt (vdot a a)
  ⟨a.x / n, a.y / n, a.z / n⟩

/-! ## Ordinary quaternions -/

/-- vector part, `q + AA_TF_QUAT_V`. -/
def Quat.vec (q : Quat) : V3 := ⟨q.x, q.y, q.z⟩

/-- a quaternion from vector and scalar part. -/
def mkq (v : V3) (w : ℝ) : Quat := ⟨v.x, v.y, v.z, w⟩

/-- `aa_tf_quat_ident`. -/
def qident : Quat := ⟨0, 0, 0, 1⟩

/-- include/amino/tf/spatial.h:730-733 `AA_TF_QDOT`. -/
def qdot (a b : Quat) : ℝ := a.x * b.x + a.y * b.y + a.z * b.z + a.w * b.w

/-- src/tf/quat_ord.c:97-101 `aa_tf_qnorm`. -/
def qnorm (q : Quat) : ℝ := Real.sqrt (qdot q q)

/-- src/tf/quat_ord.c:130-134 `aa_tf_qscal`. -/
def qscal (q : Quat) (k : ℝ) : Quat := ⟨q.x * k, q.y * k, q.z * k, q.w * k⟩

/-- src/tf.c:101-104 `aa_tf_qadd`. -/
def qadd (a b : Quat) : Quat := ⟨a.x + b.x, a.y + b.y, a.z + b.z, a.w + b.w⟩

/-- src/tf.c:106-109 `aa_tf_qsub`. -/
def qsub (a b : Quat) : Quat := ⟨a.x - b.x, a.y - b.y, a.z - b.z, a.w - b.w⟩

/-- src/tf/quat_ord.c:136-148 `aa_tf_qnormalize`, `aa_tf_qnormalize2`. -/
def qnormalize (q : Quat) : Quat :=
  let n := qnorm q
  ⟨q.x / n, q.y / n, q.z / n, q.w / n⟩

/-- src/tf/quat_ord.c:150-164 `aa_tf_qminimize`, `aa_tf_qminimize2`. -/
def qminimize (q : Quat) : Quat := if q.w < 0 then ⟨-q.x, -q.y, -q.z, -q.w⟩ else q

/-- src/tf/quat_ord.c:173-185 `aa_tf_qconj1`, `aa_tf_qconj`. -/
def qconj (q : Quat) : Quat := ⟨-q.x, -q.y, -q.z, q.w⟩

/-- src/tf/quat_ord.c:188-194 `aa_tf_qinv`. -/
def qinv (q : Quat) : Quat :=
  let r := qconj q
  let n := qdot q q
  ⟨r.x / n, r.y / n, r.z / n, r.w / n⟩

/-- src/tf/quat_ord.c:260-272 `aa_tf_qmul`. -/
def qmul (a b : Quat) : Quat :=
  ⟨a.x * b.w + a.y * b.z + a.w * b.x - a.z * b.y,
   a.z * b.x + a.w * b.y + a.y * b.w - a.x * b.z,
   a.w * b.z + a.z * b.w + a.x * b.y - a.y * b.x,
   -(a.y * b.y + a.x * b.x + a.z * b.z - a.w * b.w)⟩

/-- src/tf/quat_ord.c:274-286 `aa_tf_qmul_a`: product accumulated onto `c`. -/
def qmulA (a b c : Quat) : Quat :=
  ⟨c.x + a.x * b.w + a.y * b.z + a.w * b.x - a.z * b.y,
   c.y + a.z * b.x + a.w * b.y + a.y * b.w - a.x * b.z,
   c.z + a.w * b.z + a.z * b.w + a.x * b.y - a.y * b.x,
   c.w - a.y * b.y - a.x * b.x - a.z * b.z + a.w * b.w⟩

/-- src/tf/quat_ord.c:289-294 `aa_tf_qmulnorm`. -/
def qmulnorm (a b : Quat) : Quat := qnormalize (qmul a b)

/-- src/tf/quat_ord.c:296-305 `aa_tf_qcmul`: conj(a) b. -/
def qcmul (a b : Quat) : Quat :=
  ⟨(a.z * b.y - a.y * b.z) + (a.w * b.x - a.x * b.w),
   (a.x * b.z - a.z * b.x) + (a.w * b.y - a.y * b.w),
   (a.y * b.x - a.x * b.y) + (a.w * b.z - a.z * b.w),
   (a.w * b.w + a.z * b.z) + (a.x * b.x + a.y * b.y)⟩

/-- src/tf/quat_ord.c:309-318 `aa_tf_qmulc_v`: vector part of a conj(b). -/
def qmulcV (a b : Quat) : V3 :=
  ⟨a.z * b.y - a.y * b.z + a.x * b.w - a.w * b.x,
   a.x * b.z - a.z * b.x + a.y * b.w - a.w * b.y,
   a.y * b.x - a.x * b.y + a.z * b.w - a.w * b.z⟩

/-- src/tf/quat_ord.c:320-327 `aa_tf_qmulc`. -/
def qmulc (a b : Quat) : Quat :=
  mkq (qmulcV a b) ((a.x * b.x + a.y * b.y) + (a.z * b.z + a.w * b.w))

/-- src/tf/quat_ord.c:329-339 `aa_tf_qmul_vq`: pure quaternion v times q. -/
def qmulVQ (v : V3) (q : Quat) : Quat :=
  ⟨v.y * q.z - v.z * q.y + v.x * q.w,
   v.z * q.x - v.x * q.z + v.y * q.w,
   v.x * q.y - v.y * q.x + v.z * q.w,
   -vdot q.vec v⟩

/-- src/tf/quat_ord.c:341-348 `aa_tf_qmul_qv_v`. -/
def qmulQVv (q : Quat) (v : V3) : V3 :=
  ⟨q.y * v.z - q.z * v.y + q.w * v.x,
   q.z * v.x - q.x * v.z + q.w * v.y,
   q.x * v.y - q.y * v.x + q.w * v.z⟩

/-- src/tf/quat_ord.c:350-355 `aa_tf_qmul_qv`. -/
def qmulQV (q : Quat) (v : V3) : Quat := mkq (qmulQVv q v) (-vdot q.vec v)

/-- src/tf/quat_ord.c:358-366 `aa_tf_qrot1`. -/
def qrot1 (q : Quat) (v : V3) : V3 :=
  let a := qmulQVv q v
  let a : V3 := ⟨a.x * 2, a.y * 2, a.z * 2⟩
  crossA q.vec a v

/-- src/tf/quat_ord.c:368-388 `aa_tf_qrot`. -/
def qrot (q : Quat) (p : V3) : V3 :=
  let k : V3 := ⟨p.x + p.x, p.y + p.y, p.z + p.z⟩
  let a : V3 := ⟨(q.y * k.z - q.z * k.y) + q.w * k.x,
                 (q.z * k.x - q.x * k.z) + q.w * k.y,
                 (q.x * k.y - q.y * k.x) + q.w * k.z⟩
  ⟨p.x + q.y * a.z - q.z * a.y, p.y + q.z * a.x - q.x * a.z, p.z + q.x * a.y - q.y * a.x⟩

/-- src/tf.c:94-99 `aa_tf_qrel`. -/
def qrel (q1 q2 : Quat) : Quat := qmul q1 (qinv q2)

/-- A 4x4 matrix as its four columns. -/
@[ext] structure M4 where
  c0 : Quat
  c1 : Quat
  c2 : Quat
  c3 : Quat

/-- src/tf/quat_ord.c:196-220 `aa_tf_qmatrix_l`, the four columns x, y, z, w. -/
def qmatrixL (q : Quat) : M4 :=
  ⟨⟨q.w, q.z, -q.y, -q.x⟩, ⟨-q.z, q.w, q.x, -q.y⟩, ⟨q.y, -q.x, q.w, -q.z⟩, ⟨q.x, q.y, q.z, q.w⟩⟩

/-- src/tf/quat_ord.c:222-246 `aa_tf_qmatrix_r`. -/
def qmatrixR (q : Quat) : M4 :=
  ⟨⟨q.w, -q.z, q.y, -q.x⟩, ⟨q.z, q.w, -q.x, -q.y⟩, ⟨-q.y, q.x, q.w, -q.z⟩, ⟨q.x, q.y, q.z, q.w⟩⟩

/-- matrix times vector for `M4` (what `dgemv` computes on the 4x4 array). -/
def M4.mulVec (M : M4) (b : Quat) : Quat :=
  qadd (qadd (qscal M.c0 b.x) (qscal M.c1 b.y)) (qadd (qscal M.c2 b.z) (qscal M.c3 b.w))

/-! ## Series helpers -/

/-- `DBL_EPSILON`, 2^-52. -/
def dblEpsilon : ℝ := 1 / 4503599627370496

/-- include/amino/math.h:181-184 `aa_horner3`. -/
def horner3 (x a0 a1 a2 : ℝ) : ℝ := a0 + x * (a1 + x * a2)

/-- include/amino/tf/spatial.h:74-88. -/
def sincSeries2 (t2 : ℝ) : ℝ := horner3 t2 1 (-1 / 6) (1 / 120)
def cosSeries2 (t2 : ℝ) : ℝ := horner3 t2 1 (-1 / 2) (1 / 24)
def invsincSeries2 (t2 : ℝ) : ℝ := horner3 t2 1 (1 / 6) (7 / 360)
def sincSeries (t : ℝ) : ℝ := sincSeries2 (t * t)
def cosSeries (t : ℝ) : ℝ := cosSeries2 (t * t)
def invsincSeries (t : ℝ) : ℝ := invsincSeries2 (t * t)

/-- include/amino/tf/spatial.h:97-109 `aa_tf_sinccos2`, result `(sc, c)`. -/
def sinccos2 (t2 : ℝ) : ℝ × ℝ :=
  if t2 < Real.sqrt dblEpsilon then (sincSeries2 t2, cosSeries2 t2)
  else
    let t := Real.sqrt t2
    (Real.sin t / t, Real.cos t)

/-- include/amino/tf/spatial.h:114-125 `aa_tf_sinccos`. -/
def sinccos (t : ℝ) : ℝ × ℝ :=
  if t * t < Real.sqrt dblEpsilon then (sincSeries t, cosSeries t)
  else (Real.sin t / t, Real.cos t)

/-- include/amino/tf/spatial.h:130-138 `aa_tf_sinc`. -/
def sinc (t : ℝ) : ℝ :=
  if |t| < Real.sqrt (Real.sqrt dblEpsilon) then sincSeries t else Real.sin t / t

/-- C `atan2(y, x)`: the argument of `x + iy` (C Annex F agrees for `(0,0)` with `+0`). -/
def atan2 (y x : ℝ) : ℝ := Complex.arg ⟨x, y⟩

/-! ## Rotation matrices -/

/-- the identity matrix. -/
def m3ident : M3 := ⟨1, 0, 0, 0, 1, 0, 0, 0, 1⟩

/-- src/tf/tfmatrix.c:539-546 `aa_tf_rotmat_rot`; also `aa_tf_9`, `aa_tf_9rot`. -/
def rot9 (R : M3) (p : V3) : V3 :=
  ⟨R.m0 * p.x + R.m3 * p.y + R.m6 * p.z,
   R.m1 * p.x + R.m4 * p.y + R.m7 * p.z,
   R.m2 * p.x + R.m5 * p.y + R.m8 * p.z⟩

/-- src/tf/tfmatrix.c:588-614 `aa_tf_rotmat_mul`, `aa_tf_9mul`. -/
def mul9 (A B : M3) : M3 :=
  ⟨A.m0 * B.m0 + A.m3 * B.m1 + A.m6 * B.m2,
   A.m1 * B.m0 + A.m4 * B.m1 + A.m7 * B.m2,
   A.m2 * B.m0 + A.m5 * B.m1 + A.m8 * B.m2,
   A.m0 * B.m3 + A.m3 * B.m4 + A.m6 * B.m5,
   A.m1 * B.m3 + A.m4 * B.m4 + A.m7 * B.m5,
   A.m2 * B.m3 + A.m5 * B.m4 + A.m8 * B.m5,
   A.m0 * B.m6 + A.m3 * B.m7 + A.m6 * B.m8,
   A.m1 * B.m6 + A.m4 * B.m7 + A.m7 * B.m8,
   A.m2 * B.m6 + A.m5 * B.m7 + A.m8 * B.m8⟩

/-- `aa_la_transpose2(3,3,R,Rt)` (src/la.c) on column-major 3x3. -/
def transp (R : M3) : M3 := ⟨R.m0, R.m3, R.m6, R.m1, R.m4, R.m7, R.m2, R.m5, R.m8⟩

/-- src/tf.c:82-87 `aa_tf_9rel`. -/
def rel9 (R1 R2 : M3) : M3 := mul9 R1 (transp R2)

/-- src/tf/tfmatrix.c:135-151 `aa_tf_skew_sym`. -/
def skewSym (u : V3) : M3 := ⟨0, u.z, -u.y, -u.z, 0, u.x, u.y, -u.x, 0⟩

/-- src/tf/tfmatrix.c:163-204 `aa_tf_skewsym_scal_c`. -/
def skewsymScalC (u a b : V3) : M3 :=
  let bu : V3 := ⟨b.x * u.x, b.y * u.y, b.z * u.z⟩
  let bc : V3 := ⟨b.x * u.y, b.y * u.z, b.z * u.x⟩
  let cx := 1 - bu.z - bu.y
  let cy := 1 - bu.z - bu.x
  let cz := 1 - bu.y - bu.x
  let dx := a.z + bc.x
  let dy := a.x + bc.y
  let dz := a.y + bc.z
  let ex := bc.z - a.y
  let ey := bc.x - a.z
  let ez := bc.y - a.x
  ⟨cx, dx, ex, ey, cy, dy, dz, ez, cz⟩

/-- src/tf/tfmatrix.c:207-220 `aa_tf_skewsym_scal2`. -/
def skewsymScal2 (a b : ℝ) (u : V3) : M3 :=
  skewsymScalC u ⟨a * u.x, a * u.y, a * u.z⟩ ⟨b * u.x, b * u.y, b * u.z⟩

/-- src/tf/tfmatrix.c:222-234 `aa_tf_unskewsym_scal`. -/
def unskewsymScal (c : ℝ) (R : M3) : V3 := ⟨c * (R.m5 - R.m7), c * (R.m6 - R.m2), c * (R.m1 - R.m3)⟩

/-- src/tf/tfmatrix.c:236-248 `aa_tf_unskewsym`. -/
def unskewsym (R : M3) : V3 :=
  let tr := R.m0 + R.m4 + R.m8
  let c := Real.sqrt (tr + 1) / 2
  unskewsymScal c R

/-- src/tf/conv.c:114-129 `aa_tf_quat2rotmat`. -/
def quat2rotmat (q : Quat) : M3 :=
  let b : V3 := ⟨2 * q.x, 2 * q.y, 2 * q.z⟩
  let a : V3 := ⟨q.w * b.x, q.w * b.y, q.w * b.z⟩
  skewsymScalC q.vec a b

/-- The case `u = 0` of the permuted branch below: `(q[u], q[v], q[w], q_w)` from
`1 + R_uu - R_vv - R_ww` etc.  The index arithmetic `v = (u+1)%3`, `w = (u+2)%3` is expanded. -/
def rotmatQ0 (R : M3) : Quat :=
  let r := Real.sqrt (1 + R.m0 - R.m4 - R.m8)
  let s := 0.5 / r
  ⟨r / 2, (R.m3 + R.m1) * s, (R.m2 + R.m6) * s, (R.m5 - R.m7) * s⟩

/-- The case `u = 1`. -/
def rotmatQ1 (R : M3) : Quat :=
  let r := Real.sqrt (1 + R.m4 - R.m8 - R.m0)
  let s := 0.5 / r
  ⟨(R.m3 + R.m1) * s, r / 2, (R.m7 + R.m5) * s, (R.m6 - R.m2) * s⟩

/-- The case `u = 2`. -/
def rotmatQ2 (R : M3) : Quat :=
  let r := Real.sqrt (1 + R.m8 - R.m0 - R.m4)
  let s := 0.5 / r
  ⟨(R.m2 + R.m6) * s, (R.m7 + R.m5) * s, r / 2, (R.m1 - R.m3) * s⟩

/-- src/tf.c:274-286 and src/tf/tfmatrix.c:332-352 `rotmat_q`. -/
def rotmatQ (R : M3) : Quat :=
  if R.m0 < R.m4 then (if R.m4 < R.m8 then rotmatQ2 R else rotmatQ1 R)
  else (if R.m0 < R.m8 then rotmatQ2 R else rotmatQ0 R)

/-- src/tf.c:254-291 `aa_tf_rotmat2quat`. -/
def rotmat2quat (R : M3) : Quat :=
  let trace := R.m0 + R.m4 + R.m8
  let q :=
    if trace > 0 then
      let r := Real.sqrt (trace + 1)
      let s := 0.5 / r
      (⟨(R.m5 - R.m7) * s, (R.m6 - R.m2) * s, (R.m1 - R.m3) * s, r / 2⟩ : Quat)
    else qminimize (rotmatQ R)
  qnormalize q

/-! ## Rigid transforms: matrix -/

def tfmident : Tfm := ⟨m3ident, ⟨0, 0, 0⟩⟩

/-- src/tf/tfmatrix.c:562-573 `aa_tf_tfmat2_tf` (`aa_tf_93`, `aa_tf_12`, `aa_tf_tfmat_tf`). -/
def tfmTf (T : Tfm) (p : V3) : V3 :=
  ⟨T.v.x + T.R.m0 * p.x + T.R.m3 * p.y + T.R.m6 * p.z,
   T.v.y + T.R.m1 * p.x + T.R.m4 * p.y + T.R.m7 * p.z,
   T.v.z + T.R.m2 * p.x + T.R.m5 * p.y + T.R.m8 * p.z⟩

/-- src/tf/tfmatrix.c:626-651 `aa_tf_tfmat_mul`, `aa_tf_tfmat2_mul`, `aa_tf_12chain`,
`aa_tf_93chain`. -/
def tfmMul (A B : Tfm) : Tfm := ⟨mul9 A.R B.R, tfmTf A B.v⟩

/-- src/tf.c:52-61 `aa_tf_12inv`, `aa_tf_93inv`; src/tf/tfmatrix.c:504-519 `aa_tf_tfmat_inv*`. -/
def tfmInv (T : Tfm) : Tfm :=
  let Ri := transp T.R
  ⟨Ri, rot9 Ri (vneg T.v)⟩

/-- src/tf.c:63-74 `aa_tf_93rel`, `aa_tf_12rel`. -/
def tfmRel (A B : Tfm) : Tfm := tfmMul (tfmInv A) B

/-- src/tf.c:363-381 `aa_tf_v12chain` over its NULL-terminated argument list. -/
def tfmChain (A B : Tfm) (rest : List Tfm) : Tfm := rest.foldl tfmMul (tfmMul A B)

/-- src/tf.c:342-360 `aa_tf_v9mul`. -/
def m3Chain (A B : M3) (rest : List M3) : M3 := rest.foldl mul9 (mul9 A B)

/-! ## Rigid transforms: quaternion-translation -/

def qutrident : Qutr := ⟨qident, ⟨0, 0, 0⟩⟩

/-- src/tf/quat_qutr.c:48-90 `aa_tf_tf_qv`, `aa_tf_qutr_tf`. -/
def qutrTf (E : Qutr) (p : V3) : V3 :=
  let q := E.q
  let v := E.v
  let k : V3 := ⟨p.x + p.x, p.y + p.y, p.z + p.z⟩
  let a : V3 := ⟨(q.y * k.z - q.z * k.y) + q.w * k.x,
                 (q.z * k.x - q.x * k.z) + q.w * k.y,
                 (q.x * k.y - q.y * k.x) + q.w * k.z⟩
  ⟨p.x + v.x + q.y * a.z - q.z * a.y,
   p.y + v.y + q.z * a.x - q.x * a.z,
   p.z + v.z + q.x * a.y - q.y * a.x⟩

/-- src/tf/quat_qutr.c:93-110 `aa_tf_qv_chain`, `aa_tf_qutr_mul`. -/
def qutrMul (A B : Qutr) : Qutr := ⟨qmul A.q B.q, qutrTf A B.v⟩

/-- src/tf/quat_qutr.c:112-128 `aa_tf_qv_chainnorm`, `aa_tf_qutr_mulnorm`. -/
def qutrMulnorm (A B : Qutr) : Qutr := ⟨qmulnorm A.q B.q, qutrTf A B.v⟩

/-- src/tf/quat_qutr.c:130-144 `aa_tf_qv_conj`, `aa_tf_qutr_conj`. -/
def qutrConj (A : Qutr) : Qutr :=
  let qc := qconj A.q
  ⟨qc, vneg (qrot qc A.v)⟩

/-- src/tf/quat_qutr.c:146-160 `aa_tf_qutr_cmul`, `aa_tf_qutr_mulc`. -/
def qutrCmul (A B : Qutr) : Qutr := qutrMul (qutrConj A) B
def qutrMulc (A B : Qutr) : Qutr := qutrMul A (qutrConj B)

/-! ## Rigid transforms: dual quaternion -/

def duquident : Duqu := ⟨qident, ⟨0, 0, 0, 0⟩⟩

/-- src/tf/quat_duqu.c:81-95 `aa_tf_duqu_mul`. -/
def duquMul (A B : Duqu) : Duqu :=
  ⟨qmul A.real B.real, qmulA A.dual B.real (qmul A.real B.dual)⟩

/-- src/tf/quat_duqu.c:126-140 `aa_tf_duqu_conj`. -/
def duquConj (S : Duqu) : Duqu := ⟨qconj S.real, qconj S.dual⟩

/-- src/tf/quat_duqu.c:143-159 `aa_tf_duqu_cmul`, `aa_tf_duqu_mulc`. -/
def duquCmul (A B : Duqu) : Duqu := duquMul (duquConj A) B
def duquMulc (A B : Duqu) : Duqu := duquMul A (duquConj B)

/-- src/tf/quat_duqu.c:162-167 `aa_tf_duqu_normalize`. -/
def duquNormalize (S : Duqu) : Duqu :=
  let n := qnorm S.real
  ⟨⟨S.real.x / n, S.real.y / n, S.real.z / n, S.real.w / n⟩,
   ⟨S.dual.x / n, S.dual.y / n, S.dual.z / n, S.dual.w / n⟩⟩

/-- src/tf/quat_duqu.c:187-193 `aa_tf_duqu_minimize`. -/
def duquMinimize (S : Duqu) : Duqu :=
  if S.real.w < 0 then
    ⟨⟨S.real.x * -1, S.real.y * -1, S.real.z * -1, S.real.w * -1⟩,
     ⟨S.dual.x * -1, S.dual.y * -1, S.dual.z * -1, S.dual.w * -1⟩⟩
  else S

/-- src/tf/quat_duqu.c:290-295 `aa_tf_duqu_trans`. -/
def duquTrans (S : Duqu) : V3 :=
  let v := qmulcV S.dual S.real
  ⟨v.x * 2, v.y * 2, v.z * 2⟩

/-- src/tf/quat_duqu.c:304-316 `aa_tf_duqu_tf`. -/
def duquTf (S : Duqu) (p : V3) : V3 :=
  let x := qmulQV S.real p
  let d := S.dual
  let x : Quat := ⟨x.x + 2 * d.x, x.y + 2 * d.y, x.z + 2 * d.z, x.w + 2 * d.w⟩
  qmulcV x S.real

/-! ## Conversions between transform representations -/

/-- src/tf/conv.c:274-287 `aa_tf_qv2duqu`, `aa_tf_qutr2duqu`. -/
def qutr2duqu (E : Qutr) : Duqu := ⟨E.q, qmulVQ ⟨E.v.x / 2, E.v.y / 2, E.v.z / 2⟩ E.q⟩

/-- src/tf/conv.c:289-301 `aa_tf_duqu2qv`, `aa_tf_duqu2qutr`. -/
def duqu2qutr (S : Duqu) : Qutr := ⟨S.real, duquTrans S⟩

/-- src/tf/conv.c:304-314 `aa_tf_qv2tfmat`, `aa_tf_qutr2tfmat`. -/
def qutr2tfmat (E : Qutr) : Tfm := ⟨quat2rotmat E.q, E.v⟩

/-- src/tf/conv.c:48-53 `aa_tf_duqu2tfmat`. -/
def duqu2tfmat (S : Duqu) : Tfm := ⟨quat2rotmat S.real, duquTrans S⟩

/-- src/tf/conv.c:316-327 `aa_tf_tfmat2qv`, `aa_tf_tfmat2qutr`. -/
def tfmat2qutr (T : Tfm) : Qutr := ⟨rotmat2quat T.R, T.v⟩

/-- src/tf/conv.c:55-61 `aa_tf_tfmat2duqu`. -/
def tfmat2duqu (T : Tfm) : Duqu := qutr2duqu ⟨rotmat2quat T.R, T.v⟩

end

end Verif.Tf
