import Verif.Model.TfExp
import Verif.Model.Scalar

/-!
# Conversions between rotation representations

Over the reals (rounding is not modelled). `none` stands for a division by zero, whose C result is
an infinity or NaN.
-/

namespace Verif.Tf

noncomputable section

/-- include/amino/tf/spatial.h `aa_tf_axang_t`: axis and angle. -/
@[ext] structure Axang where
  axis : V3
  angle : ℝ

/-- the three coordinate axes, used to index the per-axis functions. -/
inductive Ax where
  | X | Y | Z
  deriving DecidableEq

/-- src/tf/conv.c:63-112 `aa_tf_xangle2rotmat`, `aa_tf_yangle2rotmat`, `aa_tf_zangle2rotmat`;
src/mac/amino.mac:83-99 `tf_rotx`, `tf_roty`, `tf_rotz`. -/
def angle2rotmat : Ax → ℝ → M3
  | .X, t => ⟨1, 0, 0, 0, Real.cos t, Real.sin t, 0, -Real.sin t, Real.cos t⟩
  | .Y, t => ⟨Real.cos t, 0, -Real.sin t, 0, 1, 0, Real.sin t, 0, Real.cos t⟩
  | .Z, t => ⟨Real.cos t, Real.sin t, 0, -Real.sin t, Real.cos t, 0, 0, 0, 1⟩

/-- src/tf/conv.c:132-160 `aa_tf_xangle2quat`, `aa_tf_yangle2quat`, `aa_tf_zangle2quat`;
src/mac/amino.mac:124-128 `qaxang`. -/
def angle2quat : Ax → ℝ → Quat
  | .X, t => ⟨Real.sin (t / 2), 0, 0, Real.cos (t / 2)⟩
  | .Y, t => ⟨0, Real.sin (t / 2), 0, Real.cos (t / 2)⟩
  | .Z, t => ⟨0, 0, Real.sin (t / 2), Real.cos (t / 2)⟩

/-- src/tf/conv.c:162-186 `aa_tf_xangle2axang`, `aa_tf_yangle2axang`, `aa_tf_zangle2axang`. -/
def angle2axang : Ax → ℝ → Axang
  | .X, t => ⟨⟨1, 0, 0⟩, t⟩
  | .Y, t => ⟨⟨0, 1, 0⟩, t⟩
  | .Z, t => ⟨⟨0, 0, 1⟩, t⟩

/-- src/mac/euler.mac:61-69 `aa_tf_euler***2rotmat` for the convention `a b c`
(the generator's instances: xyz xzy yxz yzx zxy zyx xyx xzx yxy yzy zxz zyz). -/
def euler2rotmat (a b c : Ax) (e1 e2 e3 : ℝ) : M3 :=
  mul9 (mul9 (angle2rotmat a e1) (angle2rotmat b e2)) (angle2rotmat c e3)

/-- src/mac/euler.mac:71-77 `aa_tf_euler***2quat`. -/
def euler2quat (a b c : Ax) (e1 e2 e3 : ℝ) : Quat :=
  qnormalize (qmul (qmul (angle2quat a e1) (angle2quat b e2)) (angle2quat c e3))

/-- src/tf/conv.c:188-196 `aa_tf_rotvec2quat`. -/
def rotvec2quat (a : V3) : Quat :=
  let s := sinccos2 ((a.x * a.x + a.y * a.y + a.z * a.z) / 4)
  let sc := s.1 / 2
  ⟨sc * a.x, sc * a.y, sc * a.z, s.2⟩

/-- src/tf/conv.c:198-215 `aa_tf_axang2quat2`, `aa_tf_axang2quat`. -/
def axang2quat (a : Axang) : Quat :=
  let s := Real.sin (a.angle / 2)
  ⟨s * a.axis.x, s * a.axis.y, s * a.axis.z, Real.cos (a.angle / 2)⟩

/-- src/tf/conv.c:218-233 `aa_tf_quat2eulerzyx`; result `(e[0], e[1], e[2])`. -/
def quat2eulerzyx (q : Quat) : Option (ℝ × ℝ × ℝ) :=
  let n := qnorm q
  if n = 0 then none
  else
    let x := q.x / n
    let y := q.y / n
    let z := q.z / n
    let w := q.w / n
    some (atan2 (2 * (w * z + x * y)) (1 - 2 * (y * y + z * z)),
      Real.arcsin (2 * (w * y - x * z)),
      atan2 (2 * (w * x + y * z)) (1 - 2 * (x * x + y * y)))

/-- src/tf/conv.c:235-253 `aa_tf_quat2rotvec`. -/
def quat2rotvec (q : Quat) : Option V3 :=
  let qs := vnorm q.vec
  let theta := atan2 qs q.w
  if theta < Real.sqrt (Real.sqrt dblEpsilon) then
    some (vscal (2 * invsincSeries theta) q.vec)
  else if qs = 0 then none
  else some (vscal (2 * theta / qs) q.vec)

/-- src/tf/conv.c:255-272 `aa_tf_quat2axang`. -/
def quat2axang (q : Quat) : Axang :=
  let theta := 2 * atan2 (vnorm q.vec) q.w
  let n := vnorm q.vec
  if n > 0 then ⟨⟨q.x / n, q.y / n, q.z / n⟩, theta⟩ else ⟨⟨0, 0, 0⟩, theta⟩

/-- src/tf.c:149-159 `aa_tf_axang_normalize` (`aa_tf_axang_make`, 137-147, is a store and this). -/
def axangNormalize (a : Axang) : Option Axang :=
  let ang := Scalar.angNormPi a.angle
  let n := vnorm a.axis
  if n = 0 then none
  else
    let n' := if ang < 0 then n * -1 else n
    let ang' := if ang < 0 then ang * -1 else ang
    some ⟨⟨a.axis.x / n', a.axis.y / n', a.axis.z / n'⟩, ang'⟩

/-- src/tf.c:161-177 `aa_tf_axang_rot`. -/
def axangRot (a : Axang) (v : V3) : V3 :=
  let c := Real.cos a.angle
  let s := Real.sin a.angle
  let kv := cross a.axis v
  let y := vdot a.axis v * (1 - c)
  ⟨v.x * c + kv.x * s + a.axis.x * y, v.y * c + kv.y * s + a.axis.y * y,
   v.z * c + kv.z * s + a.axis.z * y⟩

/-- src/tf.c:179-193 `aa_tf_axang_permute` (`permute2` is the pair `k = 1`, `k = -1`). -/
def axangPermute (a : Axang) (k : ℤ) : Axang := ⟨a.axis, a.angle + k * 2 * Real.pi⟩

/-- src/tf.c:224-228 `aa_tf_axang2rotvec`. -/
def axang2rotvec (a : Axang) : V3 := vscal a.angle a.axis

/-- src/tf.c:230-243 `aa_tf_rotvec2axang`; `AA_TF_EPSILON` is .0001 (spatial.h:145). -/
def rotvec2axang (r : V3) : Axang :=
  let a2 := vdot r r
  if a2 < 0.0001 * 0.0001 then quat2axang (rotvec2quat r)
  else
    let a := Real.sqrt a2
    ⟨⟨r.x / a, r.y / a, r.z / a⟩, a⟩

/-- src/tf.c:195-200 `aa_tf_rotvec_permute`. -/
def rotvecPermute (r : V3) (k : ℤ) : V3 := axang2rotvec (axangPermute (rotvec2axang r) k)

/-- src/la.c `aa_la_ssd` on three elements. -/
def ssd3 (a b : V3) : ℝ := (a.x - b.x) ^ 2 + (a.y - b.y) ^ 2 + (a.z - b.z) ^ 2

/-- src/tf.c:203-222 `aa_tf_rotvec_near`: the candidate with the least distance, the first one on a
tie (`aa_fminloc`). -/
def rotvecNear (r near : V3) : V3 :=
  [rotvecPermute r 1, rotvecPermute r 2, rotvecPermute r 3, rotvecPermute r (-1),
   rotvecPermute r (-2), rotvecPermute r (-3)].foldl
    (fun best c => if ssd3 near c < ssd3 near best then c else best) r

/-- src/tf/tfmatrix.c:250-255 `aa_tf_rotmat_exp_aa`; 293-296 `aa_tf_axang2rotmat`. -/
def rotmatExpAa (a : Axang) : M3 :=
  skewsymScal2 (Real.sin a.angle) (1 - Real.cos a.angle) a.axis

/-- src/tf.c:383-390 `aa_tf_axang2rotmat2`. -/
def axang2rotmat2 (a : Axang) : M3 := quat2rotmat (axang2quat a)

/-- src/tf.c:419-433 `aa_tf_rotmat2eulerzyx`; `AA_MATREF(R,3,i,j)` is `R[j*3+i]`. -/
def rotmat2eulerzyx (R : M3) : Option (ℝ × ℝ × ℝ) :=
  let b := atan2 (-R.m2) (Real.sqrt (R.m0 ^ 2 + R.m1 ^ 2))
  let cb := Real.cos b
  if cb = 0 then none
  else
    some (atan2 (R.m1 / cb) (R.m0 / cb), b, atan2 (R.m5 / cb) (R.m8 / cb))

/-- matrix from its three columns. -/
def ofCols (a b c : V3) : M3 := ⟨a.x, a.y, a.z, b.x, b.y, b.z, c.x, c.y, c.z⟩

/-- src/tf/tfmatrix.c:100-130 `aa_tf_rotmat_xy`, `aa_tf_rotmat_yz`, `aa_tf_rotmat_zx`. -/
def rotmatXY (x y : V3) : M3 :=
  ofCols (vnormalize x) (vnormalize y) (cross (vnormalize x) (vnormalize y))
def rotmatYZ (y z : V3) : M3 :=
  ofCols (cross (vnormalize y) (vnormalize z)) (vnormalize y) (vnormalize z)
def rotmatZX (z x : V3) : M3 :=
  ofCols (vnormalize x) (cross (vnormalize z) (vnormalize x)) (vnormalize z)

/-- src/tf/conv.c:330-350 `aa_tf_rotmat_mzlook`. -/
def rotmatMzlook (eye target up : V3) : M3 :=
  let z : V3 := ⟨-target.x + eye.x, -target.y + eye.y, -target.z + eye.z⟩
  let x := cross up z
  let y := cross z x
  ofCols (vnormalize x) (vnormalize y) (vnormalize z)

/-- src/tf/conv.c:350-358 `aa_tf_tfmat_mzlook`. -/
def tfmatMzlook (eye target up : V3) : Tfm := ⟨rotmatMzlook eye target up, eye⟩

/-- src/tf/conv.c:360-370 `aa_tf_qmzlook`. -/
def qmzlook (eye target up : V3) : Quat := rotmat2quat (rotmatMzlook eye target up)

/-- src/tf/conv.c:372-393 `aa_tf_qv_mzlook`, `aa_tf_qutr_mzlook`. -/
def qutrMzlook (eye target up : V3) : Qutr := ⟨qmzlook eye target up, eye⟩

end

end Verif.Tf
