import Verif.Model.Tf

/-!
# Quaternion exponential, logarithm, interpolation and velocities

Over the reals (rounding is not modelled). `none` stands for a division by zero, whose C result is
an infinity or NaN.
-/

namespace Verif.Tf

noncomputable section

/-- src/tf/quat_ord.c:390-397 `aa_tf_qpexp`. -/
def qpexp (v : V3) : Quat :=
  let s := sinccos2 (vdot v v)
  ⟨s.1 * v.x, s.1 * v.y, s.1 * v.z, s.2⟩

/-- src/tf/quat_ord.c:399-415 `aa_tf_qexp`. -/
def qexp (q : Quat) : Quat :=
  let theta := vnorm q.vec
  let ew := Real.exp q.w
  let s := sinccos theta
  ⟨ew * s.1 * q.x, ew * s.1 * q.y, ew * s.1 * q.z, ew * s.2⟩

/-- src/tf/quat_ord.c:417-440 `aa_tf_qexp_n`. -/
def qexpN (q : Quat) : Quat :=
  let phi := vnorm q.vec
  if phi < dblEpsilon then ⟨0, 0, 0, 1⟩
  else
    let sc := Real.sin phi / phi
    let ew := Real.exp q.w
    ⟨ew * sc * q.x, ew * sc * q.y, ew * sc * q.z, ew * Real.cos phi⟩

/-- src/tf/quat_ord.c:442-462 `aa_tf_qln`. -/
def qln (q : Quat) : Option Quat :=
  let vv := vdot q.vec q.vec
  let qn := Real.sqrt (vv + q.w * q.w)
  let vn := Real.sqrt vv
  let phi := atan2 vn q.w
  if phi < Real.sqrt (Real.sqrt dblEpsilon) then
    if qn = 0 then none
    else
      let a := invsincSeries phi / qn
      some ⟨a * q.x, a * q.y, a * q.z, Real.log qn⟩
  else if vn = 0 then none
  else
    let a := phi / vn
    some ⟨a * q.x, a * q.y, a * q.z, Real.log qn⟩

/-- src/tf/quat_ord.c:466-473 `aa_tf_qpow`. -/
def qpow (q : Quat) (a : ℝ) : Option Quat :=
  (qln q).map fun l => qexp ⟨l.x * a, l.y * a, l.z * a, l.w * a⟩

/-- src/tf/quat_ord.c:475-480 `aa_tf_qangle`. -/
def qangle (q : Quat) : ℝ := atan2 (vnorm q.vec) q.w

/-- src/tf/quat_ord.c:557-564 `aa_tf_qangle_rel`. -/
def qangleRel (a b : Quat) : ℝ := qangle (qminimize (qcmul a b))

/-! ## Velocities -/

/-- src/tf/quat_ord.c:482-491 `aa_tf_qsvel`. -/
def qsvel (q0 : Quat) (w : V3) (dt : ℝ) : Quat :=
  qmul (qpexp ⟨w.x * dt / 2, w.y * dt / 2, w.z * dt / 2⟩) q0

/-- src/tf/quat_ord.c:493-503 `aa_tf_qsdiff`. -/
def qsdiff (q0 dq : Quat) (dt : ℝ) : Quat :=
  let w := qmulcV dq q0
  qmul (qpexp ⟨w.x * dt, w.y * dt, w.z * dt⟩) q0

/-- src/tf/quat_ord.c:505-510 `aa_tf_qdiff2vel`. -/
def qdiff2vel (q dq : Quat) : V3 :=
  let w := qmulcV dq q
  ⟨w.x * 2, w.y * 2, w.z * 2⟩

/-- src/tf/quat_ord.c:512-518 `aa_tf_qvel2diff`. -/
def qvel2diff (q : Quat) (w : V3) : Quat := qmulVQ ⟨w.x / 2, w.y / 2, w.z / 2⟩ q

/-- src/tf/quat_ord.c:543-554 `aa_tf_qsacc`. -/
def qsacc (q0 : Quat) (v a : V3) (dt : ℝ) : Quat :=
  let k := dt / 2
  qmul (qpexp ⟨k * (v.x + k * a.x), k * (v.y + k * a.y), k * (v.z + k * a.z)⟩) q0

/-! ## Interpolation -/

/-- src/tf/quat_ord.c:828-836 `aa_tf_quhypangle2`. -/
def quhypangle2 (x y : Quat) : ℝ := 2 * atan2 (qnorm (qsub x y)) (qnorm (qadd x y))

/-- src/tf/quat_ord.c:566-578 `aa_tf_qslerp_param`: `(theta, d1, d2)`. -/
def qslerpParam (q1 q2 : Quat) : ℝ × ℝ × ℝ :=
  let theta := |quhypangle2 q1 q2|
  let d1 := Real.sin theta
  if theta > Real.pi / 2 then (Real.pi - theta, d1, -d1) else (theta, d1, d1)

/-- src/tf/quat_ord.c:581-596 `aa_tf_qslerp_eval`. -/
def qslerpEval (tau : ℝ) (q1 q2 : Quat) (p : ℝ × ℝ × ℝ) : Quat :=
  let theta := p.1
  if 0 < |theta| then
    let s0 := tau * theta
    let a1 := Real.sin (theta - s0) / p.2.1
    let a2 := Real.sin s0 / p.2.2
    ⟨a1 * q1.x + a2 * q2.x, a1 * q1.y + a2 * q2.y, a1 * q1.z + a2 * q2.z, a1 * q1.w + a2 * q2.w⟩
  else q1

/-- src/tf/quat_ord.c:598-605 `aa_tf_qslerp`. -/
def qslerp (tau : ℝ) (q1 q2 : Quat) : Quat := qslerpEval tau q1 q2 (qslerpParam q1 q2)

/-- src/tf/quat_ord.c:607-618 `aa_tf_qslerpalg`. -/
def qslerpalg (tau : ℝ) (q1 q2 : Quat) : Option Quat :=
  (qpow (qminimize (qcmul q1 q2)) tau).map fun qp => qnormalize (qmul q1 qp)

/-- src/tf/quat_ord.c:839-854 `qslerpdiff_param`. -/
def qslerpdiffParam (q1 q2 : Quat) : ℝ × ℝ × ℝ :=
  let theta := |quhypangle2 q1 q2|
  if theta > Real.pi / 2 then
    let theta := Real.pi - theta
    let d1 := sinc theta
    (theta, d1, -d1)
  else
    let d1 := sinc theta
    (theta, d1, d1)

/-- src/tf/quat_ord.c:856-867 `aa_tf_qslerpdiff`. -/
def qslerpdiff (tau : ℝ) (q1 q2 : Quat) : Quat :=
  let p := qslerpdiffParam q1 q2
  let theta := p.1
  let s1 := Real.cos (theta - tau * theta)
  let s2 := Real.cos (tau * theta)
  let f := fun a b => -s1 / p.2.1 * a + s2 / p.2.2 * b
  ⟨f q1.x q2.x, f q1.y q2.y, f q1.z q2.z, f q1.w q2.w⟩

/-- src/tf/quat_ord.c:869-880 `aa_tf_qslerpdiffalg`. -/
def qslerpdiffalg (tau : ℝ) (q1 q2 : Quat) : Option Quat :=
  (qslerpalg tau q1 q2).bind fun q =>
    (qln (qminimize (qmulc q2 q1))).map fun ql => qmul ql q

end

end Verif.Tf
