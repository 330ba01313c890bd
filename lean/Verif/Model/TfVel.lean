import Verif.Model.TfConv

/-!
# Velocities and exponential maps of rigid transforms

Over the reals (rounding is not modelled). `none` stands for a division by zero, whose C result is
an infinity or NaN.
-/

namespace Verif.Tf

noncomputable section

/-- six-element velocity or twist, `AA_TF_DX_V` (0..2) and `AA_TF_DX_W` (3..5). -/
@[ext] structure Dx where
  v : V3
  w : V3

/-! ## Velocity conversions -/

/-- src/tf/tfmatrix.c:435-443 `aa_tf_rotmat_vel2diff`. -/
def rotmatVel2diff (R : M3) (w : V3) : M3 := mul9 (skewSym w) R

/-- src/tf/tfmatrix.c:445-454 `aa_tf_rotmat_diff2vel`. -/
def rotmatDiff2vel (R dR : M3) : V3 := unskewsym (mul9 dR (transp R))

/-- src/tf/tfmatrix.c:524-536 `aa_tf_tfmat_diff2vel`, `aa_tf_tfmat_vel2diff`. -/
def tfmatDiff2vel (T dT : Tfm) : Dx := ⟨dT.v, rotmatDiff2vel T.R dT.R⟩
def tfmatVel2diff (T : Tfm) (dx : Dx) : Tfm := ⟨rotmatVel2diff T.R dx.w, dx.v⟩

/-- src/tf/quat_qutr.c:339-351 `aa_tf_qutr_diff2vel`, `aa_tf_qutr_vel2diff`. -/
def qutrDiff2vel (E dE : Qutr) : Dx := ⟨dE.v, qdiff2vel E.q dE.q⟩
def qutrVel2diff (E : Qutr) (dx : Dx) : Qutr := ⟨qvel2diff E.q dx.w, dx.v⟩

/-- src/tf/quat_qutr.c:263-275 `aa_tf_qv_vel2twist` (does not read the quaternion). -/
def vel2twist (v : V3) (dx : Dx) : Dx := ⟨crossA v dx.w dx.v, dx.w⟩

/-- src/tf/quat_qutr.c:277-289 `aa_tf_qv_twist2vel`. -/
def twist2vel (v : V3) (t : Dx) : Dx := ⟨crossA t.w v t.v, t.w⟩

/-- a twist as a pure dual quaternion. -/
def Dx.pure (t : Dx) : Duqu := ⟨mkq t.w 0, mkq t.v 0⟩

/-- src/tf/quat_duqu.c:195-207 `aa_tf_duqu_vel2twist`. -/
def duquVel2twist (S : Duqu) (dx : Dx) : Duqu := (vel2twist (duquTrans S) dx).pure

/-- src/tf/quat_duqu.c:209-219 `aa_tf_duqu_twist2vel`. -/
def duquTwist2vel (S t : Duqu) : Dx := twist2vel (duquTrans S) ⟨t.dual.vec, t.real.vec⟩

/-- multiplication of the eight elements by a number. -/
def duquScal (k : ℝ) (S : Duqu) : Duqu := ⟨qscal S.real k, qscal S.dual k⟩

/-- src/tf/quat_duqu.c:221-227 `aa_tf_duqu_twist2diff`. -/
def duquTwist2diff (S t : Duqu) : Duqu :=
  let p := duquMul t S
  ⟨⟨p.real.x / 2, p.real.y / 2, p.real.z / 2, p.real.w / 2⟩,
   ⟨p.dual.x / 2, p.dual.y / 2, p.dual.z / 2, p.dual.w / 2⟩⟩

/-- src/tf/quat_duqu.c:238-246 `aa_tf_duqu_vel2diff`. -/
def duquVel2diff (S : Duqu) (dx : Dx) : Duqu := duquTwist2diff S (duquVel2twist S dx)

/-- src/tf/quat_duqu.c:248-260 `aa_tf_duqu_diff2vel`. -/
def duquDiff2vel (S dS : Duqu) : Dx :=
  let t1 := qmulcV dS.dual S.real
  let t2 := qmulcV S.dual dS.real
  ⟨⟨2 * (t1.x + t2.x), 2 * (t1.y + t2.y), 2 * (t1.z + t2.z)⟩, qdiff2vel S.real dS.real⟩

/-- src/tf/quat_duqu.c:229-236 `aa_tf_duqu_diff2twist`. -/
def duquDiff2twist (S dS : Duqu) : Duqu := duquVel2twist S (duquDiff2vel S dS)

/-! ## Exponentials -/

/-- src/tf/tfmatrix.c:257-279 `aa_tf_rotmat_expv`, the pair `(sc, cc)`. -/
def expvCoef (rv : V3) : ℝ × ℝ :=
  let theta2 := vdot rv rv
  let theta := Real.sqrt theta2
  if theta2 * theta2 < dblEpsilon then
    (sincSeries2 theta2, theta * horner3 theta2 (1 / 2) (-1 / 24) (1 / 720))
  else (Real.sin theta / theta, (1 - Real.cos theta) / theta2)

/-- src/tf/tfmatrix.c:257-284 `aa_tf_rotmat_expv`, `aa_tf_rotvec2rotmat`. -/
def rotmatExpv (rv : V3) : M3 := skewsymScal2 (expvCoef rv).1 (expvCoef rv).2 rv

/-- src/tf/tfmatrix.c:456-464 `aa_tf_rotmat_svel`. -/
def rotmatSvel (R0 : M3) (w : V3) (dt : ℝ) : M3 :=
  mul9 (rotmatExpv ⟨w.x * dt, w.y * dt, w.z * dt⟩) R0

/-- src/tf/tfmatrix.c:704-715, the coefficient `ssc` of `aa_tf_tfmat_expv`. -/
def expvSsc (rv : V3) : ℝ :=
  let theta2 := vdot rv rv
  let theta := Real.sqrt theta2
  if theta2 * theta2 < dblEpsilon then horner3 theta2 (1 / 6) (-1 / 120) (1 / 5040)
  else (1 - Real.sin theta / theta) / theta2

/-- src/tf/tfmatrix.c:684-719 `aa_tf_tfmat_expv`; `sc` and `cc` are computed as in
`aa_tf_rotmat_expv`. -/
def tfmatExpv (t : Dx) : Tfm :=
  let c := expvCoef t.w
  ⟨skewsymScal2 c.1 c.2 t.w, rot9 (skewsymScal2 c.2 (expvSsc t.w) t.w) t.v⟩

/-- src/tf/tfmatrix.c:466-487 `aa_tf_tfmat_svel`. -/
def tfmatSvel (T0 : Tfm) (dx : Dx) (dt : ℝ) : Tfm :=
  let dw : V3 := ⟨dx.w.x * dt, dx.w.y * dt, dx.w.z * dt⟩
  let cr := cross dw T0.v
  tfmMul (tfmatExpv ⟨⟨dx.v.x * dt - cr.x, dx.v.y * dt - cr.y, dx.v.z * dt - cr.z⟩, dw⟩) T0

/-- src/tf/quat_qutr.c:167-198 `aa_tf_qv_expv`, the triple `(m_r, c, m_d)`. -/
def qvExpvCoef (w : V3) : ℝ × ℝ × ℝ :=
  let phi2 := vdot w w
  if phi2 < Real.sqrt dblEpsilon then
    (sincSeries2 phi2, cosSeries2 phi2, horner3 phi2 (4 / 3) (-4 / 15) (8 / 315))
  else
    let phi := Real.sqrt phi2
    let c := Real.cos phi
    let m_r := Real.sin phi / phi
    (m_r, c, (2 - c * (2 * m_r)) / phi2)

/-- src/tf/quat_qutr.c:167-206 `aa_tf_qv_expv`, `aa_tf_qutr_expv`. -/
def qutrExpv (t : Dx) : Qutr :=
  let w := t.w
  let dv := t.v
  let k := qvExpvCoef w
  let m_r := k.1
  let c := k.2.1
  let m_d := k.2.2
  let qv : V3 := ⟨m_r * w.x, m_r * w.y, m_r * w.z⟩
  let g := vdot w dv * m_d
  let cr := cross qv dv
  ⟨mkq qv c, ⟨2 * m_r * cr.x + c * (2 * m_r) * dv.x + g * w.x,
    2 * m_r * cr.y + c * (2 * m_r) * dv.y + g * w.y,
    2 * m_r * cr.z + c * (2 * m_r) * dv.z + g * w.z⟩⟩

/-- src/tf/quat_qutr.c:291-337 `aa_tf_qv_svel`, `aa_tf_qutr_svel`. -/
def qutrSvel (E0 : Qutr) (dx : Dx) (dt : ℝ) : Qutr :=
  let t := vel2twist E0.v dx
  qutrMul (qutrExpv ⟨⟨t.v.x * (dt / 2), t.v.y * (dt / 2), t.v.z * (dt / 2)⟩,
    ⟨t.w.x * (dt / 2), t.w.y * (dt / 2), t.w.z * (dt / 2)⟩⟩) E0

/-- src/tf/quat_qutr.c:308-318, 329-337 `aa_tf_qv_sdiff`, `aa_tf_qutr_sdiff`. -/
def qutrSdiff (E0 dE : Qutr) (dt : ℝ) : Qutr := qutrSvel E0 ⟨dE.v, qdiff2vel E0.q dE.q⟩ dt

/-- src/tf/quat_duqu.c:325-347 `aa_tf_duqu_exp`, the triple `(k_r, c, k_d)` before scaling by
gamma. -/
def duquExpCoef (w : V3) : ℝ × ℝ × ℝ :=
  let vv := vdot w w
  if vv < dblEpsilon then
    (sincSeries2 vv, cosSeries2 vv, horner3 vv (-1 / 3) (1 / 30) (-1 / 840))
  else
    let phi := Real.sqrt vv
    let k_r := Real.sin phi / phi
    let c := Real.cos phi
    (k_r, c, (c - k_r) / vv)

/-- src/tf/quat_duqu.c:325-365 `aa_tf_duqu_exp`. -/
def duquExp (S : Duqu) : Duqu :=
  let w := S.real.vec
  let v := S.dual.vec
  let k := duquExpCoef w
  let k_r := k.1
  let c := k.2.1
  let gamma := vdot w v
  let k_d := k.2.2 * gamma
  let r : Quat := ⟨k_r * w.x, k_r * w.y, k_r * w.z, c⟩
  let d : Quat := ⟨k_r * v.x + k_d * w.x, k_r * v.y + k_d * w.y, k_r * v.z + k_d * w.z, -k_r * gamma⟩
  if 0 < |S.real.w| ∨ 0 < |S.dual.w| then
    let er := Real.exp S.real.w
    let ed := er * S.dual.w
    ⟨⟨er * r.x, er * r.y, er * r.z, er * r.w⟩,
     ⟨er * d.x + ed * r.x, er * d.y + ed * r.y, er * d.z + ed * r.z, er * d.w + ed * r.w⟩⟩
  else ⟨r, d⟩

/-- src/tf/quat_duqu.c:262-270 `aa_tf_duqu_stwist`. -/
def duquStwist (S t : Duqu) (dt : ℝ) : Duqu := duquMul (duquExp (duquScal (dt / 2) t)) S

/-- src/tf/quat_duqu.c:272-279 `aa_tf_duqu_svel`. -/
def duquSvel (S : Duqu) (dx : Dx) (dt : ℝ) : Duqu := duquStwist S (duquVel2twist S dx) dt

/-- src/tf/quat_duqu.c:281-288 `aa_tf_duqu_sdiff`. -/
def duquSdiff (S dS : Duqu) (dt : ℝ) : Duqu := duquStwist S (duquDiff2twist S dS) dt

/-! ## Logarithms -/

/-- src/tf/quat_qutr.c:208-239 `aa_tf_qv_lnv`, the triple `(isc, m_r, m_d)`. -/
def qvLnvCoef (q : Quat) : Option (ℝ × ℝ × ℝ) :=
  let s := vnorm q.vec
  let c := q.w
  let phi := atan2 s c
  let phi2 := phi * phi
  if phi < Real.sqrt dblEpsilon then
    let m_d := horner3 phi2 (1 / 3) (1 / 45) (2 / 945)
    some (invsincSeries2 phi2, 1 - m_d * phi2, m_d)
  else if s = 0 then none
  else
    let isc := phi / s
    let m_r := c * isc
    some (isc, m_r, (1 - m_r) / phi2)

/-- src/tf/quat_qutr.c:208-248 `aa_tf_qv_lnv`, `aa_tf_qutr_lnv`. -/
def qutrLnv (E : Qutr) : Option Dx :=
  (qvLnvCoef E.q).map fun k =>
    let w := vscal k.1 E.q.vec
    let v2 : V3 := ⟨E.v.x / 2, E.v.y / 2, E.v.z / 2⟩
    let a := k.2.2 * vdot v2 w
    let cr := cross v2 w
    ⟨⟨cr.x + (k.2.1 * v2.x + a * w.x), cr.y + (k.2.1 * v2.y + a * w.y),
      cr.z + (k.2.1 * v2.z + a * w.z)⟩, w⟩

/-- src/tf/quat_duqu.c:368-402 `aa_tf_duqu_ln`. -/
def duquLn (S : Duqu) : Option Duqu :=
  let r := S.real
  let d := S.dual
  let vv := vdot r.vec r.vec
  let gamma := vdot r.vec d.vec
  let mr2 := vv + r.w * r.w
  let mr := Real.sqrt mr2
  let nr := Real.sqrt vv
  let phi := atan2 nr r.w
  let fin := fun (k_r zeta : ℝ) =>
    let k_d := gamma * zeta - d.w / mr2
    (⟨⟨k_r * r.x, k_r * r.y, k_r * r.z, Real.log mr⟩,
      ⟨k_d * r.x + k_r * d.x, k_d * r.y + k_r * d.y, k_d * r.z + k_r * d.z,
       (gamma + r.w * d.w) / mr2⟩⟩ : Duqu)
  if mr = 0 then none
  else if phi < dblEpsilon then
    some (fin (invsincSeries2 (phi * phi) / mr)
      (horner3 (phi * phi) (-2 / 3) (-1 / 5) (-17 / 420) / (mr2 * mr)))
  else if vv = 0 then none
  else some (fin (phi / nr) ((r.w / mr2 - phi / nr) / vv))

/-- src/tf/tfmatrix.c:354-408 `aa_tf_rotmat_lnv`; `aa_tf_rotmat2rotvec` (410-413). -/
def rotmatLnv (R : M3) : Option V3 :=
  let c := (R.m0 + R.m4 + R.m8 - 1) / 2
  if c < -1 + 0.0001 then
    let q := rotmatQ R
    let qs := vnorm q.vec
    let qt := atan2 qs q.w
    if qt < Real.sqrt (Real.sqrt dblEpsilon) then some (vscal (2 * invsincSeries qt) q.vec)
    else if qs = 0 then none
    else some (vscal (2 * qt / qs) q.vec)
  else
    let u : V3 := ⟨R.m5 - R.m7, R.m6 - R.m2, R.m1 - R.m3⟩
    let s := vnorm u / 2
    let theta := atan2 s c
    let theta2 := theta * theta
    if theta2 * theta2 < dblEpsilon then some (vscal (invsincSeries2 theta2 / 2) u)
    else if s = 0 then none
    else some (vscal (theta / s / 2) u)

/-- src/tf/tfmatrix.c:426-431 `aa_tf_rotmat2axang`. -/
def rotmat2axang (R : M3) : Option Axang := (rotmatLnv R).map rotvec2axang

/-- src/tf/tfmatrix.c:721-789 `aa_tf_tfmat_lnv`. -/
def tfmatLnv (T : Tfm) : Option Dx :=
  let R := T.R
  let v := T.v
  let c := (R.m0 + R.m4 + R.m8 - 1) / 2
  if c < -1 + 0.0001 then
    let q := rotmatQ R
    let qs := vnorm q.vec
    let phi := atan2 qs q.w
    let phi2 := phi * phi
    if qs = 0 ∨ phi2 = 0 then none
    else
      let isc := 2 * phi / qs
      let m_r := q.w * isc
      let m_d := (2 - m_r) / phi2 / 4
      let w := vscal isc q.vec
      let v2 : V3 := ⟨v.x / 2, v.y / 2, v.z / 2⟩
      let a := m_d * vdot v2 w
      let cr := cross v2 w
      some ⟨⟨cr.x + (m_r * v2.x + a * w.x), cr.y + (m_r * v2.y + a * w.y),
        cr.z + (m_r * v2.z + a * w.z)⟩, w⟩
  else
    let u : V3 := ⟨R.m5 - R.m7, R.m6 - R.m2, R.m1 - R.m3⟩
    let s := vnorm u / 2
    let theta := atan2 s c
    let theta2 := theta * theta
    let fin := fun (a b : ℝ) =>
      let w := vscal (a / 2) u
      (⟨rot9 (skewsymScal2 (-0.5) b w) v, w⟩ : Dx)
    if theta2 < dblEpsilon then
      some (fin (invsincSeries2 theta2) (horner3 theta2 (1 / 12) (1 / 720) (1 / 30240)))
    else if s = 0 then none
    else some (fin (theta / s) ((2 * s - theta * (1 + c)) / (2 * theta2 * s)))

/-- src/tf/tfmatrix.c:299-315 `aa_tf_rotmat_sincos`: `(s, c)`. -/
def rotmatSincos (R : M3) : ℝ × ℝ :=
  (vnorm ⟨R.m5 - R.m7, R.m6 - R.m2, R.m1 - R.m3⟩ / 2, (R.m0 + R.m4 + R.m8 - 1) / 2)

/-- src/tf/tfmatrix.c:317-330 `aa_tf_rotmat_angle`: theta. -/
def rotmatAngle (R : M3) : ℝ := atan2 (rotmatSincos R).1 (rotmatSincos R).2

/-- src/tf/tfmatrix.c:807-828 `aa_tf_rotmat_normalize`: columns `a b c` in place. -/
def rotmatNormalize (R : M3) : M3 :=
  let a : V3 := ⟨R.m0, R.m1, R.m2⟩
  let b : V3 := ⟨R.m3, R.m4, R.m5⟩
  let c := vnormalize (cross a b)
  let b := vnormalize (cross c a)
  let a := vnormalize (cross b c)
  ofCols a b c

end

end Verif.Tf
