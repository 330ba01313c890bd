import Verif.Model.TfExp
import Verif.Model.TfVel
import Mathlib.Data.Fin.VecNotation

/-!
# Derivatives of the quaternion exponential and logarithm, and related routines

Transcription of `src/tf/quat_pde.c` and `src/tf/quat_ord.c:621-826,883-1004` over the reals.
`none` stands for a division by zero, whose C result is an infinity or NaN.  A Jacobian is a
function of row and column; the `aa_dmat` views through which `quat_pde.c` writes the four blocks
of the 8x8 matrix are not modelled, each block is a separate 4x4 function.
-/

namespace Verif.Tf

noncomputable section

/-- Array element `i` of a quaternion (`AA_TF_QUAT_X..W` = 0..3). -/
def Quat.at (q : Quat) : Fin 4 → ℝ := ![q.x, q.y, q.z, q.w]

/-- Array element `i` of a vector. -/
def V3.at (v : V3) : Fin 3 → ℝ := ![v.x, v.y, v.z]

/-- `cblas_dgemv(NoTrans, 3, 4, 1.0, J, 3, dq, 1, 0, dln, 1)`. -/
def gemv34 (J : Fin 3 → Fin 4 → ℝ) (dq : Quat) : V3 :=
  let r := fun i => J i 0 * dq.x + J i 1 * dq.y + J i 2 * dq.z + J i 3 * dq.w
  ⟨r 0, r 1, r 2⟩

/-- `cblas_dgemv(NoTrans, 4, 3, 1.0, J, 4, de, 1, 0, dq, 1)`. -/
def gemv43 (J : Fin 4 → Fin 3 → ℝ) (de : V3) : Quat :=
  let r := fun i => J i 0 * de.x + J i 1 * de.y + J i 2 * de.z
  ⟨r 0, r 1, r 2, r 3⟩

/-! ## src/tf/quat_ord.c -/

/-- src/tf/quat_ord.c:676-703 `qjuln`: entry (row, column) of the column-major `J[3*4]`. -/
def qjuln (q : Quat) : Option (Fin 3 → Fin 4 → ℝ) :=
  let s2 := vdot q.vec q.vec
  let s := Real.sqrt s2
  let phi := atan2 s q.w
  if s = 0 then none
  else
    let isc := phi / s
    let a := isc / s2
    some ![
      ![isc * (-q.x / s2 * q.x + 1), -a * q.x * q.y, -a * q.x * q.z, -q.x / s2],
      ![-a * q.x * q.y, isc * (-q.y / s2 * q.y + 1), -a * q.y * q.z, -q.y / s2],
      ![-a * q.x * q.z, -a * q.y * q.z, isc * (-q.z / s2 * q.z + 1), -q.z / s2]]

/-- src/tf/quat_ord.c:705-731 `aa_tf_qdulnj`. -/
def qdulnj (q dq : Quat) : Option V3 := (qjuln q).map fun J => gemv34 J dq

/-- src/tf/quat_ord.c:733-756 `aa_tf_qduln`. -/
def qduln (q dq : Quat) : Option V3 :=
  let s2 := vdot q.vec q.vec
  let s := Real.sqrt s2
  let c := q.w
  let phi := atan2 s c
  let fin := fun (alpha beta : ℝ) =>
    (⟨alpha * dq.x + dq.w * beta * q.x, alpha * dq.y + dq.w * beta * q.y,
      alpha * dq.z + dq.w * beta * q.z⟩ : V3)
  if phi < Real.sqrt (Real.sqrt dblEpsilon) then
    some (fin (invsincSeries phi) (horner3 (phi * phi) (-1 / 3) (2 / 15) (-2 / 63)))
  else if s = 0 then none
  else
    let alpha := phi / s
    some (fin alpha ((alpha * c - 1) / s2))

/-- src/tf/quat_ord.c:759-789 `qjpexp`: entry (row, column) of the column-major `J[4*3]`.  The
trigonometric branch divides by `sqrt vv`, which is not zero there. -/
def qjpexp (u : V3) : Fin 4 → Fin 3 → ℝ :=
  let vv := vdot u u
  let k : ℝ × ℝ :=
    if vv < dblEpsilon then (sincSeries2 vv, horner3 vv (-1 / 3) (1 / 30) (-1 / 840))
    else
      let v := Real.sqrt vv
      let sc := Real.sin v / v
      (sc, (Real.cos v - sc) / vv)
  let sc := k.1
  let a := k.2
  ![![a * u.x * u.x + sc, a * u.x * u.y, a * u.x * u.z],
    ![a * u.x * u.y, a * u.y * u.y + sc, a * u.y * u.z],
    ![a * u.x * u.z, a * u.y * u.z, a * u.z * u.z + sc],
    ![-sc * u.x, -sc * u.y, -sc * u.z]]

/-- src/tf/quat_ord.c:791-803 `aa_tf_qdpexpj`. -/
def qdpexpj (e de : V3) : Quat := gemv43 (qjpexp e) de

/-- src/tf/quat_ord.c:805-826 `aa_tf_qdpexp`. -/
def qdpexp (e de : V3) : Quat :=
  let vv := vdot e e
  let phi := Real.sqrt vv
  let dd := vdot e de
  let k : ℝ × ℝ :=
    if phi < Real.sqrt (Real.sqrt dblEpsilon) then
      (sincSeries phi, horner3 vv (-1 / 3) (1 / 30) (-1 / 840))
    else
      (Real.sin phi / phi, Real.cos phi / (phi * phi) - Real.sin phi / (phi * phi * phi))
  ⟨k.1 * de.x + k.2 * dd * e.x, k.1 * de.y + k.2 * dd * e.y, k.1 * de.z + k.2 * dd * e.z,
    -dd * k.1⟩

/-! ## src/tf/quat_pde.c -/

/-- src/tf/quat_pde.c:36-45 `fill_uplo`: the entries above the diagonal from those below. -/
def fillUplo (J : Fin 4 → Fin 4 → ℝ) : Fin 4 → Fin 4 → ℝ :=
  ![![J 0 0, J 1 0, J 2 0, -J 3 0],
    ![J 1 0, J 1 1, J 2 1, -J 3 1],
    ![J 2 0, J 2 1, J 2 2, -J 3 2],
    ![J 3 0, J 3 1, J 3 2, J 3 3]]

/-- src/tf/quat_pde.c:47-69 `qln_jac`.  Entries not yet written are 0 here; `fillUplo` overwrites
all of them. -/
def qlnJacFill (q : Quat) (qq zeta eta : ℝ) : Fin 4 → Fin 4 → ℝ :=
  let kv : V3 := ⟨q.x * zeta, q.y * zeta, q.z * zeta⟩
  fillUplo ![![q.x * kv.x + eta, 0, 0, 0],
    ![q.x * kv.y, q.y * kv.y + eta, 0, 0],
    ![q.x * kv.z, q.y * kv.z, q.z * kv.z + eta, 0],
    ![q.x / qq, q.y / qq, q.z / qq, q.w / qq]]

/-- src/tf/quat_pde.c:71-95 `aa_tf_qln_jac`. -/
def qlnJac (q : Quat) : Option (Fin 4 → Fin 4 → ℝ) :=
  let vv := vdot q.vec q.vec
  let qq := vv + q.w * q.w
  let vn := Real.sqrt vv
  let qn := Real.sqrt qq
  let theta := atan2 vn q.w
  if qq = 0 then none
  else if theta < dblEpsilon then
    some (qlnJacFill q qq
      (horner3 (theta * theta) (-2 / 3) (-1 / 5) (-17 / 420) / (qq * qn))
      (invsincSeries2 (theta * theta) / qn))
  else if vv = 0 then none
  else
    let eta := theta / vn
    some (qlnJacFill q qq ((q.w / qq - eta) / vv) eta)

/-- src/tf/quat_pde.c:140-175, the block of derivatives of the dual part by the real part:
`s_ff`, `s_ff_diag` (97-111) written out. -/
def duquLnJacDr (q d : Quat) (qq zeta mu : ℝ) : Fin 4 → Fin 4 → ℝ :=
  let q4 := qq * qq
  let gamma := vdot q.vec d.vec
  let tau := gamma * zeta - d.w / qq
  let ks := gamma * mu + 2 * (d.w / q4)
  let kv : Fin 4 → ℝ := ![q.x * ks, q.y * ks, q.z * ks, 0]
  let ff := fun a b : Fin 4 => (q.at a * d.at b + q.at b * d.at a) * zeta + q.at a * kv b
  let ffd := fun a : Fin 4 => q.at a * d.at a * (2 * zeta) + q.at a * kv a
  let gamma2 := 2 * (gamma + q.w * d.w) / q4
  fillUplo ![![ffd 0 + tau, 0, 0, 0],
    ![ff 1 0, ffd 1 + tau, 0, 0],
    ![ff 2 0, ff 2 1, ffd 2 + tau, 0],
    ![d.x / qq - q.x * gamma2, d.y / qq - q.y * gamma2, d.z / qq - q.z * gamma2,
      d.w / qq - q.w * gamma2]]

/-- The blocks of the 8x8 Jacobian: rows and columns real or dual. -/
structure Jac8 where
  rr : Fin 4 → Fin 4 → ℝ
  rd : Fin 4 → Fin 4 → ℝ
  dr : Fin 4 → Fin 4 → ℝ
  dd : Fin 4 → Fin 4 → ℝ

/-- src/tf/quat_pde.c:114-176 `aa_tf_duqu_ln_jac`. -/
def duquLnJac (S : Duqu) : Option Jac8 :=
  let q := S.real
  let vv := vdot q.vec q.vec
  let qq := vv + q.w * q.w
  let vn := Real.sqrt vv
  let qn := Real.sqrt qq
  let q4 := qq * qq
  let theta := atan2 vn q.w
  let fin := fun (zeta eta mu : ℝ) =>
    (⟨qlnJacFill q qq zeta eta, fun _ _ => 0, duquLnJacDr q S.dual qq zeta mu,
      qlnJacFill q qq zeta eta⟩ : Jac8)
  if qq = 0 then none
  else if theta < dblEpsilon then
    some (fin (horner3 (theta * theta) (-2 / 3) (-1 / 5) (-17 / 420) / (qq * qn))
      (invsincSeries2 (theta * theta) / qn)
      (horner3 (theta * theta) (8 / 5) (4 / 7) (1 / 7) / (q4 * qn)))
  else if vv = 0 then none
  else
    let eta := theta / vn
    let zeta := (q.w / qq - eta) / vv
    some (fin zeta eta ((-2 * q.w / q4 - 3 * zeta) / vv))

/-! ## Integration with constant velocity -/

/-- src/tf/quat_ord.c:621-628 `aa_tf_qrk1`. -/
def qrk1 (q0 dq : Quat) (dt : ℝ) : Quat :=
  ⟨q0.x + dt * dq.x, q0.y + dt * dq.y, q0.z + dt * dq.z, q0.w + dt * dq.w⟩

/-- src/tf/quat_ord.c:632-641 `aa_tf_qvelrk1`. -/
def qvelrk1 (q0 : Quat) (v : V3) (dt : ℝ) : Quat := qrk1 q0 (qvel2diff q0 v) dt

/-- src/tf/quat_ord.c:644-655 `qvelrk4_term`. -/
def qvelrk4Term (q0 : Quat) (v : V3) (dq0 : Quat) (dt : ℝ) : Quat :=
  qvel2diff (qrk1 q0 dq0 dt) v

/-- src/tf/quat_ord.c:657-671 `aa_tf_qvelrk4`. -/
def qvelrk4 (q0 : Quat) (v : V3) (dt : ℝ) : Quat :=
  let d0 := qvel2diff q0 v
  let d1 := qvelrk4Term q0 v d0 (dt / 2)
  let d2 := qvelrk4Term q0 v d1 (dt / 2)
  let d3 := qvelrk4Term q0 v d2 dt
  let f := fun a b c d : ℝ => a + d + 2 * (b + c)
  qrk1 q0 ⟨f d0.x d1.x d2.x d3.x, f d0.y d1.y d2.y d3.y, f d0.z d1.z d2.z d3.z,
    f d0.w d1.w d2.w d3.w⟩ (dt / 6)

/-! ## Slerp with moving end points -/

/-- src/tf/quat_ord.c:883-920 `aa_tf_qslerpchaindiff`; `aa_feq(theta,0,0)` is `|theta| <= 0`.
The divisors `c`, `d1`, `d2` can vanish only where `theta` is 0 or a right angle. -/
def qslerpchaindiff (u du : ℝ) (q1 dq1 q2 dq2 : Quat) : Option (Quat × Quat) :=
  let p := qslerpParam q1 q2
  let theta := p.1
  let d1 := p.2.1
  let d2 := p.2.2
  if |theta| ≤ 0 then some (q1, ⟨0, 0, 0, 0⟩)
  else
    let c := Real.cos theta
    if c = 0 then none
    else
      let sa := Real.sin ((1 - u) * theta)
      let ca := Real.cos ((1 - u) * theta)
      let sb := Real.sin (u * theta)
      let cb := Real.cos (u * theta)
      let dthetac := qdot q1 dq2 + qdot dq1 q2
      let dtheta := dthetac / c
      let a := sa / d1
      let b := sb / d2
      let da := (ca * (dtheta * (1 - u) - du * theta)) / d1 - (dthetac * sa) / (d1 * d1)
      let db := ((dtheta * u + theta * du) * cb) / d2 - (dthetac * b) / d1
      let f := fun x y : ℝ => x * a + y * b
      let g := fun x dx y dy : ℝ => (dx * a + x * da) + (dy * b + y * db)
      some (⟨f q1.x q2.x, f q1.y q2.y, f q1.z q2.z, f q1.w q2.w⟩,
        ⟨g q1.x dq1.x q2.x dq2.x, g q1.y dq1.y q2.y dq2.y, g q1.z dq1.z q2.z dq2.z,
          g q1.w dq1.w q2.w dq2.w⟩)

/-! ## The quaternion between two vectors -/

/-- src/tf/quat_ord.c:969-975: the axis along which `u` is shortest, with the ties of the code. -/
def leastAxis (u : V3) : V3 :=
  if |u.x| > |u.y| then (if |u.y| > |u.z| then ⟨0, 0, 1⟩ else ⟨0, 1, 0⟩)
  else (if |u.x| > |u.z| then ⟨0, 0, 1⟩ else ⟨1, 0, 0⟩)

/-- src/tf/quat_ord.c:945-1004 `aa_tf_vecs2quat`. -/
def vecs2quat (u v : V3) : Option Quat :=
  let w := cross u v
  let nu := vdot u u
  let nv := vdot v v
  let nuv := Real.sqrt (nu * nv)
  let uv := vdot u v
  let cc := vdot w w
  if nuv = 0 then none
  else if cc / nuv < Real.sqrt dblEpsilon then
    let ar := leastAxis u
    let au := cross u ar
    let av := if uv > 0 then cross v ar else cross ar v
    let ax := vadd au av
    let theta := atan2 cc uv
    let qtheta := theta / 2
    let n := Real.sqrt (vdot ax ax)
    if n = 0 then none
    else
      let m := Real.sin qtheta / n
      some ⟨ax.x * m, ax.y * m, ax.z * m, Real.cos qtheta⟩
  else
    let q : Quat := ⟨w.x, w.y, w.z, uv + nuv⟩
    if qnorm q = 0 then none else some (qnormalize q)

end

end Verif.Tf
