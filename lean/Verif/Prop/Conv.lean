import Verif.Model.TfConv
import Verif.Prop.Exp
import Verif.Prop.Scalar

/-!
# C30: conversions between rotation representations

Specification: an axis-angle pair with a unit axis `k` and angle `t` stands for the rotation
`v ↦ E v E*` with `E = exp((t/2) k)`, a rotation vector `r` for the one with `E = exp(r/2)`, where
`exp` is Mathlib's exponential on `ℍ[ℝ]`; Euler angles stand for the product of the rotations about
the coordinate axes.
-/

namespace Verif.Tf

open scoped Quaternion
open Quaternion NormedSpace

/-- `f` is the rotation `v ↦ E v E*`. -/
def Rotates (f : V3 → V3) (E : ℍ[ℝ]) : Prop := ∀ v, (f v).pure = E * v.pure * star E

/-- the quaternion meant by an axis and an angle. -/
noncomputable def Axang.den (a : Axang) : ℍ[ℝ] := exp ((a.angle / 2) • a.axis.pure)

/-- the quaternion meant by a rotation vector. -/
noncomputable def V3.rotvecDen (r : V3) : ℍ[ℝ] := exp ((1 / 2 : ℝ) • r.pure)

theorem Rotates.ext {f g : V3 → V3} {E : ℍ[ℝ]} (hf : Rotates f E) (hg : Rotates g E) : f = g := by
  funext v
  exact V3.pure_inj ((hf v).trans (hg v).symm)

theorem Rotates.neg {f : V3 → V3} {E : ℍ[ℝ]} (hf : Rotates f E) : Rotates f (-E) := by
  intro v; rw [hf v]; simp

/-! ## Helpers -/

theorem vscal_pure (k : ℝ) (a : V3) : (vscal k a).pure = k • a.pure := by
  ext <;> simp [vscal]

theorem vnorm_vscal (k : ℝ) (a : V3) : vnorm (vscal k a) = |k| * vnorm a := by
  rw [← norm_pure, vscal_pure, norm_smul, norm_pure, Real.norm_eq_abs]

/-- exponential of a multiple of a unit vector. -/
theorem exp_axis (t : ℝ) {k : V3} (hk : vnorm k = 1) :
    exp (t • k.pure) = ((Real.cos t : ℝ) : ℍ[ℝ]) + Real.sin t • k.pure := by
  rw [← vscal_pure, exp_pure, vnorm_vscal, hk, mul_one, vscal_pure, Real.cos_abs, smul_smul]
  congr 2
  rcases abs_choice t with h | h
  · rw [h]
    by_cases h0 : t = 0
    · simp [h0]
    · field_simp
  · rw [h]
    by_cases h0 : t = 0
    · simp [h0]
    · rw [Real.sin_neg]; field_simp

theorem rotates_qrot {q : Quat} (h : Unit q) : Rotates (qrot q) q.den := fun v => (C23_qrot q v h).1

theorem rotates_rotmat {q : Quat} (h : Unit q) : Rotates (rot9 (quat2rotmat q)) q.den := by
  intro v; rw [rot9_quat2rotmat]; exact rotates_qrot h v

/-! ## C30: axis-angle -/

/-- C30: `aa_tf_axang2quat` gives the quaternion of the rotation. -/
theorem C30_axang2quat (a : Axang) (h : vnorm a.axis = 1) :
    (axang2quat a).den = a.den ∧ Unit (axang2quat a) := by
  have e : (axang2quat a).den = a.den := by
    rw [Axang.den, exp_axis _ h, axang2quat, den_cs]
  refine ⟨e, (Unit.iff_norm _).2 ?_⟩
  rw [e, Axang.den, Quaternion.norm_exp]; simp

/-- C30: `aa_tf_axang_rot`, `aa_tf_axang2rotmat` and `aa_tf_axang2rotmat2` perform that rotation, as
does the quaternion from `aa_tf_axang2quat`. -/
theorem C30_axang (a : Axang) (h : vnorm a.axis = 1) :
    Rotates (axangRot a) a.den ∧ Rotates (rot9 (rotmatExpAa a)) a.den ∧
    Rotates (rot9 (axang2rotmat2 a)) a.den ∧ Rotates (qrot (axang2quat a)) a.den := by
  obtain ⟨e, u⟩ := C30_axang2quat a h
  have hq := rotates_qrot u
  have hn := vnorm_sq a.axis
  rw [h] at hn
  have hm : rotmatExpAa a = axang2rotmat2 a := by
    rcases a with ⟨⟨kx, ky, kz⟩, t⟩
    have hs : Real.sin t = 2 * Real.sin (t / 2) * Real.cos (t / 2) := by
      rw [← Real.sin_two_mul]; congr 1; ring
    have hc : Real.cos t = 1 - 2 * Real.sin (t / 2) ^ 2 := by
      have h1 : Real.cos t = Real.cos (2 * (t / 2)) := by congr 1; ring
      rw [h1, Real.cos_two_mul]
      linarith [Real.sin_sq_add_cos_sq (t / 2)]
    ext <;> simp [rotmatExpAa, axang2rotmat2, quat2rotmat, axang2quat, skewsymScal2, skewsymScalC, Quat.vec, hs, hc] <;> ring
  have hr : ∀ v, axangRot a v = rot9 (rotmatExpAa a) v := by
    intro v
    rcases a with ⟨⟨kx, ky, kz⟩, t⟩
    simp only [vdot] at hn
    ext <;> simp [rotmatExpAa, axangRot, skewsymScal2, skewsymScalC, rot9, cross, vdot]
    · linear_combination (Real.cos t - 1) * v.x * hn
    · linear_combination (Real.cos t - 1) * v.y * hn
    · linear_combination (Real.cos t - 1) * v.z * hn
  have h3 : Rotates (rot9 (axang2rotmat2 a)) a.den := by rw [← e]; exact rotates_rotmat u
  refine ⟨fun v => ?_, ?_, h3, ?_⟩
  · rw [hr v, hm]; exact h3 v
  · rw [hm]; exact h3
  · rw [← e]; exact hq

/-- C30: the functions for a rotation about a coordinate axis agree with each other. -/
theorem C30_axis_angle (a : Ax) (t : ℝ) :
    angle2quat a t = axang2quat (angle2axang a t) ∧ Unit (angle2quat a t) ∧
    angle2rotmat a t = quat2rotmat (angle2quat a t) ∧
    (angle2quat a t).den = (angle2axang a t).den ∧
    Rotates (rot9 (angle2rotmat a t)) (angle2axang a t).den := by
  have e : angle2quat a t = axang2quat (angle2axang a t) := by
    cases a <;> simp [angle2quat, axang2quat, angle2axang]
  have hk : vnorm (angle2axang a t).axis = 1 := by
    cases a <;> simp [angle2axang, vnorm, vdot]
  obtain ⟨d, u⟩ := C30_axang2quat _ hk
  rw [← e] at d u
  have hs : Real.sin t = 2 * Real.sin (t / 2) * Real.cos (t / 2) := by
    rw [← Real.sin_two_mul]; congr 1; ring
  have hc : Real.cos t = 1 - 2 * Real.sin (t / 2) ^ 2 := by
    have h1 : Real.cos t = Real.cos (2 * (t / 2)) := by congr 1; ring
    rw [h1, Real.cos_two_mul]
    linarith [Real.sin_sq_add_cos_sq (t / 2)]
  have hm : angle2rotmat a t = quat2rotmat (angle2quat a t) := by
    cases a <;> ext <;> simp [angle2rotmat, quat2rotmat, angle2quat, skewsymScalC, Quat.vec, hs, hc] <;> ring
  refine ⟨e, u, hm, d, ?_⟩
  rw [hm, ← d]
  exact rotates_rotmat u

/-! ## C30: Euler angles -/

theorem Rotates.comp {f g : V3 → V3} {E F : ℍ[ℝ]} (hf : Rotates f E) (hg : Rotates g F) :
    Rotates (fun v => f (g v)) (E * F) := by
  intro v
  simp only [hf (g v), hg v, star_mul, mul_assoc]

/-- C30: for each of the Euler conventions, the matrix and the quaternion functions both give the
product of the three rotations about the coordinate axes. -/
theorem C30_euler (a b c : Ax) (e1 e2 e3 : ℝ) :
    let E := (angle2axang a e1).den * (angle2axang b e2).den * (angle2axang c e3).den
    (euler2quat a b c e1 e2 e3).den = E ∧ Unit (euler2quat a b c e1 e2 e3) ∧
    Rotates (qrot (euler2quat a b c e1 e2 e3)) E ∧
    Rotates (rot9 (euler2rotmat a b c e1 e2 e3)) E ∧
    euler2rotmat a b c e1 e2 e3 = quat2rotmat (euler2quat a b c e1 e2 e3) := by
  intro E
  obtain ⟨_, u1, _, d1, r1⟩ := C30_axis_angle a e1
  obtain ⟨_, u2, _, d2, r2⟩ := C30_axis_angle b e2
  obtain ⟨_, u3, _, d3, r3⟩ := C30_axis_angle c e3
  have u12 := (C21_qmulnorm _ _ u1 u2).2
  have u := (C21_qmulnorm _ _ u12 u3).2
  have eq : euler2quat a b c e1 e2 e3 =
      qmul (qmul (angle2quat a e1) (angle2quat b e2)) (angle2quat c e3) := by
    rw [euler2quat, qnormalize_unit u]
  have ed : (euler2quat a b c e1 e2 e3).den = E := by
    rw [eq, C21_qmul, C21_qmul, d1, d2, d3]
  have hu : Unit (euler2quat a b c e1 e2 e3) := by rw [eq]; exact u
  have hr : Rotates (rot9 (euler2rotmat a b c e1 e2 e3)) E := by
    have := (r1.comp r2).comp r3
    intro v
    rw [euler2rotmat, rot9_mul9, rot9_mul9]
    exact this v
  refine ⟨ed, hu, by rw [← ed]; exact rotates_qrot hu, hr, ?_⟩
  apply M3.ext_rot
  intro v
  have h2 : Rotates (rot9 (quat2rotmat (euler2quat a b c e1 e2 e3))) E := by
    rw [← ed]; exact rotates_rotmat hu
  exact congrFun (hr.ext h2) v

example : euler2rotmat .Z .Y .X (Real.pi / 2) 0 0 = ⟨0, 1, 0, -1, 0, 0, 0, 0, 1⟩ := by
  ext <;> simp [euler2rotmat, angle2rotmat, mul9]

theorem atan2_unit {y x : ℝ} (h : x * x + y * y = 1) :
    Real.sin (atan2 y x) = y ∧ Real.cos (atan2 y x) = x := by
  have hn : ‖(⟨x, y⟩ : ℂ)‖ = 1 := by
    rw [Complex.norm_def, Complex.normSq_apply, Real.sqrt_eq_one]; exact h
  have hz : (⟨x, y⟩ : ℂ) ≠ 0 := by
    intro hz; rw [hz] at hn; simp at hn
  constructor
  · rw [atan2, Complex.sin_arg, hn]; simp
  · rw [atan2, Complex.cos_arg hz, hn]; simp

/-- `aa_tf_rotmat2eulerzyx` inverts the ZYX conversion for every rotation matrix except those at
gimbal lock, where `R[0] = R[1] = 0`. -/
theorem C30_rotmat2eulerzyx_partial (R : M3) (h : IsRot R) (hg : R.m0 ^ 2 + R.m1 ^ 2 ≠ 0) :
    ∃ e0 e1 e2, rotmat2eulerzyx R = some (e0, e1, e2) ∧ euler2rotmat .Z .Y .X e0 e1 e2 = R ∧
      |e1| ≤ Real.pi / 2 := by
  have he := h.eqs
  have hp : 0 < R.m0 ^ 2 + R.m1 ^ 2 := lt_of_le_of_ne (by positivity) hg.symm
  have hc : 0 < Real.sqrt (R.m0 ^ 2 + R.m1 ^ 2) := Real.sqrt_pos.2 hp
  have hsq : Real.sqrt (R.m0 ^ 2 + R.m1 ^ 2) * Real.sqrt (R.m0 ^ 2 + R.m1 ^ 2) =
      R.m0 ^ 2 + R.m1 ^ 2 := Real.mul_self_sqrt hp.le
  generalize hcg : Real.sqrt (R.m0 ^ 2 + R.m1 ^ 2) = c at *
  obtain ⟨sb, cb⟩ := atan2_unit (y := -R.m2) (x := c) (by rw [hsq]; linarith [he.c00])
  have hb : |atan2 (-R.m2) c| ≤ Real.pi / 2 := by
    rw [atan2, Complex.abs_arg_le_pi_div_two_iff]; exact hc.le
  have c2 : c ^ 2 = R.m0 ^ 2 + R.m1 ^ 2 := by rw [← hsq]; ring
  obtain ⟨sa, ca⟩ := atan2_unit (y := R.m1 / c) (x := R.m0 / c) (by
    field_simp; linarith)
  obtain ⟨sg, cg⟩ := atan2_unit (y := R.m5 / c) (x := R.m8 / c) (by
    field_simp; linarith [he.r22, he.c00])
  refine ⟨atan2 (R.m1 / c) (R.m0 / c), atan2 (-R.m2) c, atan2 (R.m5 / c) (R.m8 / c), ?_, ?_, hb⟩
  · simp only [rotmat2eulerzyx, hcg]
    rw [cb, if_neg hc.ne']
  · have m3 : R.m0 * R.m2 * R.m5 + R.m1 * R.m8 = -(c ^ 2 * R.m3) := by
      rw [c2]; linear_combination R.m0 * he.c01 - R.m1 * he.k8 
    have m4 : R.m1 * R.m2 * R.m5 - R.m0 * R.m8 = -(c ^ 2 * R.m4) := by
      rw [c2]; linear_combination R.m1 * he.c01 + R.m0 * he.k8
    have m6 : R.m0 * R.m2 * R.m8 - R.m1 * R.m5 = -(c ^ 2 * R.m6) := by
      rw [c2]; linear_combination R.m0 * he.c02 + R.m1 * he.k5
    have m7 : R.m1 * R.m2 * R.m8 + R.m0 * R.m5 = -(c ^ 2 * R.m7) := by
      rw [c2]; linear_combination R.m1 * he.c02 - R.m0 * he.k5
    rcases R with ⟨m0, m1, m2, m3, m4, m5, m6, m7, m8⟩
    simp only at *
    ext <;> simp only [euler2rotmat, angle2rotmat, mul9, sa, ca, sb, cb, sg, cg] <;> field_simp <;> linarith

/-- for a unit quaternion away from gimbal lock `aa_tf_quat2eulerzyx` gives the angles that
`aa_tf_rotmat2eulerzyx` gives for its matrix; they convert back to the same rotation. -/
theorem C30_quat2eulerzyx_partial (q : Quat) (h : Unit q)
    (hg : (quat2rotmat q).m0 ^ 2 + (quat2rotmat q).m1 ^ 2 ≠ 0) :
    ∃ e0 e1 e2, quat2eulerzyx q = some (e0, e1, e2) ∧
      rotmat2eulerzyx (quat2rotmat q) = some (e0, e1, e2) ∧
      euler2rotmat .Z .Y .X e0 e1 e2 = quat2rotmat q := by
  have hR := C24_isRot q h
  have he := hR.eqs
  obtain ⟨e0, e1, e2, hr, hm, hb⟩ := C30_rotmat2eulerzyx_partial _ hR hg
  refine ⟨e0, e1, e2, ?_, hr, hm⟩
  have hn : qnorm q = 1 := by
    rw [C21_qnorm]; exact (Unit.iff_norm _).1 h
  have hp : 0 < (quat2rotmat q).m0 ^ 2 + (quat2rotmat q).m1 ^ 2 := lt_of_le_of_ne (by positivity) hg.symm
  have hc : 0 < Real.sqrt ((quat2rotmat q).m0 ^ 2 + (quat2rotmat q).m1 ^ 2) := Real.sqrt_pos.2 hp
  have hsq := Real.mul_self_sqrt hp.le
  have cb : Real.cos (atan2 (-(quat2rotmat q).m2) (Real.sqrt ((quat2rotmat q).m0 ^ 2 + (quat2rotmat q).m1 ^ 2))) =
      Real.sqrt ((quat2rotmat q).m0 ^ 2 + (quat2rotmat q).m1 ^ 2) := 
    (atan2_unit (by rw [hsq]; linarith [he.c00])).2
  have sb : Real.sin (atan2 (-(quat2rotmat q).m2) (Real.sqrt ((quat2rotmat q).m0 ^ 2 + (quat2rotmat q).m1 ^ 2))) =
      -(quat2rotmat q).m2 := 
    (atan2_unit (by rw [hsq]; linarith [he.c00])).1
  have scale : ∀ y x, atan2 (y / Real.sqrt ((quat2rotmat q).m0 ^ 2 + (quat2rotmat q).m1 ^ 2)) (x / Real.sqrt ((quat2rotmat q).m0 ^ 2 + (quat2rotmat q).m1 ^ 2)) = atan2 y x := by
    intro y x
    generalize Real.sqrt ((quat2rotmat q).m0 ^ 2 + (quat2rotmat q).m1 ^ 2) = c at *
    have : (⟨x / c, y / c⟩ : ℂ) = ((1 / c : ℝ) : ℂ) * ⟨x, y⟩ := by
      apply Complex.ext <;> simp <;> ring
    rw [atan2, this, Complex.arg_real_mul _ (by positivity), atan2]
  simp only [rotmat2eulerzyx] at hr
  rw [cb, if_neg hc.ne', scale, scale] at hr
  have hb' := hr
  simp only [Option.some.injEq, Prod.mk.injEq] at hb'
  have hb2 := hb'.2.1
  rw [← hr]
  simp only [quat2eulerzyx, hn, div_one]
  rw [if_neg one_ne_zero]
  have q0 : 1 - 2 * (q.y * q.y + q.z * q.z) = (quat2rotmat q).m0 := by
    simp [quat2rotmat, skewsymScalC, Quat.vec]; ring
  have q1 : 2 * (q.w * q.z + q.x * q.y) = (quat2rotmat q).m1 := by
    simp [quat2rotmat, skewsymScalC, Quat.vec]; ring
  have q2 : 2 * (q.w * q.y - q.x * q.z) = -(quat2rotmat q).m2 := by
    simp [quat2rotmat, skewsymScalC, Quat.vec]; ring
  have q5 : 2 * (q.w * q.x + q.y * q.z) = (quat2rotmat q).m5 := by
    simp [quat2rotmat, skewsymScalC, Quat.vec]; ring
  have q8 : 1 - 2 * (q.x * q.x + q.y * q.y) = (quat2rotmat q).m8 := by
    simp [quat2rotmat, skewsymScalC, Quat.vec]; ring
  rw [q0, q1, q2, q5, q8]
  have ha : Real.arcsin (-(quat2rotmat q).m2) =
      atan2 (-(quat2rotmat q).m2) (Real.sqrt ((quat2rotmat q).m0 ^ 2 + (quat2rotmat q).m1 ^ 2)) := by
    conv_lhs => rw [← sb]
    apply Real.arcsin_sin
    · rw [hb2]; exact (abs_le.1 hb).1
    · rw [hb2]; exact (abs_le.1 hb).2
  rw [ha]

/-- the rotation of the two examples below: 90 degrees of pitch after 90 degrees of yaw. -/
theorem gimbal_unit : Unit ⟨-1 / 2, 1 / 2, 1 / 2, 1 / 2⟩ := by norm_num [Unit]

/-- at gimbal lock `aa_tf_quat2eulerzyx` returns angles of another rotation: it drops the yaw. -/
theorem C30_violates_quat2eulerzyx :
    ∃ e0 e1 e2, quat2eulerzyx ⟨-1 / 2, 1 / 2, 1 / 2, 1 / 2⟩ = some (e0, e1, e2) ∧
      euler2rotmat .Z .Y .X e0 e1 e2 ≠ quat2rotmat ⟨-1 / 2, 1 / 2, 1 / 2, 1 / 2⟩ ∧
      euler2rotmat .Z .Y .X (Real.pi / 2) (Real.pi / 2) 0 =
        quat2rotmat ⟨-1 / 2, 1 / 2, 1 / 2, 1 / 2⟩ := by
  have hn : qnorm ⟨-1 / 2, 1 / 2, 1 / 2, 1 / 2⟩ = 1 := by
    rw [C21_qnorm]; exact (Unit.iff_norm _).1 gimbal_unit
  have z : (⟨0, 0⟩ : ℂ) = 0 := rfl
  refine ⟨0, Real.pi / 2, 0, ?_, ?_, ?_⟩
  · simp only [quat2eulerzyx, hn]
    rw [if_neg one_ne_zero]
    norm_num [atan2, z]
  · intro hh
    have := congrArg M3.m4 hh
    norm_num [euler2rotmat, angle2rotmat, mul9, quat2rotmat, skewsymScalC, Quat.vec] at this
  · ext <;> norm_num [euler2rotmat, angle2rotmat, mul9, quat2rotmat, skewsymScalC, Quat.vec]

/-- and `aa_tf_rotmat2eulerzyx` divides by `cos(pitch) = 0` there. -/
theorem C30_violates_rotmat2eulerzyx :
    IsRot (quat2rotmat ⟨-1 / 2, 1 / 2, 1 / 2, 1 / 2⟩) ∧
    rotmat2eulerzyx (quat2rotmat ⟨-1 / 2, 1 / 2, 1 / 2, 1 / 2⟩) = none := by
  refine ⟨C24_isRot _ gimbal_unit, ?_⟩
  have e : quat2rotmat ⟨-1 / 2, 1 / 2, 1 / 2, 1 / 2⟩ = ⟨0, 0, -1, -1, 0, 0, 0, 1, 0⟩ := by
    ext <;> norm_num [quat2rotmat, skewsymScalC, Quat.vec]
  have : (⟨0, 1⟩ : ℂ) = Complex.I := rfl
  rw [e]
  simp [rotmat2eulerzyx, atan2, this]

/-! ## C30: rotation vectors -/

theorem rotvec2quat_eq (r : V3) : rotvec2quat r = qpexp (vscal (1 / 2) r) := by
  have : (r.x * r.x + r.y * r.y + r.z * r.z) / 4 = vdot (vscal (1 / 2) r) (vscal (1 / 2) r) := by
    simp [vdot, vscal]; ring
  simp only [rotvec2quat, qpexp, this]
  ext <;> simp [vscal] <;> ring

/-- C30: `aa_tf_rotvec2quat`: exact in the trigonometric branch, within 2^-86 in the other. -/
theorem C30_rotvec2quat (r : V3) :
    (1 / 2 ^ 12 ≤ vnorm r → (rotvec2quat r).den = r.rotvecDen ∧ Unit (rotvec2quat r)) ∧
    ‖(rotvec2quat r).den - r.rotvecDen‖ ≤ 1 / 2 ^ 86 ∧ |qnorm (rotvec2quat r) - 1| ≤ 1 / 2 ^ 86 := by
  have := C28_qpexp (vscal (1 / 2) r)
  rw [← rotvec2quat_eq, vscal_pure, vnorm_vscal, abs_of_pos (by norm_num)] at this
  refine ⟨fun h => this.1 ?_, this.2.1, this.2.2⟩
  norm_num at *; linarith

theorem quat2rotvec_eq (q : Quat) (h : Unit q) :
    quat2rotvec q = (qln q).map fun l => vscal 2 l.vec := by
  have hn : qnorm q = 1 := by rw [C21_qnorm]; exact (Unit.iff_norm _).1 h
  have ha : atan2 (vnorm q.vec) q.w = qangle q := rfl
  simp only [quat2rotvec, qln_eq, hn, sqrt_sqrt_eps, ha, one_ne_zero, if_false]
  split_ifs
  · simp only [Option.map_some, Option.some.injEq]
    ext <;> simp [vscal, Quat.vec] <;> ring
  · rfl
  · simp only [Option.map_some, Option.some.injEq]
    ext <;> simp [vscal, Quat.vec] <;> ring

/-- `aa_tf_quat2rotvec` of a unit quaternion other than -1 is a rotation vector of that quaternion:
exactly in the trigonometric branch, within 2^-98 of one in the series branch. -/
theorem C30_quat2rotvec_partial (q : Quat) (h : Unit q) (h1 : vnorm q.vec ≠ 0 ∨ 0 < q.w) :
    ∃ r L, quat2rotvec q = some r ∧ L.rotvecDen = q.den ∧ ‖r.pure - L.pure‖ ≤ 1 / 2 ^ 98 ∧
      (1 / 2 ^ 13 ≤ qangle q → r = L) := by
  obtain ⟨l, hl, L, hL, hre, hb, hx⟩ := C28_exp_ln_partial q h1
  have hn : qnorm q = 1 := by rw [C21_qnorm]; exact (Unit.iff_norm _).1 h
  rw [hn, Real.log_one] at hre
  have hLp : (⟨2 * L.imI, 2 * L.imJ, 2 * L.imK⟩ : V3).pure = (2 : ℝ) • L := by
    ext <;> simp [hre]
  have hlre : l.w = 0 := by
    rw [qln_eq, hn] at hl
    simp only [one_ne_zero, if_false, Real.log_one] at hl
    split_ifs at hl
    · simp only [Option.some.injEq] at hl; rw [← hl]
    · simp only [Option.some.injEq] at hl; rw [← hl]
  have hlp : (vscal 2 l.vec).pure = (2 : ℝ) • l.den := by
    ext <;> simp [hlre, vscal, Quat.vec]
  refine ⟨vscal 2 l.vec, ⟨2 * L.imI, 2 * L.imJ, 2 * L.imK⟩, ?_, ?_, ?_, ?_⟩
  · rw [quat2rotvec_eq q h, hl]; rfl
  · rw [V3.rotvecDen, hLp, smul_smul]; norm_num; exact hL
  · rw [hLp, hlp, ← smul_sub, norm_smul]
    norm_num at *; linarith
  · intro hh
    apply V3.pure_inj
    rw [hLp, hlp, hx hh]

/-- the quaternion -1 is the identity rotation, but `aa_tf_quat2rotvec` divides by its zero vector
part. -/
theorem C30_violates_quat2rotvec : Unit ⟨0, 0, 0, -1⟩ ∧ quat2rotvec ⟨0, 0, 0, -1⟩ = none := by
  have u : Unit ⟨0, 0, 0, -1⟩ := by norm_num [Unit]
  refine ⟨u, ?_⟩
  rw [quat2rotvec_eq _ u, C28_violates_ln_neg_one.2]
  rfl

/-! ## C30: quaternion to axis-angle -/

/-- C30: `aa_tf_quat2axang` then `aa_tf_axang2quat` normalises any nonzero quaternion (so it is the
identity on unit quaternions); the axis is a unit vector, or zero when the quaternion is real. -/
theorem C30_quat2axang (q : Quat) (h : qnorm q ≠ 0) :
    axang2quat (quat2axang q) = qnormalize q ∧
    (vnorm q.vec ≠ 0 → vnorm (quat2axang q).axis = 1 ∧ (quat2axang q).den = (qnormalize q).den) ∧
    0 ≤ (quat2axang q).angle ∧ (quat2axang q).angle ≤ 2 * Real.pi := by
  have hz : vnorm q.vec ≠ 0 ∨ q.w ≠ 0 := by
    by_contra hc
    push Not at hc
    apply h
    rw [← qnorm_eq, ← vnorm_sq, hc.1, hc.2]; simp
  obtain ⟨np, hs, hc, p0, p1⟩ := polar (vnorm q.vec) q.w (vnorm_nonneg _) hz
  rw [vnorm_sq, qnorm_eq] at np hs hc
  have hang : (quat2axang q).angle = 2 * atan2 (vnorm q.vec) q.w := by
    unfold quat2axang; simp only; split_ifs <;> rfl
  have key : axang2quat (quat2axang q) = qnormalize q := by
    by_cases h0 : vnorm q.vec > 0
    · simp only [axang2quat, hang]
      have e : 2 * atan2 (vnorm q.vec) q.w / 2 = atan2 (vnorm q.vec) q.w := by ring
      rw [e]
      generalize atan2 (vnorm q.vec) q.w = p at *
      simp only [quat2axang, if_pos h0]
      have h0' := h0.ne'
      have hs' : Real.sin p = vnorm q.vec / qnorm q := by rw [← hs]; field_simp
      have hc' : Real.cos p = q.w / qnorm q := by rw [← hc]; field_simp
      ext <;> simp only [hs', hc', qnormalize] <;> field_simp
    · have h0' : vnorm q.vec = 0 := le_antisymm (not_lt.1 h0) (vnorm_nonneg _)
      simp only [axang2quat, hang]
      have e : 2 * atan2 (vnorm q.vec) q.w / 2 = atan2 (vnorm q.vec) q.w := by ring
      rw [e]
      generalize atan2 (vnorm q.vec) q.w = p at *
      have hc' : Real.cos p = q.w / qnorm q := by rw [← hc]; field_simp
      have hv : q.vec.pure = 0 := by rw [← norm_eq_zero, norm_pure, h0']
      have hx : q.x = 0 := by simpa [Quat.vec] using congrArg QuaternionAlgebra.imI hv
      have hy : q.y = 0 := by simpa [Quat.vec] using congrArg QuaternionAlgebra.imJ hv
      have hz : q.z = 0 := by simpa [Quat.vec] using congrArg QuaternionAlgebra.imK hv
      simp only [quat2axang, if_neg h0]
      ext <;> simp [qnormalize, hx, hy, hz, hc']
  refine ⟨key, fun h0 => ?_, by rw [hang]; linarith, by rw [hang]; linarith⟩
  have h0' : vnorm q.vec > 0 := lt_of_le_of_ne (vnorm_nonneg _) h0.symm
  have hax : vnorm (quat2axang q).axis = 1 := by
    have : (quat2axang q).axis = vscal (1 / vnorm q.vec) q.vec := by
      simp only [quat2axang, if_pos h0']
      ext <;> simp [vscal, Quat.vec] <;> ring
    rw [this, vnorm_vscal, abs_of_pos (by positivity)]
    field_simp
  refine ⟨hax, ?_⟩
  rw [← (C30_axang2quat _ hax).1, key]

/-- the round trip on unit quaternions. -/
theorem C30_quat_axang_quat (q : Quat) (h : Unit q) : axang2quat (quat2axang q) = q := by
  have hn : qnorm q = 1 := by rw [C21_qnorm]; exact (Unit.iff_norm _).1 h
  rw [(C30_quat2axang q (by rw [hn]; norm_num)).1, qnormalize_unit h]

/-! ## C30: rotation vector and axis-angle -/

theorem axang_rotvec_den (a : Axang) : (axang2rotvec a).rotvecDen = a.den := by
  rw [V3.rotvecDen, Axang.den, axang2rotvec, vscal_pure, smul_smul]
  congr 2; ring

/-- C30: `aa_tf_axang2rotvec` keeps the rotation; `aa_tf_rotvec2axang` does so exactly for vectors
of length 1e-4 or more (its result then has a unit axis and converts back exactly), and within
2^-85 for shorter ones. -/
theorem C30_rotvec_axang (a : Axang) (r : V3) :
    (axang2rotvec a).rotvecDen = a.den ∧
    (0.0001 ≤ vnorm r → vnorm (rotvec2axang r).axis = 1 ∧ axang2rotvec (rotvec2axang r) = r ∧
      (rotvec2axang r).den = r.rotvecDen) ∧
    ‖(axang2quat (rotvec2axang r)).den - r.rotvecDen‖ ≤ 1 / 2 ^ 85 := by
  have big : 0.0001 ≤ vnorm r → vnorm (rotvec2axang r).axis = 1 ∧ axang2rotvec (rotvec2axang r) = r ∧
      (rotvec2axang r).den = r.rotvecDen := by
    intro h
    have hb : ¬ vdot r r < 0.0001 * 0.0001 := by
      rw [← vnorm_sq]; push Not
      exact mul_le_mul h h (by norm_num) (vnorm_nonneg _)
    have hp : 0 < vnorm r := lt_of_lt_of_le (by norm_num) h
    have e : rotvec2axang r = ⟨vscal (1 / vnorm r) r, vnorm r⟩ := by
      simp only [rotvec2axang, if_neg hb]
      ext <;> simp [vscal, vnorm] <;> ring
    have e2 : axang2rotvec (rotvec2axang r) = r := by
      rw [e, axang2rotvec]
      ext <;> simp [vscal] <;> field_simp
    refine ⟨?_, e2, ?_⟩
    · rw [e, vnorm_vscal, abs_of_pos (by positivity)]; field_simp
    · rw [← axang_rotvec_den, e2]
  refine ⟨axang_rotvec_den a, big, ?_⟩
  by_cases h : 0.0001 ≤ vnorm r
  · obtain ⟨h1, _, h3⟩ := big h
    rw [(C30_axang2quat _ h1).1, h3, sub_self, norm_zero]; positivity
  · have hb : vdot r r < 0.0001 * 0.0001 := by
      rw [← vnorm_sq]; push Not at h
      exact mul_lt_mul'' h h (vnorm_nonneg _) (vnorm_nonneg _)
    obtain ⟨_, h1, h2⟩ := C30_rotvec2quat r
    have hn : qnorm (rotvec2quat r) ≠ 0 := by
      intro h0; rw [h0] at h2; norm_num at h2
    have e : rotvec2axang r = quat2axang (rotvec2quat r) := by
      simp only [rotvec2axang, if_pos hb]
    rw [e, (C30_quat2axang _ hn).1]
    obtain ⟨u, hsc⟩ := C21_qnormalize _ hn
    have hd : (rotvec2quat r).den = qnorm (rotvec2quat r) • (qnormalize (rotvec2quat r)).den := by
      conv_lhs => rw [← hsc]
      ext <;> simp [qscal, mul_comm]
    have hu := (Unit.iff_norm _).1 u
    have h3 : ‖(qnormalize (rotvec2quat r)).den - (rotvec2quat r).den‖ ≤ 1 / 2 ^ 86 := by
      have : (qnormalize (rotvec2quat r)).den - (rotvec2quat r).den =
          (1 - qnorm (rotvec2quat r)) • (qnormalize (rotvec2quat r)).den := by
        rw [sub_smul, one_smul, ← hd]
      rw [this, norm_smul, hu, mul_one, Real.norm_eq_abs, abs_sub_comm]
      exact h2
    have := norm_sub_le_norm_sub_add_norm_sub (qnormalize (rotvec2quat r)).den (rotvec2quat r).den
      r.rotvecDen
    norm_num at *; linarith

/-- C30: adding turns of `2 pi` to the angle gives the same rotation. -/
theorem C30_permute (a : Axang) (k : ℤ) (h : vnorm a.axis = 1) :
    ((axangPermute a k).den = a.den ∨ (axangPermute a k).den = -a.den) ∧
    axangRot (axangPermute a k) = axangRot a := by
  have h1 : (axangPermute a k).den = a.den ∨ (axangPermute a k).den = -a.den := by
    have ha : vnorm (axangPermute a k).axis = 1 := h
    rw [Axang.den, Axang.den, exp_axis _ h, exp_axis _ ha]
    have e : (axangPermute a k).angle / 2 = a.angle / 2 + k * Real.pi := by
      simp only [axangPermute]; ring
    rw [e, Real.cos_add_int_mul_pi, Real.sin_add_int_mul_pi]
    rcases Int.even_or_odd k with hk | hk
    · left; rw [hk.neg_one_zpow]; simp [axangPermute]
    · right; rw [hk.neg_one_zpow]; simp [axangPermute]; abel
  refine ⟨h1, ?_⟩
  have r1 := (C30_axang a h).1
  have r2 := (C30_axang (axangPermute a k) h).1
  rcases h1 with e | e
  · rw [e] at r2; exact r2.ext r1
  · rw [e] at r2; exact (r2.neg.ext (by rw [neg_neg]; exact r1))

/-- C30: so does `aa_tf_rotvec_permute`. -/
theorem C30_rotvec_permute (r : V3) (k : ℤ) (h : 0.0001 ≤ vnorm r) :
    (rotvecPermute r k).rotvecDen = r.rotvecDen ∨ (rotvecPermute r k).rotvecDen = -r.rotvecDen := by
  obtain ⟨h1, _, h3⟩ := (C30_rotvec_axang (rotvec2axang r) r).2.1 h
  rw [rotvecPermute, axang_rotvec_den, ← h3]
  exact (C30_permute _ k h1).1

theorem near_fold (near : V3) (l : List V3) (b : V3) :
    let f := l.foldl (fun best c => if ssd3 near c < ssd3 near best then c else best) b
    (f = b ∨ f ∈ l) ∧ ssd3 near f ≤ ssd3 near b ∧ ∀ c ∈ l, ssd3 near f ≤ ssd3 near c := by
  induction l generalizing b with
  | nil => simp
  | cons c l ih =>
    simp only [List.foldl_cons]
    by_cases h : ssd3 near c < ssd3 near b
    · rw [if_pos h]
      obtain ⟨h1, h2, h3⟩ := ih c
      refine ⟨Or.inr ?_, h2.trans h.le, ?_⟩
      · rcases h1 with h1 | h1
        · rw [h1]; exact List.mem_cons_self
        · exact List.mem_cons_of_mem _ h1
      · intro d hd
        rcases List.mem_cons.1 hd with rfl | hd
        · exact h2
        · exact h3 d hd
    · rw [if_neg h]
      obtain ⟨h1, h2, h3⟩ := ih b
      refine ⟨h1.imp id (List.mem_cons_of_mem _), h2, ?_⟩
      intro d hd
      rcases List.mem_cons.1 hd with rfl | hd
      · exact h2.trans (not_lt.1 h)
      · exact h3 d hd

/-- C30: `aa_tf_rotvec_near` returns a vector of the same rotation, no farther from the reference
than the given one or any of its six neighbours. -/
theorem C30_rotvec_near (r near : V3) :
    (0.0001 ≤ vnorm r → (rotvecNear r near).rotvecDen = r.rotvecDen ∨
      (rotvecNear r near).rotvecDen = -r.rotvecDen) ∧
    ssd3 near (rotvecNear r near) ≤ ssd3 near r ∧
    ∀ k : ℤ, 1 ≤ |k| → |k| ≤ 3 → ssd3 near (rotvecNear r near) ≤ ssd3 near (rotvecPermute r k) := by
  obtain ⟨h1, h2, h3⟩ := near_fold near [rotvecPermute r 1, rotvecPermute r 2, rotvecPermute r 3,
    rotvecPermute r (-1), rotvecPermute r (-2), rotvecPermute r (-3)] r
  refine ⟨fun h => ?_, h2, ?_⟩
  · rcases h1 with h1 | h1
    · left; exact congrArg V3.rotvecDen h1
    · simp only [List.mem_cons, List.not_mem_nil, or_false] at h1
      rcases h1 with h1 | h1 | h1 | h1 | h1 | h1 <;>
        · rw [rotvecNear, h1]; exact C30_rotvec_permute r _ h
  · intro k k1 k3
    apply h3
    have : k = 1 ∨ k = 2 ∨ k = 3 ∨ k = -1 ∨ k = -2 ∨ k = -3 := by
      rcases abs_cases k with ⟨h, _⟩ | ⟨h, _⟩ <;> omega
    rcases this with rfl | rfl | rfl | rfl | rfl | rfl <;> simp

/-- C30: `aa_tf_axang_normalize` makes the axis a unit vector and the angle lie in `[0, pi]`, and
keeps the rotation about the direction of the given axis. -/
theorem C30_axang_normalize (a : Axang) (h : vnorm a.axis ≠ 0) :
    ∃ b, axangNormalize a = some b ∧ vnorm b.axis = 1 ∧ 0 ≤ b.angle ∧ b.angle ≤ Real.pi ∧
      axangRot b = axangRot ⟨vnormalize a.axis, a.angle⟩ := by
  obtain ⟨hb, hm⟩ := (Scalar.C19_angles a.angle 0).2.1
  have hs : Real.sin (Scalar.angNormPi a.angle) = Real.sin a.angle := by
    rw [← Real.Angle.sin_coe, hm, Real.Angle.sin_coe]
  have hc : Real.cos (Scalar.angNormPi a.angle) = Real.cos a.angle := by
    rw [← Real.Angle.cos_coe, hm, Real.Angle.cos_coe]
  have hp : 0 < vnorm a.axis := lt_of_le_of_ne (vnorm_nonneg _) h.symm
  have hun : vnorm (vnormalize a.axis) = 1 := by
    have : vnormalize a.axis = vscal (1 / vnorm a.axis) a.axis := by
      ext <;> simp [vscal, vnormalize, vnorm] <;> ring
    rw [this, vnorm_vscal, abs_of_pos (by positivity)]; field_simp
  generalize hg : Scalar.angNormPi a.angle = t at *
  obtain ⟨b1, b2⟩ := abs_le.1 hb
  by_cases ht : t < 0
  · refine ⟨⟨vscal (-1) (vnormalize a.axis), t * -1⟩, ?_, ?_, by simp only; linarith, by simp only; linarith, ?_⟩
    · simp only [axangNormalize, hg, if_neg h, if_pos ht, Option.some.injEq]
      ext <;> simp [vscal, vnormalize, vnorm, div_neg]
    · rw [vnorm_vscal, hun]; norm_num
    · funext v
      ext <;> simp [axangRot, vscal, cross, vdot, hs, hc] <;> ring
  · refine ⟨⟨vnormalize a.axis, t⟩, ?_, hun, by simp only; linarith, b2, ?_⟩
    · simp only [axangNormalize, hg, if_neg h, if_neg ht, Option.some.injEq]
      rfl
    · funext v
      ext <;> simp [axangRot, hs, hc]

/-- the hypotheses of the axis-angle theorems are met by every rotation about an axis. -/
example : vnorm (⟨⟨3 / 5, 0, 4 / 5⟩, 2⟩ : Axang).axis = 1 := by
  norm_num [vnorm, vdot]

end Verif.Tf
