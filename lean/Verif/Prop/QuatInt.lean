import Verif.Prop.QvelRk
import Verif.Prop.Slerp
import Verif.Prop.Lnv
import Verif.Prop.Frames

/-!
# C73: exact quaternion integration, relative angle, algebraic interpolation

Specification: a path of quaternions `Q` has the angular velocity `v s` at time `s` when
`Q' = v Q / 2`.
-/

namespace Verif.Tf

open scoped Quaternion
open Quaternion NormedSpace

/-- `Q` moves with the angular velocity `v + s a` at time `s`. -/
def ConstAcc (Q : ℝ → Quat) (v a : V3) : Prop :=
  ∀ s, HasDerivAt (fun s => (Q s).den) ((1 / 2 : ℝ) • ((vadd v (vscal s a)).pure * (Q s).den)) s

/-! ## Steps -/

theorem step_close (u : V3) (q0 : Quat) (h : Unit q0) :
    ‖(qmul (qpexp u) q0).den - exp u.pure * q0.den‖ ≤ 1 / 2 ^ 86 ∧
    (1 / 2 ^ 13 ≤ vnorm u → (qmul (qpexp u) q0).den = exp u.pure * q0.den) := by
  obtain ⟨h1, h2, -⟩ := C28_qpexp u
  rw [C21_qmul]
  refine ⟨?_, fun hu => by rw [(h1 hu).1]⟩
  rw [← sub_mul, norm_mul, (Unit.iff_norm _).1 h, mul_one]
  exact h2

/-- **C73**, `aa_tf_qsvel`: the quaternion after the time `dt` at constant velocity. -/
theorem C73_qsvel (Q : ℝ → Quat) (w : V3) (dt : ℝ) (h : ConstVel Q w) (hu : Tf.Unit (Q 0)) :
    ‖(qsvel (Q 0) w dt).den - (Q dt).den‖ ≤ 1 / 2 ^ 86 ∧
    (1 / 2 ^ 13 ≤ vnorm w * |dt| / 2 → qsvel (Q 0) w dt = Q dt) := by
  have e : (⟨w.x * dt / 2, w.y * dt / 2, w.z * dt / 2⟩ : V3) = vscal (dt / 2) w := by
    simp only [vscal, V3.mk.injEq]; refine ⟨?_, ?_, ?_⟩ <;> ring
  obtain ⟨a, b⟩ := step_close (vscal (dt / 2) w) (Q 0) hu
  rw [vscal_pure, ← constVel_unique h dt] at a b
  rw [qsvel, e]
  refine ⟨a, fun hh => Quat.den_inj (b ?_)⟩
  rw [vnorm_vscal, abs_div, abs_two]
  linarith

/-- **C73**, `aa_tf_qsdiff`: the same from the derivative at the start. -/
theorem C73_qsdiff (Q : ℝ → Quat) (w : V3) (dq : Quat) (dt : ℝ) (h : ConstVel Q w)
    (hu : Tf.Unit (Q 0)) (hd : HasDerivAt (fun s => (Q s).den) dq.den 0) :
    ‖(qsdiff (Q 0) dq dt).den - (Q dt).den‖ ≤ 1 / 2 ^ 86 ∧
    (1 / 2 ^ 13 ≤ vnorm w * |dt| / 2 → qsdiff (Q 0) dq dt = Q dt) := by
  have e1 : dq = qvel2diff (Q 0) w := by
    apply Quat.den_inj
    rw [hd.unique (h 0), qvel2diff, (C21_vector_products _ _).1, ← smul_mul_assoc]
    congr 1
    ext <;> simp <;> ring
  have e2 : qsdiff (Q 0) dq dt = qsvel (Q 0) w dt := by
    have hq : qdiff2vel (Q 0) dq = w := by
      rw [e1]; exact (C31_quat_inverse (Q 0) hu).1 w
    rw [← hq, qsdiff, qsvel, qdiff2vel]
    simp only
    congr 2
    simp only [V3.mk.injEq]; refine ⟨?_, ?_, ?_⟩ <;> ring
  rw [e2]
  exact C73_qsvel Q w dt h hu

/-- The velocity determines the path, for velocities of constant direction. -/
theorem constAcc_unique {Q : ℝ → Quat} {v a : V3} (h : ConstAcc Q v a) (hp : cross v a = ⟨0, 0, 0⟩)
    (t : ℝ) : (Q t).den = exp ((t / 2) • v.pure + (t * t / 4) • a.pure) * (Q 0).den := by
  obtain ⟨k, α, β, rfl, rfl⟩ : ∃ k α β, v = vscal α k ∧ a = vscal β k := by
    by_cases h0 : v = ⟨0, 0, 0⟩
    · exact ⟨a, 0, 1, by rw [h0]; ext <;> simp [vscal], by ext <;> simp [vscal]⟩
    · have hn := vnorm_ne h0
      have hvv : 0 < vdot v v := by rw [← vnorm_sq]; positivity
      refine ⟨v, 1, vdot v a / vdot v v, by ext <;> simp [vscal], ?_⟩
      simp only [cross, V3.mk.injEq] at hp
      obtain ⟨c0, c1, c2⟩ := hp
      rw [V3.ext_iff]
      simp only [vscal]
      refine ⟨?_, ?_, ?_⟩ <;> field_simp <;> simp only [vdot]
      · linear_combination v.z * c1 - v.y * c2
      · linear_combination v.x * c2 - v.z * c0
      · linear_combination v.y * c0 - v.x * c1
  set f : ℝ → ℝ := fun s => s / 2 * α + s * s / 4 * β with hf
  have hfd : ∀ s, HasDerivAt f (1 / 2 * (α + s * β)) s := by
    intro s
    have h1 : HasDerivAt f ((1 / 2) * α + (1 * s + s * 1) / 4 * β) s :=
      (((hasDerivAt_id s).div_const 2).mul_const α).add
        ((((hasDerivAt_id s).mul (hasDerivAt_id s)).div_const 4).mul_const β)
    refine h1.congr_deriv ?_
    ring
  have hE : ∀ s, HasDerivAt (fun s => exp ((-f s) • k.pure))
      (-(1 / 2 * (α + s * β)) • (exp ((-f s) • k.pure) * k.pure)) s := by
    intro s
    exact (hasDerivAt_exp_smul_const k.pure (-f s)).scomp s (hfd s).neg
  have hX : ∀ s, HasDerivAt (fun s => exp ((-f s) • k.pure) * (Q s).den) 0 s := by
    intro s
    refine ((hE s).mul (h s)).congr_deriv ?_
    have e : (vadd (vscal α k) (vscal s (vscal β k))).pure = (α + s * β) • k.pure := by
      ext <;> simp [vadd, vscal] <;> ring
    rw [e]
    generalize exp ((-f s) • k.pure) = E
    generalize (Q s).den = q
    rw [smul_mul_assoc, smul_mul_assoc, smul_smul, mul_smul_comm, mul_assoc, ← add_smul,
      neg_add_cancel, zero_smul]
  have hc := is_const_of_deriv_eq_zero (fun s => (hX s).differentiableAt) (fun s => (hX s).deriv) t 0
  have hf0 : f 0 = 0 := by simp [hf]
  simp only [hf0, neg_zero, zero_smul, NormedSpace.exp_zero, one_mul] at hc
  have e : (t / 2) • (vscal α k).pure + (t * t / 4) • (vscal β k).pure = f t • k.pure := by
    rw [vscal_pure, vscal_pure, smul_smul, smul_smul, ← add_smul]
  let _ : NormedAlgebra ℚ ℍ[ℝ] := NormedAlgebra.restrictScalars ℚ ℝ ℍ[ℝ]
  rw [e, ← hc, ← mul_assoc, ← NormedSpace.exp_add_of_commute, ← add_smul, add_neg_cancel, zero_smul,
    NormedSpace.exp_zero, one_mul]
  exact ((Commute.refl k.pure).smul_left _).smul_right _

/-- **C73**, `aa_tf_qsacc`: constant acceleration about the axis of the velocity. -/
theorem C73_qsacc (Q : ℝ → Quat) (v a : V3) (dt : ℝ) (h : ConstAcc Q v a)
    (hp : cross v a = ⟨0, 0, 0⟩) (hu : Tf.Unit (Q 0)) :
    ‖(qsacc (Q 0) v a dt).den - (Q dt).den‖ ≤ 1 / 2 ^ 86 ∧
    (1 / 2 ^ 13 ≤ vnorm (vadd v (vscal (dt / 2) a)) * |dt| / 2 → qsacc (Q 0) v a dt = Q dt) := by
  have e : (⟨dt / 2 * (v.x + dt / 2 * a.x), dt / 2 * (v.y + dt / 2 * a.y),
      dt / 2 * (v.z + dt / 2 * a.z)⟩ : V3) = vscal (dt / 2) (vadd v (vscal (dt / 2) a)) := rfl
  have e2 : (vscal (dt / 2) (vadd v (vscal (dt / 2) a))).pure =
      (dt / 2) • v.pure + (dt * dt / 4) • a.pure := by
    ext <;> simp [vadd, vscal] <;> ring
  obtain ⟨c, d⟩ := step_close (vscal (dt / 2) (vadd v (vscal (dt / 2) a))) (Q 0) hu
  rw [e2, ← constAcc_unique h hp dt] at c d
  rw [qsacc, e]
  refine ⟨c, fun hh => Quat.den_inj (d ?_)⟩
  rw [vnorm_vscal, abs_div, abs_two]
  linarith

/-! ## The relative angle -/

/-- The relative quaternion, taken the short way. -/
theorem qrel_spec {a b : Quat} (ha : Tf.Unit a) (hb : Tf.Unit b) :
    Tf.Unit (qminimize (qcmul a b)) ∧ (qminimize (qcmul a b)).w = |qdot a b| ∧
      (qminimize (qcmul a b)).den = slerpSign a b • (star a.den * b.den) := by
  have hw : (qcmul a b).w = qdot a b := by simp only [qcmul, qdot]; ring
  have hd : (qminimize (qcmul a b)).den = slerpSign a b • (star a.den * b.den) := by
    rw [← (C21_qcmul_qmulc a b).1, qminimize, slerpSign, hw]
    split_ifs
    · ext <;> simp [hw]
    · rw [one_smul]
  refine ⟨?_, ?_, hd⟩
  · rw [Unit.iff_norm, hd, norm_smul, norm_mul, _root_.norm_star, (Unit.iff_norm _).1 ha,
      (Unit.iff_norm _).1 hb, slerpSign]
    split_ifs <;> norm_num
  · rw [qminimize, hw]
    split_ifs with h
    · rw [abs_of_neg h]
    · rw [hw, abs_of_nonneg (not_lt.1 h)]

/-- **C73**, `aa_tf_qangle_rel`: half of the angle of the rotation that takes one orientation to the
other, at most a right angle; it does not depend on the signs of the quaternions. -/
theorem C73_qangle_rel (a b : Quat) (ha : Tf.Unit a) (hb : Tf.Unit b) :
    qangleRel a b = Real.arccos |qdot a b| ∧ qangleRel a b ≤ Real.pi / 2 := by
  obtain ⟨hu, hw, -⟩ := qrel_spec ha hb
  obtain ⟨-, hc, p0, p1⟩ := unit_polar hu
  have key : qangleRel a b = Real.arccos |qdot a b| := by
    rw [← hw, ← hc, Real.arccos_cos p0 p1]; rfl
  refine ⟨key, ?_⟩
  rw [key]
  exact Real.arccos_le_pi_div_two.2 (abs_nonneg _)

/-! ## Algebraic interpolation -/

theorem pure_exp_inj {L M : V3} (hL : vnorm L < Real.pi) (hM : vnorm M < Real.pi)
    (h : exp L.pure = exp M.pure) : L = M := by
  rw [exp_pure, exp_pure] at h
  have hre := congrArg QuaternionAlgebra.re h
  simp at hre
  have hn : vnorm L = vnorm M :=
    Real.injOn_cos ⟨vnorm_nonneg _, hL.le⟩ ⟨vnorm_nonneg _, hM.le⟩ hre
  by_cases h0 : vnorm M = 0
  · rw [vnorm_eq_zero (hn.trans h0), vnorm_eq_zero h0]
  · have hs : Real.sin (vnorm M) / vnorm M ≠ 0 := by
      have hp : 0 < vnorm M := lt_of_le_of_ne (vnorm_nonneg _) (Ne.symm h0)
      have := Real.sin_pos_of_pos_of_lt_pi hp hM
      positivity
    rw [hn] at h
    have := add_left_cancel h
    exact V3.pure_inj (smul_right_injective _ hs this)

/-- The logarithm of a unit quaternion is close to a multiple of its vector part. -/
theorem qln_unit {m : Quat} (hu : Tf.Unit m) (h : vnorm m.vec ≠ 0 ∨ 0 < m.w) :
    ∃ c, qln m = some ⟨c * m.x, c * m.y, c * m.z, 0⟩ ∧ |c * vnorm m.vec - qangle m| ≤ 1 / 2 ^ 90 := by
  obtain ⟨hs, hc, p0, p1⟩ := unit_polar hu
  have hq : Real.sqrt (vdot m.vec m.vec + m.w * m.w) = 1 := by
    rw [← vnorm_sq, unit_sq hu, Real.sqrt_one]
  have hn : Real.sqrt (vdot m.vec m.vec) = vnorm m.vec := rfl
  have ha : atan2 (vnorm m.vec) m.w = qangle m := rfl
  by_cases hb : qangle m < 1 / 2 ^ 13
  · refine ⟨invsincSeries (qangle m) / 1, ?_, ?_⟩
    · simp only [qln, hq, hn, ha, sqrt_sqrt_eps, if_pos hb, one_ne_zero, if_false, Real.log_one]
    · by_cases h0 : vnorm m.vec = 0
      · rw [h0, qangle_zero h0 (by tauto)]; norm_num
      · have hx0 : 0 < qangle m := lt_of_le_of_ne p0 (by
          intro h; rw [← h, Real.sin_zero] at hs; exact h0 hs.symm)
        have hser := eta_series hx0 (by norm_num at *; linarith)
        have e : invsincSeries (qangle m) = invsincSeries2 (qangle m * qangle m) := rfl
        rw [div_one, e, ← hs]
        generalize qangle m = x at *
        have hsp : 0 < Real.sin x := Real.sin_pos_of_pos_of_lt_pi hx0 (by
          have := Real.pi_gt_three; norm_num at *; linarith)
        have e2 : invsincSeries2 (x * x) * Real.sin x - x =
            (invsincSeries2 (x * x) - x / Real.sin x) * Real.sin x := by field_simp
        have hx6 : x ^ 6 ≤ (1 / 2 ^ 13) ^ 6 := pow_le_pow_left₀ p0 hb.le 6
        have hsx : Real.sin x ≤ 1 / 2 ^ 13 := (Real.sin_le p0).trans hb.le
        rw [e2, abs_mul, abs_of_pos hsp]
        refine (mul_le_mul (hser.trans hx6) hsx hsp.le (by positivity)).trans ?_
        norm_num
  · have h0 : vnorm m.vec ≠ 0 := by
      intro h0
      rw [qangle_zero h0 (by tauto)] at hb
      norm_num at hb
    refine ⟨qangle m / vnorm m.vec, ?_, ?_⟩
    · simp only [qln, hq, hn, ha, sqrt_sqrt_eps, if_neg hb, if_neg h0, Real.log_one]
    · rw [div_mul_cancel₀ _ h0, sub_self, abs_zero]; positivity

/-- Rotations about one axis by nearby angles are close. -/
theorem exp_axis_close {k : V3} (hk : vnorm k = 1) (a b : ℝ) :
    ‖exp (a • k.pure) - exp (b • k.pure)‖ ≤ 2 * |a - b| := by
  rw [exp_axis a hk, exp_axis b hk]
  have e : ((Real.cos a : ℝ) : ℍ[ℝ]) + Real.sin a • k.pure - (((Real.cos b : ℝ) : ℍ[ℝ]) + Real.sin b • k.pure) =
      ((Real.cos a - Real.cos b : ℝ) : ℍ[ℝ]) + (Real.sin a - Real.sin b) • k.pure := by
    rw [sub_smul, Quaternion.coe_sub]; abel
  rw [e]
  refine (norm_add_le _ _).trans ?_
  rw [Quaternion.norm_coe, norm_smul, norm_pure, hk, mul_one, Real.norm_eq_abs, Real.norm_eq_abs]
  linarith [Real.abs_cos_sub_cos_le a b, Real.abs_sin_sub_sin_le a b]

/-- Normalising a quaternion of nearly unit length moves it by the error of its length. -/
theorem qnormalize_close {r : Quat} {e : ℝ} (h : |qnorm r - 1| ≤ e) (he : e < 1) :
    ‖(qnormalize r).den - r.den‖ ≤ e := by
  have hn : 0 < qnorm r := by have := (abs_le.1 h).1; linarith
  have e1 : (qnormalize r).den - r.den = ((1 - qnorm r) / qnorm r) • r.den := by
    ext <;> simp [qnormalize] <;> field_simp
  rw [e1, norm_smul, ← C21_qnorm, Real.norm_eq_abs, abs_div, abs_of_pos hn, div_mul_cancel₀ _ hn.ne',
    abs_sub_comm]
  exact h

theorem qangle_short {m : Quat} (hu : Tf.Unit m) (hm0 : 0 ≤ m.w) :
    (vnorm m.vec ≠ 0 ∨ 0 < m.w) ∧ qangle m ≤ Real.pi / 2 := by
  obtain ⟨hs, hc, p0, p1⟩ := unit_polar hu
  constructor
  · by_contra h
    push Not at h
    have := unit_sq hu
    have hw0 : m.w = 0 := le_antisymm h.2 hm0
    rw [h.1, hw0] at this
    norm_num at this
  · by_contra h
    have := Real.cos_neg_of_pi_div_two_lt_of_lt (not_le.1 h) (by linarith [Real.pi_pos])
    linarith

/-- A unit quaternion with non-negative real part, and the short logarithm of it, have one axis. -/
theorem unit_axis {m : Quat} (hu : Tf.Unit m) (hm0 : 0 ≤ m.w) {L : V3} (hL : vnorm L ≤ Real.pi / 2)
    (hLm : exp L.pure = m.den) :
    ∃ k, vnorm k = 1 ∧ m.vec = vscal (vnorm m.vec) k ∧ L = vscal (qangle m) k := by
  obtain ⟨hs, hc, p0, p1⟩ := unit_polar hu
  obtain ⟨hor, hpi⟩ := qangle_short hu hm0
  by_cases h0 : vnorm m.vec = 0
  · have hv := vnorm_eq_zero h0
    have hq0 := qangle_zero h0 (by tauto)
    have hL0 : L = ⟨0, 0, 0⟩ := by
      refine pure_exp_inj (by linarith [Real.pi_pos]) (by
        have : vnorm ⟨0, 0, 0⟩ = 0 := by simp [vnorm, vdot]
        rw [this]; exact Real.pi_pos) ?_
      rw [hLm]
      have hz : (⟨0, 0, 0⟩ : V3).pure = 0 := by ext <;> simp
      rw [hz, exp_zero]
      rw [hq0, Real.cos_zero] at hc
      rcases m with ⟨mx, my, mz, mw⟩
      obtain ⟨rfl, rfl, rfl⟩ := V3.mk.inj hv
      simp only at hc
      subst hc
      ext <;> simp
    refine ⟨⟨1, 0, 0⟩, by simp [vnorm, vdot], ?_, ?_⟩
    · rw [h0, hv]; simp [vscal]
    · rw [hq0, hL0]; simp [vscal]
  · obtain ⟨k, hk⟩ : ∃ k, k = vscal (1 / vnorm m.vec) m.vec := ⟨_, rfl⟩
    have hvp : 0 < vnorm m.vec := lt_of_le_of_ne (vnorm_nonneg _) (Ne.symm h0)
    have hk1 : vnorm k = 1 := by
      rw [hk, vnorm_vscal, abs_of_pos (by positivity)]; field_simp
    have hmk : m.vec = vscal (vnorm m.vec) k := by
      rw [hk]; generalize vnorm m.vec = n at *; simp only [vscal, Quat.vec]; congr 1 <;> field_simp
    refine ⟨k, hk1, hmk, ?_⟩
    refine pure_exp_inj (by linarith [Real.pi_pos]) ?_ ?_
    · rw [vnorm_vscal, hk1, abs_of_nonneg p0]; linarith [Real.pi_pos]
    · rw [hLm, vscal_pure, exp_axis _ hk1, hc, hs, ← vscal_pure, ← hmk]
      ext <;> simp [Quat.vec]

/-- The logarithm computed for a unit quaternion with non-negative real part, and the rotations
along it, are close to the exact ones. -/
theorem qln_close {m : Quat} (hu : Tf.Unit m) (hm0 : 0 ≤ m.w) {L : V3} (hL : vnorm L ≤ Real.pi / 2)
    (hLm : exp L.pure = m.den) :
    ∃ c, qln m = some ⟨c * m.x, c * m.y, c * m.z, 0⟩ ∧
      ‖(vscal c m.vec).pure - L.pure‖ ≤ 1 / 2 ^ 90 ∧
      ∀ t : ℝ, 0 ≤ t → t ≤ 1 →
        ‖exp (t • (vscal c m.vec).pure) - exp (t • L.pure)‖ ≤ 2 * (1 / 2 ^ 90) := by
  obtain ⟨k, hk1, hmk, hLk⟩ := unit_axis hu hm0 hL hLm
  obtain ⟨c, hq, hcb⟩ := qln_unit hu (qangle_short hu hm0).1
  have e1 : (vscal c m.vec).pure = (c * vnorm m.vec) • k.pure := by
    rw [vscal_pure]
    conv_lhs => rw [hmk]
    rw [vscal_pure, smul_smul]
  refine ⟨c, hq, ?_, fun t t0 t1 => ?_⟩
  · rw [e1, hLk, vscal_pure, ← sub_smul, norm_smul, norm_pure, hk1, mul_one]
    exact hcb
  · rw [e1, hLk, vscal_pure, smul_smul, smul_smul]
    have hx := exp_axis_close hk1 (t * (c * vnorm m.vec)) (t * qangle m)
    refine hx.trans (mul_le_mul_of_nonneg_left ?_ zero_le_two)
    rw [← mul_sub, abs_mul, abs_of_nonneg t0]
    have := abs_nonneg (c * vnorm m.vec - qangle m)
    nlinarith

/-- **C73**, `aa_tf_qslerpalg`: for parameters between 0 and 1 the algebraic interpolation always
succeeds and stays within `2^-80` of the path of `aa_tf_qslerp`. -/
theorem C73_qslerpalg (q1 q2 : Quat) (h1 : Tf.Unit q1) (h2 : Tf.Unit q2) (t : ℝ) (t0 : 0 ≤ t)
    (t1 : t ≤ 1) :
    ∃ r, qslerpalg t q1 q2 = some r ∧ Tf.Unit r ∧ ‖r.den - (qslerp t q1 q2).den‖ ≤ 1 / 2 ^ 80 := by
  obtain ⟨hu, hw, hd⟩ := qrel_spec h1 h2
  obtain ⟨L, -, hL, he, hp⟩ := C29_geodesic q1 q2 h1 h2
  have n1 : ‖q1.den‖ = 1 := (Unit.iff_norm _).1 h1
  have hLm : exp L.pure = (qminimize (qcmul q1 q2)).den := by
    have : star q1.den * q1.den = 1 := by
      rw [Quaternion.star_mul_self, Quaternion.normSq_eq_norm_mul_self, n1]; simp
    rw [hd, ← mul_smul_comm, ← he, ← mul_assoc, this, one_mul]
  generalize hm : qminimize (qcmul q1 q2) = m at *
  have hm0 : 0 ≤ m.w := by rw [hw]; exact abs_nonneg _
  obtain ⟨c, hq, -, hclose⟩ := qln_close hu hm0 hL hLm
  replace hclose := hclose t t0 t1
  set qp := qexp ⟨c * m.x * t, c * m.y * t, c * m.z * t, 0 * t⟩ with hqp
  have hx := (C28_qexp ⟨c * m.x * t, c * m.y * t, c * m.z * t, 0 * t⟩).2
  have ed : (⟨c * m.x * t, c * m.y * t, c * m.z * t, 0 * t⟩ : Quat).den = t • (vscal c m.vec).pure := by
    ext <;> simp [vscal, Quat.vec] <;> ring
  rw [ed, ← hqp] at hx
  simp only [zero_mul, Real.exp_zero, one_mul] at hx
  have hqe : ‖qp.den - exp (t • L.pure)‖ ≤ 1 / 2 ^ 85 := by
    have := norm_sub_le_norm_sub_add_norm_sub qp.den (exp (t • (vscal c m.vec).pure)) (exp (t • L.pure))
    refine this.trans ((add_le_add hx hclose).trans ?_)
    norm_num
  have hr : ‖(qmul q1 qp).den - (qslerp t q1 q2).den‖ ≤ 1 / 2 ^ 85 := by
    rw [C21_qmul, hp, ← mul_sub, norm_mul, n1, one_mul]; exact hqe
  have hs1 : ‖(qslerp t q1 q2).den‖ = 1 := by
    rw [hp, norm_mul, n1, one_mul, ← vscal_pure]; rw [Quaternion.norm_exp]; simp
  have hn : |qnorm (qmul q1 qp) - 1| ≤ 1 / 2 ^ 85 := by
    have := abs_norm_sub_norm_le (qmul q1 qp).den (qslerp t q1 q2).den
    rw [hs1, ← C21_qnorm] at this
    exact this.trans hr
  have hn0 : qnorm (qmul q1 qp) ≠ 0 := by
    intro h; rw [h] at hn; norm_num at hn
  refine ⟨qnormalize (qmul q1 qp), ?_, (C21_qnormalize _ hn0).1, ?_⟩
  · simp only [qslerpalg, qpow, hm, hq]; rfl
  · refine (norm_sub_le_norm_sub_add_norm_sub _ (qmul q1 qp).den _).trans ?_
    refine (add_le_add (qnormalize_close hn (by norm_num)) hr).trans ?_
    norm_num

/-- **C73**, `aa_tf_qslerpdiffalg`: the derivative along that path. -/
theorem C73_qslerpdiffalg (q1 q2 : Quat) (h1 : Tf.Unit q1) (h2 : Tf.Unit q2) (t : ℝ) (t0 : 0 ≤ t)
    (t1 : t ≤ 1) :
    ∃ r D, qslerpdiffalg t q1 q2 = some r ∧ HasDerivAt (fun s => (qslerp s q1 q2).den) D t ∧
      ‖r.den - D‖ ≤ 1 / 2 ^ 78 := by
  obtain ⟨r, hr, hru, hrc⟩ := C73_qslerpalg q1 q2 h1 h2 t t0 t1
  obtain ⟨L, -, hL, he, hp⟩ := C29_geodesic q1 q2 h1 h2
  have n1 : ‖q1.den‖ = 1 := (Unit.iff_norm _).1 h1
  have hs1 : star q1.den * q1.den = 1 := by
    rw [Quaternion.star_mul_self, Quaternion.normSq_eq_norm_mul_self, n1]; simp
  have hs2 : q1.den * star q1.den = 1 := by
    rw [Quaternion.self_mul_star, Quaternion.normSq_eq_norm_mul_self, n1]; simp
  -- the exact logarithm of the relative quaternion in the outer frame
  obtain ⟨W, hW⟩ : ∃ W : V3, W.pure = q1.den * L.pure * star q1.den := by
    refine ⟨⟨(q1.den * L.pure * star q1.den).imI, (q1.den * L.pure * star q1.den).imJ,
      (q1.den * L.pure * star q1.den).imK⟩, ?_⟩
    ext <;> simp <;> ring
  have hWn : vnorm W = vnorm L := by
    rw [← norm_pure, hW, norm_mul, norm_mul, _root_.norm_star, n1, norm_pure]; ring
  have hmw : (qmulc q2 q1).w = qdot q1 q2 := by
    simp only [qmulc, qdot, mkq]; ring
  have hmd : (qminimize (qmulc q2 q1)).den = slerpSign q1 q2 • (q2.den * star q1.den) := by
    rw [← (C21_qcmul_qmulc q2 q1).2.1, qminimize, slerpSign, hmw]
    split_ifs
    · ext <;> simp [hmw]
    · rw [one_smul]
  have hmu : Tf.Unit (qminimize (qmulc q2 q1)) := by
    rw [Unit.iff_norm, hmd, norm_smul, norm_mul, _root_.norm_star, n1, (Unit.iff_norm _).1 h2, slerpSign]
    split_ifs <;> norm_num
  have hm0 : 0 ≤ (qminimize (qmulc q2 q1)).w := by
    rw [qminimize]; split_ifs with h
    · simp only; linarith
    · exact not_lt.1 h
  have hWe : exp W.pure = (qminimize (qmulc q2 q1)).den := by
    rw [hmd, ← smul_mul_assoc, ← he, hW]
    let _ : NormedAlgebra ℚ ℍ[ℝ] := NormedAlgebra.restrictScalars ℚ ℝ ℍ[ℝ]
    have := exp_units_conj ⟨q1.den, star q1.den, hs2, hs1⟩ L.pure
    simpa using this
  obtain ⟨c, hq, hc, -⟩ := qln_close hmu hm0 (hWn.le.trans hL) hWe
  generalize hm : qminimize (qmulc q2 q1) = m at *
  have hD : HasDerivAt (fun s => (qslerp s q1 q2).den) (W.pure * (qslerp t q1 q2).den) t := by
    have hd := (hasDerivAt_exp_smul_const L.pure t).const_mul q1.den
    have e : (fun s : ℝ => (qslerp s q1 q2).den) = fun s => q1.den * exp (s • L.pure) := funext hp
    rw [e, hp]
    refine hd.congr_deriv ?_
    rw [hW]
    have hcm : exp (t • L.pure) * L.pure = L.pure * exp (t • L.pure) :=
      ((Commute.refl L.pure).smul_left t).exp_left
    rw [hcm, mul_assoc, mul_assoc, ← mul_assoc (star q1.den), hs1, one_mul]
  refine ⟨qmul ⟨c * m.x, c * m.y, c * m.z, 0⟩ r, _, ?_, hD, ?_⟩
  · simp only [qslerpdiffalg, hr, hm, hq]; rfl
  · rw [C21_qmul]
    have el : (⟨c * m.x, c * m.y, c * m.z, 0⟩ : Quat).den = (vscal c m.vec).pure := by
      ext <;> simp [vscal, Quat.vec]
    rw [el]
    have e : (vscal c m.vec).pure * r.den - W.pure * (qslerp t q1 q2).den =
        ((vscal c m.vec).pure - W.pure) * r.den + W.pure * (r.den - (qslerp t q1 q2).den) := by
      rw [sub_mul, mul_sub]; abel
    rw [e]
    refine (norm_add_le _ _).trans ?_
    rw [norm_mul, norm_mul, (Unit.iff_norm _).1 hru, mul_one, norm_pure, hWn]
    have h2 : vnorm L ≤ 2 := by linarith [Real.pi_le_four]
    have := mul_le_mul h2 hrc (norm_nonneg _) zero_le_two
    refine (add_le_add hc this).trans ?_
    norm_num

/-! ## Non-trivial cases -/

/-- A turn about z that starts at rest and accelerates. -/
example : ConstAcc (fun s => ⟨0, 0, Real.sin (s * s), Real.cos (s * s)⟩) ⟨0, 0, 0⟩ ⟨0, 0, 4⟩ ∧
    cross ⟨0, 0, 0⟩ ⟨0, 0, 4⟩ = ⟨0, 0, 0⟩ := by
  refine ⟨fun s => ?_, by simp [cross]⟩
  have h2 : HasDerivAt (fun s : ℝ => s * s) (2 * s) s :=
    ((hasDerivAt_id s).mul (hasDerivAt_id s)).congr_deriv (by simp; ring)
  have : Quat.HasDeriv (fun s => (⟨0, 0, Real.sin (s * s), Real.cos (s * s)⟩ : Quat))
      ⟨0, 0, Real.cos (s * s) * (2 * s), -Real.sin (s * s) * (2 * s)⟩ s :=
    Quat.hasDeriv_iff.2 ⟨hasDerivAt_const _ _, hasDerivAt_const _ _, h2.sin, h2.cos⟩
  refine HasDerivAt.congr_deriv this ?_
  ext <;> simp [vadd, vscal] <;> ring

/-- Orientations a quarter turn apart are half of a right angle apart. -/
example : qangleRel ⟨0, 0, 0, 1⟩ ⟨0, 0, Real.sin (Real.pi / 4), Real.cos (Real.pi / 4)⟩ = Real.pi / 4 := by
  have h : 0 ≤ Real.cos (Real.pi / 4) :=
    Real.cos_nonneg_of_neg_pi_div_two_le_of_le (by linarith [Real.pi_pos]) (by linarith [Real.pi_pos])
  rw [(C73_qangle_rel _ _ (by simp [Tf.Unit]) (by
    simp only [Tf.Unit]; have := Real.sin_sq_add_cos_sq (Real.pi / 4); nlinarith)).1]
  simp only [qdot, mul_zero, zero_mul, add_zero, zero_add, one_mul]
  rw [abs_of_nonneg h, Real.arccos_cos (by positivity) (by linarith [Real.pi_pos])]

end Verif.Tf
