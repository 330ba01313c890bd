import Verif.Prop.Exp

/-!
# C29: spherical interpolation
-/

namespace Verif.Tf

open scoped Quaternion
open Quaternion NormedSpace

/-- inner product of the quaternions (specification side: Mathlib's inner product). -/
theorem qdot_inner (a b : Quat) : qdot a b = inner ℝ a.den b.den := by
  rw [Quaternion.inner_def]; simp [qdot]; ring

theorem qnorm_sq (q : Quat) : qnorm q * qnorm q = qdot q q := by
  rw [qnorm, Real.mul_self_sqrt]
  simp only [qdot]
  nlinarith [mul_self_nonneg q.x, mul_self_nonneg q.y, mul_self_nonneg q.z, mul_self_nonneg q.w]

theorem qnorm_nonneg (q : Quat) : 0 ≤ qnorm q := Real.sqrt_nonneg _

theorem Unit.qdot {q : Quat} (h : Unit q) : qdot q q = 1 := by
  rw [Unit] at h; simp only [Tf.qdot]; linarith

/-- the angle computed by `aa_tf_quhypangle2` is the angle between the unit quaternions. -/
theorem quhypangle2_spec {a b : Quat} (ha : Unit a) (hb : Unit b) :
    Real.cos (quhypangle2 a b) = qdot a b ∧ 0 ≤ quhypangle2 a b ∧ quhypangle2 a b ≤ Real.pi := by
  have hm : qnorm (qsub a b) * qnorm (qsub a b) = 2 - 2 * qdot a b := by
    rw [qnorm_sq]
    have h1 := ha.qdot
    have h2 := hb.qdot
    simp only [Tf.qdot, qsub] at *
    linarith
  have hp : qnorm (qadd a b) * qnorm (qadd a b) = 2 + 2 * qdot a b := by
    rw [qnorm_sq]
    have h1 := ha.qdot
    have h2 := hb.qdot
    simp only [Tf.qdot, qadd] at *
    linarith
  have hne : qnorm (qsub a b) ≠ 0 ∨ qnorm (qadd a b) ≠ 0 := by
    by_contra hcon
    push Not at hcon
    rw [hcon.1] at hm; rw [hcon.2] at hp
    linarith
  obtain ⟨np, hs, hc, p0, p1⟩ := polar _ _ (qnorm_nonneg (qsub a b)) hne
  have h4 : Real.sqrt (qnorm (qsub a b) * qnorm (qsub a b) + qnorm (qadd a b) * qnorm (qadd a b)) = 2 := by
    rw [hm, hp, Real.sqrt_eq_iff_mul_self_eq (by linarith) (by norm_num)]; ring
  rw [h4] at hs hc
  have hle : atan2 (qnorm (qsub a b)) (qnorm (qadd a b)) ≤ Real.pi / 2 := by
    by_contra hcon
    push Not at hcon
    have := Real.cos_neg_of_pi_div_two_lt_of_lt hcon (by linarith [Real.pi_pos])
    have := qnorm_nonneg (qadd a b)
    linarith
  rw [quhypangle2]
  refine ⟨?_, by linarith, by linarith⟩
  rw [Real.cos_two_mul]
  linear_combination (1 / 2) * hp + (1 / 2) * (2 * Real.cos (atan2 (qnorm (qsub a b))
    (qnorm (qadd a b))) + qnorm (qadd a b)) * hc

/-- the sign with which the second end point enters: -1 when the short way goes to its negation. -/
noncomputable def slerpSign (q1 q2 : Quat) : ℝ := if qdot q1 q2 < 0 then -1 else 1

/-- the angle travelled. -/
noncomputable def slerpAngle (q1 q2 : Quat) : ℝ := Real.arccos |qdot q1 q2|

theorem slerp_params {q1 q2 : Quat} (h1 : Unit q1) (h2 : Unit q2) :
    let th := slerpAngle q1 q2
    let sg := slerpSign q1 q2
    qslerpParam q1 q2 = (th, Real.sin th, sg * Real.sin th) ∧
    qslerpdiffParam q1 q2 = (th, sinc th, sg * sinc th) ∧
    Real.cos th = sg * qdot q1 q2 ∧ 0 ≤ th ∧ th ≤ Real.pi / 2 := by
  intro th sg
  obtain ⟨hc, h0, hpi⟩ := quhypangle2_spec h1 h2
  have habs : |quhypangle2 q1 q2| = quhypangle2 q1 q2 := abs_of_nonneg h0
  have hth : th = Real.arccos |qdot q1 q2| := rfl
  by_cases hd : qdot q1 q2 < 0
  · have hsg : sg = -1 := if_pos hd
    have hgt : quhypangle2 q1 q2 > Real.pi / 2 := by
      by_contra hcon
      push Not at hcon
      have := Real.cos_nonneg_of_neg_pi_div_two_le_of_le (by linarith [Real.pi_pos]) hcon
      linarith
    have e : Real.pi - quhypangle2 q1 q2 = th := by
      rw [hth, abs_of_neg hd, ← hc, ← Real.cos_pi_sub, Real.arccos_cos] <;> linarith
    have e2 : Real.sin (quhypangle2 q1 q2) = Real.sin th := by rw [← e, Real.sin_pi_sub]
    refine ⟨?_, ?_, ?_, ?_, ?_⟩
    · simp only [qslerpParam, habs]
      rw [if_pos hgt, e, e2, hsg]; simp
    · simp only [qslerpdiffParam, habs]
      rw [if_pos hgt, e, hsg]; simp
    · rw [← e, Real.cos_pi_sub, hc, hsg]; ring
    · linarith
    · linarith
  · have hsg : sg = 1 := if_neg hd
    push Not at hd
    have hle : ¬ quhypangle2 q1 q2 > Real.pi / 2 := by
      intro hcon
      have := Real.cos_neg_of_pi_div_two_lt_of_lt hcon (by linarith [Real.pi_pos])
      linarith
    have e : quhypangle2 q1 q2 = th := by
      rw [hth, abs_of_nonneg hd, ← hc, Real.arccos_cos h0 hpi]
    refine ⟨?_, ?_, ?_, ?_, ?_⟩
    · simp only [qslerpParam, habs]
      rw [if_neg hle, e, hsg]; simp
    · simp only [qslerpdiffParam, habs]
      rw [if_neg hle, e, hsg]; simp
    · rw [← e, hc, hsg]; ring
    · linarith
    · linarith

theorem slerpSign_sq (q1 q2 : Quat) : slerpSign q1 q2 * slerpSign q1 q2 = 1 := by
  unfold slerpSign; split_ifs <;> norm_num

theorem slerpSign_ne (q1 q2 : Quat) : slerpSign q1 q2 ≠ 0 := by
  unfold slerpSign; split_ifs <;> norm_num

/-- zero angle: the end points agree up to sign. -/
theorem slerp_zero_angle {q1 q2 : Quat} (h1 : Unit q1) (h2 : Unit q2) (h : slerpAngle q1 q2 = 0) :
    q1.den = slerpSign q1 q2 • q2.den := by
  obtain ⟨_, _, hc, _, _⟩ := slerp_params h1 h2
  rw [h, Real.cos_zero] at hc
  have hs := slerpSign_sq q1 q2
  generalize slerpSign q1 q2 = s at *
  have e1 := h1.qdot
  have e2 := h2.qdot
  simp only [qdot] at hc e1 e2
  have := four_sq_zero (q1.x - s * q2.x) (q1.y - s * q2.y) (q1.z - s * q2.z) (q1.w - s * q2.w)
    (by linear_combination e1 + e2 + 2 * hc + (q2.x ^ 2 + q2.y ^ 2 + q2.z ^ 2 + q2.w ^ 2) * hs)
  ext <;> simp <;> linarith [this.1, this.2.1, this.2.2.1, this.2.2.2]

/-- the interpolation in closed form. -/
theorem slerp_den {q1 q2 : Quat} (h1 : Unit q1) (h2 : Unit q2) (h : slerpAngle q1 q2 ≠ 0) (t : ℝ) :
    (qslerp t q1 q2).den =
      (Real.sin (slerpAngle q1 q2 - t * slerpAngle q1 q2) / Real.sin (slerpAngle q1 q2)) • q1.den +
      (Real.sin (t * slerpAngle q1 q2) / (slerpSign q1 q2 * Real.sin (slerpAngle q1 q2))) • q2.den := by
  obtain ⟨hp, _, _, _, _⟩ := slerp_params h1 h2
  rw [qslerp, hp, qslerpEval, if_pos (abs_pos.2 h)]
  ext <;> simp

theorem sin_angle_pos {q1 q2 : Quat} (h1 : Unit q1) (h2 : Unit q2) (h : slerpAngle q1 q2 ≠ 0) :
    0 < Real.sin (slerpAngle q1 q2) := by
  obtain ⟨_, _, _, h0, hp⟩ := slerp_params h1 h2
  exact Real.sin_pos_of_pos_of_lt_pi (lt_of_le_of_ne h0 (Ne.symm h)) (by linarith [Real.pi_pos])

/-- C29: the end points: `q1` at 0, and at 1 the quaternion `q2` or, when the short way around goes
there, `-q2` (the same rotation). -/
theorem C29_endpoints_partial (q1 q2 : Quat) (h1 : Unit q1) (h2 : Unit q2) :
    qslerp 0 q1 q2 = q1 ∧ (0 ≤ qdot q1 q2 → qslerp 1 q1 q2 = q2) ∧
    (qdot q1 q2 < 0 → (qslerp 1 q1 q2).den = -q2.den) ∧
    quat2rotmat (qslerp 1 q1 q2) = quat2rotmat q2 := by
  have key : (qslerp 1 q1 q2).den = slerpSign q1 q2 • q2.den ∧ (qslerp 0 q1 q2).den = q1.den := by
    by_cases h : slerpAngle q1 q2 = 0
    · obtain ⟨hp, _⟩ := slerp_params h1 h2
      have : ∀ t, qslerp t q1 q2 = q1 := by
        intro t
        rw [qslerp, hp, qslerpEval, if_neg (by simp [h])]
      rw [this, this]
      exact ⟨slerp_zero_angle h1 h2 h, rfl⟩
    · have hs := (sin_angle_pos h1 h2 h).ne'
      have hg := slerpSign_ne q1 q2
      have hgg := slerpSign_sq q1 q2
      rw [slerp_den h1 h2 h, slerp_den h1 h2 h]
      constructor
      · have : Real.sin (1 * slerpAngle q1 q2) / (slerpSign q1 q2 * Real.sin (slerpAngle q1 q2)) =
            slerpSign q1 q2 := by
          rw [one_mul]; field_simp; rw [sq]; exact hgg.symm
        rw [this]; simp
      · simp [div_self hs]
  have e1 : 0 ≤ qdot q1 q2 → qslerp 1 q1 q2 = q2 := by
    intro h
    apply Quat.den_inj
    rw [key.1, slerpSign, if_neg (not_lt.2 h), one_smul]
  have e2 : qdot q1 q2 < 0 → (qslerp 1 q1 q2).den = -q2.den := by
    intro h
    rw [key.1, slerpSign, if_pos h, neg_smul, one_smul]
  refine ⟨Quat.den_inj key.2, e1, e2, ?_⟩
  by_cases h : qdot q1 q2 < 0
  · have e := e2 h
    have u : Unit (qslerp 1 q1 q2) := by
      rw [Unit.iff_norm, e, norm_neg]; exact (Unit.iff_norm _).1 h2
    exact (C24_two_to_one _ _ u h2).2 (Or.inr e)
  · rw [e1 (not_lt.1 h)]

/-- C29: the path is a one-parameter rotation from `q1`: there is a pure quaternion `L` of norm the
travelled angle with `q1 exp(L) = ±q2` and `qslerp(t) = q1 exp(t L)` for every `t`. -/
theorem C29_geodesic (q1 q2 : Quat) (h1 : Unit q1) (h2 : Unit q2) :
    ∃ L : V3, vnorm L = slerpAngle q1 q2 ∧ vnorm L ≤ Real.pi / 2 ∧
      q1.den * exp L.pure = slerpSign q1 q2 • q2.den ∧
      ∀ t : ℝ, (qslerp t q1 q2).den = q1.den * exp (t • L.pure) := by
  obtain ⟨hp, _, hcs, hge, hle⟩ := slerp_params h1 h2
  have hgg := slerpSign_sq q1 q2
  by_cases h : slerpAngle q1 q2 = 0
  · refine ⟨⟨0, 0, 0⟩, ?_, ?_, ?_, ?_⟩
    · simp [vnorm, vdot, h]
    · simp [vnorm, vdot]; positivity
    · have : (⟨0, 0, 0⟩ : V3).pure = 0 := by ext <;> simp
      rw [this, NormedSpace.exp_zero, mul_one]
      exact slerp_zero_angle h1 h2 h
    · intro t
      have : (⟨0, 0, 0⟩ : V3).pure = 0 := by ext <;> simp
      rw [this, smul_zero, NormedSpace.exp_zero, mul_one, qslerp, hp, qslerpEval,
        if_neg (by simp [h])]
  · have hs := sin_angle_pos h1 h2 h
    have hcl := slerp_den h1 h2 h
    have hg := slerpSign_ne q1 q2
    have hpos : 0 < slerpAngle q1 q2 := lt_of_le_of_ne hge (Ne.symm h)
    generalize slerpAngle q1 q2 = th at *
    generalize slerpSign q1 q2 = s at *
    -- the relative quaternion
    have hrel : (qcmul q1 q2).w = qdot q1 q2 := by simp [qcmul, qdot]; ring
    have hunit : Unit (qcmul q1 q2) := by
      rw [Unit.iff_norm, (C21_qcmul_qmulc _ _).1, norm_mul, norm_star, (Unit.iff_norm _).1 h1,
        (Unit.iff_norm _).1 h2, one_mul]
    generalize hr : qcmul q1 q2 = r at *
    have hq2 : q1.den * r.den = q2.den := by
      rw [← hr, (C21_qcmul_qmulc _ _).1, ← mul_assoc, (den_unit_mul h1).1, one_mul]
    -- its vector part has norm sin th
    have hvn : vdot r.vec r.vec = Real.sin th * Real.sin th := by
      have := Real.sin_sq_add_cos_sq th
      rw [Unit] at hunit
      simp only [vdot, Quat.vec]
      have hw : r.w ^ 2 = Real.cos th ^ 2 := by
        rw [hcs, ← hrel]; linear_combination (-r.w ^ 2) * hgg
      nlinarith
    have hLn : vnorm ⟨th / Real.sin th * s * r.x, th / Real.sin th * s * r.y,
        th / Real.sin th * s * r.z⟩ = th := by
      rw [vnorm, Real.sqrt_eq_iff_mul_self_eq (vdot_nonneg _) hpos.le]
      simp only [vdot, Quat.vec] at *
      field_simp
      linear_combination s ^ 2 * hvn + (Real.sin th) ^ 2 * hgg
    have hLp : (⟨th / Real.sin th * s * r.x, th / Real.sin th * s * r.y,
        th / Real.sin th * s * r.z⟩ : V3).pure = (th / Real.sin th * s) • r.vec.pure := by
      ext <;> simp [Quat.vec]
    have hexp : ∀ t : ℝ, exp (t • (⟨th / Real.sin th * s * r.x, th / Real.sin th * s * r.y,
        th / Real.sin th * s * r.z⟩ : V3).pure) =
        ((Real.cos (t * th) : ℝ) : ℍ[ℝ]) + (s * Real.sin (t * th) / Real.sin th) • r.vec.pure := by
      intro t
      rw [Quaternion.exp_of_re_eq_zero _ (by simp), norm_smul, norm_pure, hLn, Real.norm_eq_abs, hLp,
        smul_smul, smul_smul]
      congr 2
      · rw [← abs_of_pos hpos, ← abs_mul, Real.cos_abs, abs_of_pos hpos]
      · by_cases ht : t = 0
        · simp [ht]
        · rcases lt_or_gt_of_ne ht with hneg | hpos'
          · rw [abs_of_neg hneg, neg_mul, Real.sin_neg]
            have := hs.ne'
            field_simp
          · rw [abs_of_pos hpos']
            have := hs.ne'
            field_simp
    have hrden : r.den = ((s * Real.cos th : ℝ) : ℍ[ℝ]) + r.vec.pure := by
      rw [den_re_im, hrel, hcs, ← mul_assoc, hgg, one_mul]
    have hmul : q1.den * r.vec.pure = q2.den - (s * Real.cos th) • q1.den := by
      rw [← hq2, hrden, mul_add, Quaternion.mul_coe_eq_smul]
      abel
    have main : ∀ t : ℝ, q1.den * exp (t • (⟨th / Real.sin th * s * r.x, th / Real.sin th * s * r.y,
        th / Real.sin th * s * r.z⟩ : V3).pure) =
        (Real.sin (th - t * th) / Real.sin th) • q1.den +
          (Real.sin (t * th) / (s * Real.sin th)) • q2.den := by
      intro t
      rw [hexp, mul_add, Quaternion.mul_coe_eq_smul, mul_smul_comm, hmul, smul_sub, smul_smul]
      have e1 : Real.sin (th - t * th) / Real.sin th =
          Real.cos (t * th) - s * Real.sin (t * th) / Real.sin th * (s * Real.cos th) := by
        rw [Real.sin_sub]
        have := hs.ne'
        field_simp
        linear_combination (Real.sin (t * th) * Real.cos th) * hgg
      have e2 : Real.sin (t * th) / (s * Real.sin th) = s * Real.sin (t * th) / Real.sin th := by
        have := hs.ne'
        field_simp
        linear_combination (-Real.sin (t * th)) * hgg
      rw [e1, e2, sub_smul]
      abel
    refine ⟨_, hLn, by rw [hLn]; exact hle, ?_, fun t => ?_⟩
    · have := main 1
      rw [one_smul] at this
      rw [this]
      have e1 : Real.sin (1 * th) / (s * Real.sin th) = s := by
        rw [one_mul]
        have := hs.ne'
        field_simp
        linear_combination -hgg
      rw [e1]; simp
    · rw [hcl, main]

/-- C29: every interpolated value is a unit quaternion. -/
theorem C29_unit (t : ℝ) (q1 q2 : Quat) (h1 : Unit q1) (h2 : Unit q2) : Unit (qslerp t q1 q2) := by
  obtain ⟨L, _, _, _, hL⟩ := C29_geodesic q1 q2 h1 h2
  rw [Unit.iff_norm, hL, norm_mul, (Unit.iff_norm _).1 h1, one_mul, Quaternion.norm_exp]
  simp

/-- C29: constant speed: the path has a derivative everywhere, of norm the travelled angle. -/
theorem C29_derivative (t : ℝ) (q1 q2 : Quat) (h1 : Unit q1) (h2 : Unit q2) :
    ∃ D : ℍ[ℝ], HasDerivAt (fun t => (qslerp t q1 q2).den) D t ∧ ‖D‖ = slerpAngle q1 q2 := by
  obtain ⟨L, hn, _, _, hL⟩ := C29_geodesic q1 q2 h1 h2
  refine ⟨q1.den * (exp (t • L.pure) * L.pure), ?_, ?_⟩
  · simp_rw [hL]
    exact (hasDerivAt_exp_smul_const L.pure t).const_mul q1.den
  · rw [norm_mul, norm_mul, (Unit.iff_norm _).1 h1, one_mul, Quaternion.norm_exp, norm_pure, hn]
    simp

theorem sinc_thr (t : ℝ) : (|t| < Real.sqrt (Real.sqrt dblEpsilon)) ↔ |t| < 1 / 2 ^ 13 := by
  rw [sqrt_sqrt_eps]

/-- C29: `aa_tf_qslerpdiff` is the derivative of `aa_tf_qslerp`: exactly for angles of at least
2^-13 and for zero angle, and to within 2^-100 otherwise. -/
theorem C29_slerpdiff_partial (t : ℝ) (q1 q2 : Quat) (h1 : Unit q1) (h2 : Unit q2) :
    ∃ D : ℍ[ℝ], HasDerivAt (fun t => (qslerp t q1 q2).den) D t ∧
      ‖(qslerpdiff t q1 q2).den - D‖ ≤ 1 / 2 ^ 100 ∧
      (1 / 2 ^ 13 ≤ slerpAngle q1 q2 ∨ slerpAngle q1 q2 = 0 → (qslerpdiff t q1 q2).den = D) := by
  obtain ⟨hp, hpd, hcs, hge, hle⟩ := slerp_params h1 h2
  have hgg := slerpSign_sq q1 q2
  have hg := slerpSign_ne q1 q2
  by_cases h : slerpAngle q1 q2 = 0
  · have hz := slerp_zero_angle h1 h2 h
    have e : ∀ t, qslerp t q1 q2 = q1 := by
      intro t
      rw [qslerp, hp, qslerpEval, if_neg (by simp [h])]
    have hs0 : sinc 0 = 1 := by
      rw [sinc, if_pos ((sinc_thr 0).2 (by norm_num))]
      norm_num [sincSeries, sincSeries2, horner3]
    have e2 : (qslerpdiff t q1 q2).den = 0 := by
      rw [qslerpdiff, hpd, h]
      have hx := congrArg QuaternionAlgebra.imI hz
      have hy := congrArg QuaternionAlgebra.imJ hz
      have hzz := congrArg QuaternionAlgebra.imK hz
      have hw := congrArg QuaternionAlgebra.re hz
      simp at hx hy hzz hw
      have hinv : 1 / slerpSign q1 q2 = slerpSign q1 q2 := by field_simp; rw [sq]; exact hgg.symm
      ext <;> simp [hs0] <;> rw [← one_div, hinv] <;> linarith
    refine ⟨0, ?_, by rw [e2]; simp, fun _ => e2⟩
    simp_rw [e]
    exact hasDerivAt_const t q1.den
  · have hs := sin_angle_pos h1 h2 h
    have hpos : 0 < slerpAngle q1 q2 := lt_of_le_of_ne hge (Ne.symm h)
    obtain ⟨D, hD, hDn⟩ := C29_derivative t q1 q2 h1 h2
    have hcl := slerp_den h1 h2 h
    generalize slerpAngle q1 q2 = th at *
    generalize slerpSign q1 q2 = s at *
    -- the derivative in closed form
    have hD' : HasDerivAt (fun t => (qslerp t q1 q2).den)
        ((-(th / Real.sin th) * Real.cos (th - t * th)) • q1.den +
          ((th / Real.sin th) / s * Real.cos (t * th)) • q2.den) t := by
      simp_rw [hcl]
      have hi : HasDerivAt (fun t : ℝ => t * th) th t := by
        simpa using (hasDerivAt_id t).mul_const th
      have ha : HasDerivAt (fun t => Real.sin (th - t * th) / Real.sin th)
          (-(th / Real.sin th) * Real.cos (th - t * th)) t := by
        refine ((hi.const_sub th).sin.div_const (Real.sin th)).congr_deriv ?_
        ring
      have hb : HasDerivAt (fun t => Real.sin (t * th) / (s * Real.sin th))
          ((th / Real.sin th) / s * Real.cos (t * th)) t := by
        refine (hi.sin.div_const (s * Real.sin th)).congr_deriv ?_
        field_simp
      exact (ha.smul_const q1.den).add (hb.smul_const q2.den)
    have hDe := hD.unique hD'
    -- the code's value is a multiple of it
    have hk : (qslerpdiff t q1 q2).den = ((Real.sin th / th) / sinc th) • D := by
      rw [hDe, qslerpdiff, hpd]
      have hsn := hs.ne'
      have hthn := hpos.ne'
      have k1 : ∀ a b : ℝ, -Real.cos (th - t * th) / sinc th * a +
          Real.cos (t * th) / (s * sinc th) * b = (Real.sin th / th) / sinc th *
          ((-(th / Real.sin th) * Real.cos (th - t * th)) * a +
          ((th / Real.sin th) / s * Real.cos (t * th)) * b) := by
        intro a b
        have z : ∀ u : ℝ, Real.sin th / th / u = (Real.sin th / th) * u⁻¹ := fun u => rfl
        rw [z, div_eq_mul_inv (-Real.cos _), div_eq_mul_inv (Real.cos (t * th)), mul_inv]
        field_simp
      ext
      · simpa [mul_add] using k1 q1.w q2.w
      · simpa [mul_add] using k1 q1.x q2.x
      · simpa [mul_add] using k1 q1.y q2.y
      · simpa [mul_add] using k1 q1.z q2.z
    by_cases hsm : th < 1 / 2 ^ 13
    · have hsinc : sinc th = sincSeries th := by
        rw [sinc, if_pos ((sinc_thr th).2 (by rwa [abs_of_pos hpos]))]
      have ht := Taylor.sinc_series hpos.le
      have hser : 1 / 2 ≤ sincSeries th := by
        simp only [sincSeries, sincSeries2, horner3]; nlinarith
      refine ⟨D, hD, ?_, fun hh => ?_⟩
      · have e : (qslerpdiff t q1 q2).den - D = ((Real.sin th / th) / sinc th - 1) • D := by
          rw [hk, sub_smul, one_smul]
        rw [e, norm_smul, hDn, hsinc, Real.norm_eq_abs]
        have e2 : (Real.sin th / th / sincSeries th - 1) =
            (Real.sin th - sincSeries th * th) / (th * sincSeries th) := by
          have := hpos.ne'
          have : sincSeries th ≠ 0 := by linarith
          field_simp
        have hpp : 0 < th * sincSeries th := mul_pos hpos (by linarith)
        rw [e2, abs_div, abs_of_pos hpp]
        have b1 : |Real.sin th - sincSeries th * th| ≤ th ^ 7 / 5040 := by
          simp only [sincSeries, sincSeries2, horner3]
          rw [abs_le]
          constructor <;> linarith [pow_pos hpos 7]
        have t7 : th ^ 7 ≤ (1 / 2 ^ 13) ^ 7 := pow_le_pow_left₀ hpos.le hsm.le 7
        calc |Real.sin th - sincSeries th * th| / (th * sincSeries th) * th
            = |Real.sin th - sincSeries th * th| / sincSeries th := by
              have := hpos.ne'
              field_simp
          _ ≤ (th ^ 7 / 5040) / (1 / 2) := by gcongr
          _ ≤ 1 / 2 ^ 100 := by norm_num at *; linarith
      · rcases hh with hh | hh
        · exact absurd hsm (not_lt.2 hh)
        · exact absurd hh h
    · have hsinc : sinc th = Real.sin th / th := by
        rw [sinc, if_neg]
        rw [sinc_thr, abs_of_pos hpos]; exact hsm
      have e : (qslerpdiff t q1 q2).den = D := by
        rw [hk, hsinc, div_self (div_pos hs hpos).ne', one_smul]
      refine ⟨D, hD, by rw [e]; simp, fun _ => e⟩

/-- Instance: two unit quaternions a quarter turn apart the long way around. -/
example : Unit ⟨0, 0, 0, 1⟩ ∧ Unit ⟨3 / 5, 0, 0, -4 / 5⟩ ∧
    qdot ⟨0, 0, 0, 1⟩ ⟨3 / 5, 0, 0, -4 / 5⟩ < 0 ∧
    slerpAngle ⟨0, 0, 0, 1⟩ ⟨3 / 5, 0, 0, -4 / 5⟩ ≠ 0 := by
  refine ⟨by norm_num [Unit], by norm_num [Unit], by norm_num [qdot], ?_⟩
  rw [slerpAngle, Ne, Real.arccos_eq_zero]
  norm_num [qdot]

/-- **C29 fails** at the end point when the dot product is negative: the path ends at `-q2`, which is
the same rotation but not the given quaternion. -/
theorem C29_violates_end : Unit ⟨0, 0, 0, 1⟩ ∧ Unit ⟨3 / 5, 0, 0, -4 / 5⟩ ∧
    qslerp 1 ⟨0, 0, 0, 1⟩ ⟨3 / 5, 0, 0, -4 / 5⟩ ≠ ⟨3 / 5, 0, 0, -4 / 5⟩ := by
  have u1 : Unit ⟨0, 0, 0, 1⟩ := by norm_num [Unit]
  have u2 : Unit ⟨3 / 5, 0, 0, -4 / 5⟩ := by norm_num [Unit]
  refine ⟨u1, u2, fun h => ?_⟩
  have h3 := (C29_endpoints_partial _ _ u1 u2).2.2.1 (by norm_num [qdot])
  rw [h] at h3
  have := congrArg QuaternionAlgebra.imI h3
  norm_num at this

end Verif.Tf
