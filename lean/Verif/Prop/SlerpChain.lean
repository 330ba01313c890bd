import Verif.Prop.Slerp
import Verif.Proof.LnDeriv
import Mathlib.Analysis.Calculus.Deriv.Abs
import Mathlib.Analysis.SpecialFunctions.Trigonometric.InverseDeriv

/-!
# C68: the derivative of slerp with moving end points

Specification: the derivative (Mathlib's `HasDerivAt`) of `s ↦ qslerp (u s) (q1 s) (q2 s)`, where
`qslerp` itself is shown to be the geodesic interpolation in C29.
-/

namespace Verif.Tf

/-- The rate of `q1 · q2`. -/
theorem hasDerivAt_qdot {A B : ℝ → Quat} {dA dB : Quat} {t : ℝ} (hA : Quat.HasDeriv A dA t)
    (hB : Quat.HasDeriv B dB t) :
    HasDerivAt (fun s => qdot (A s) (B s)) (qdot (A t) dB + qdot dA (B t)) t := by
  obtain ⟨a1, a2, a3, a4⟩ := Quat.hasDeriv_iff.1 hA
  obtain ⟨b1, b2, b3, b4⟩ := Quat.hasDeriv_iff.1 hB
  refine ((((a1.mul b1).add (a2.mul b2)).add (a3.mul b3)).add (a4.mul b4)).congr_deriv ?_
  simp only [qdot]
  ring

/-- The value the routine returns beside the derivative is the interpolation. -/
theorem chain_value {u du : ℝ} {q1 dq1 q2 dq2 : Quat} (h1 : Tf.Unit q1) (h2 : Tf.Unit q2)
    (h : slerpAngle q1 q2 ≠ 0) (r : Quat × Quat)
    (hr : qslerpchaindiff u du q1 dq1 q2 dq2 = some r) : r.1 = qslerp u q1 q2 := by
  obtain ⟨hp, -, -, h0, -⟩ := slerp_params h1 h2
  unfold qslerpchaindiff at hr
  rw [qslerp, qslerpEval]
  simp only [hp] at hr ⊢
  rw [if_pos (abs_pos.2 h)]
  rw [if_neg (not_le.2 (abs_pos.2 h))] at hr
  split at hr
  · cases hr
  · rw [← Option.some.inj hr]
    simp only
    rw [show (1 - u) * slerpAngle q1 q2 = slerpAngle q1 q2 - u * slerpAngle q1 q2 by ring]
    ext <;> ring

/-- **C68**, the first output. -/
theorem C68_value (u du : ℝ) (q1 dq1 q2 dq2 : Quat) (h1 : Tf.Unit q1) (h2 : Tf.Unit q2) (r : Quat × Quat)
    (hr : qslerpchaindiff u du q1 dq1 q2 dq2 = some r) : r.1 = qslerp u q1 q2 := by
  by_cases h : slerpAngle q1 q2 = 0
  · obtain ⟨hp, -, -, h0, -⟩ := slerp_params h1 h2
    unfold qslerpchaindiff at hr
    rw [qslerp, qslerpEval]
    simp only [hp, h, abs_zero, le_refl, if_true, lt_self_iff_false, if_false, Option.some.injEq] at hr ⊢
    rw [← hr]
  · exact chain_value h1 h2 h r hr

/-- **C68** (partial: only where the angle between the end points is momentarily constant, in
particular for fixed end points, and the end points are not orthogonal; see the `violates`
theorems): the second output is the time derivative. -/
theorem C68_derivative_partial (U : ℝ → ℝ) (du : ℝ) (A B : ℝ → Quat) (dA dB : Quat) (t : ℝ)
    (hU : HasDerivAt U du t) (hA : Quat.HasDeriv A dA t) (hB : Quat.HasDeriv B dB t)
    (uA : ∀ s, Tf.Unit (A s)) (uB : ∀ s, Tf.Unit (B s)) (h : slerpAngle (A t) (B t) ≠ 0)
    (hc : qdot (A t) (B t) ≠ 0) (hD : qdot (A t) dB + qdot dA (B t) = 0) :
    ∃ r, qslerpchaindiff (U t) du (A t) dA (B t) dB = some r ∧ r.1 = qslerp (U t) (A t) (B t) ∧
      Quat.HasDeriv (fun s => qslerp (U s) (A s) (B s)) r.2 t := by
  obtain ⟨hp, -, hcos, h0, -⟩ := slerp_params (uA t) (uB t)
  have hsin := sin_angle_pos (uA t) (uB t) h
  have hdot := hasDerivAt_qdot hA hB
  rw [hD] at hdot
  have hlt : |qdot (A t) (B t)| < 1 := by
    by_contra hge
    exact h (Real.arccos_of_one_le (not_lt.1 hge))
  -- the angle is stationary
  have hth : HasDerivAt (fun s => slerpAngle (A s) (B s)) 0 t := by
    have ha : HasDerivAt (fun s => |qdot (A s) (B s)|) 0 t := by
      rcases lt_or_gt_of_ne hc with hn | hn
      · have := (hasDerivAt_abs_neg hn).comp t hdot
        rw [mul_zero] at this
        exact this
      · have := (hasDerivAt_abs_pos hn).comp t hdot
        rw [mul_zero] at this
        exact this
    have := (Real.hasDerivAt_arccos (by linarith [abs_nonneg (qdot (A t) (B t))]) hlt.ne).comp t ha
    exact this.congr_deriv (by simp)
  -- the sign is locally constant
  have hsg : ∀ᶠ s in nhds t, slerpSign (A s) (B s) = slerpSign (A t) (B t) := by
    rcases lt_or_gt_of_ne hc with hn | hn
    · filter_upwards [hdot.continuousAt.eventually (gt_mem_nhds hn)] with s hs
      rw [slerpSign, slerpSign, if_pos hs, if_pos hn]
    · filter_upwards [hdot.continuousAt.eventually (lt_mem_nhds hn)] with s hs
      rw [slerpSign, slerpSign, if_neg (not_lt.2 hs.le), if_neg (not_lt.2 hn.le)]
  have hne : ∀ᶠ s in nhds t, slerpAngle (A s) (B s) ≠ 0 := hth.continuousAt.eventually_ne h
  set th := slerpAngle (A t) (B t) with hthd
  set sg := slerpSign (A t) (B t) with hsgd
  have sg0 : sg ≠ 0 := slerpSign_ne _ _
  have c0 : Real.cos th ≠ 0 := by rw [hcos]; exact mul_ne_zero sg0 hc
  have hs := hth.sin
  have ha := ((hth.sub (hU.mul hth)).sin).div hs hsin.ne'
  have hb := ((hU.mul hth).sin).div (hs.const_mul sg) (mul_ne_zero sg0 hsin.ne')
  set D := qdot (A t) dB + qdot dA (B t)
  let g : ℝ → ℝ → ℝ → ℝ → ℝ := fun x dx y dy =>
    (dx * (Real.sin ((1 - U t) * th) / Real.sin th) +
      x * (Real.cos ((1 - U t) * th) * (D / Real.cos th * (1 - U t) - du * th) / Real.sin th -
        D * Real.sin ((1 - U t) * th) / (Real.sin th * Real.sin th))) +
    (dy * (Real.sin (U t * th) / (sg * Real.sin th)) +
      y * ((D / Real.cos th * U t + th * du) * Real.cos (U t * th) / (sg * Real.sin th) -
        D * (Real.sin (U t * th) / (sg * Real.sin th)) / Real.sin th))
  obtain ⟨r, hr, hr2⟩ : ∃ r, qslerpchaindiff (U t) du (A t) dA (B t) dB = some r ∧
      r.2 = ⟨g (A t).x dA.x (B t).x dB.x, g (A t).y dA.y (B t).y dB.y,
        g (A t).z dA.z (B t).z dB.z, g (A t).w dA.w (B t).w dB.w⟩ := by
    unfold qslerpchaindiff
    simp only [hp]
    rw [if_neg (not_le.2 (abs_pos.2 h)), if_neg c0]
    exact ⟨_, rfl, rfl⟩
  refine ⟨r, hr, chain_value (uA t) (uB t) h r hr, ?_⟩
  · rw [hr2]
    have key : ∀ {f k : ℝ → ℝ} {df dk : ℝ}, HasDerivAt f df t → HasDerivAt k dk t →
        HasDerivAt (fun s => Real.sin (slerpAngle (A s) (B s) - U s * slerpAngle (A s) (B s)) /
          Real.sin (slerpAngle (A s) (B s)) * f s +
          Real.sin (U s * slerpAngle (A s) (B s)) / (sg * Real.sin (slerpAngle (A s) (B s))) * k s)
        (g (f t) df (k t) dk) t := by
      intro f k df dk hf hg
      refine ((ha.mul hf).add (hb.mul hg)).congr_deriv ?_
      simp only [Pi.div_apply, Pi.sub_apply, Pi.mul_apply, g, hD]
      rw [show (1 - U t) * th = th - U t * th by ring, ← hthd]
      field_simp
      ring
    obtain ⟨a1, a2, a3, a4⟩ := Quat.hasDeriv_iff.1 hA
    obtain ⟨b1, b2, b3, b4⟩ := Quat.hasDeriv_iff.1 hB
    let α : ℝ → ℝ := fun s => Real.sin (slerpAngle (A s) (B s) - U s * slerpAngle (A s) (B s)) /
      Real.sin (slerpAngle (A s) (B s))
    let β : ℝ → ℝ := fun s => Real.sin (U s * slerpAngle (A s) (B s)) /
      (sg * Real.sin (slerpAngle (A s) (B s)))
    let P : ℝ → Quat := fun s => ⟨α s * (A s).x + β s * (B s).x, α s * (A s).y + β s * (B s).y,
      α s * (A s).z + β s * (B s).z, α s * (A s).w + β s * (B s).w⟩
    have hP : Quat.HasDeriv P ⟨g (A t).x dA.x (B t).x dB.x, g (A t).y dA.y (B t).y dB.y,
        g (A t).z dA.z (B t).z dB.z, g (A t).w dA.w (B t).w dB.w⟩ t :=
      Quat.hasDeriv_iff.2 ⟨key a1 b1, key a2 b2, key a3 b3, key a4 b4⟩
    have ev : ∀ᶠ s in nhds t, qslerp (U s) (A s) (B s) = P s := by
      filter_upwards [hsg, hne] with s e1 e2
      obtain ⟨hp', -⟩ := slerp_params (uA s) (uB s)
      rw [qslerp, hp', qslerpEval, if_pos (abs_pos.2 e2), e1]
    refine HasDerivAt.congr_of_eventuallyEq hP ?_
    filter_upwards [ev] with s hs
    rw [hs]

/-- The hypotheses hold: fixed end points, moving parameter. -/
example : Tf.Unit (⟨0, 0, 0, 1⟩ : Quat) ∧ Tf.Unit (⟨0, 0, 3 / 5, 4 / 5⟩ : Quat) ∧
    slerpAngle ⟨0, 0, 0, 1⟩ ⟨0, 0, 3 / 5, 4 / 5⟩ ≠ 0 ∧
    qdot ⟨0, 0, 0, 1⟩ ⟨0, 0, 3 / 5, 4 / 5⟩ ≠ 0 ∧ HasDerivAt (fun s : ℝ => s) 1 (1 / 3) := by
  refine ⟨by norm_num [Tf.Unit], by norm_num [Tf.Unit], ?_, by norm_num [qdot], hasDerivAt_id _⟩
  rw [slerpAngle, Ne, Real.arccos_eq_zero]
  norm_num [qdot, abs_of_pos]

/-- **C68 is violated** for orthogonal end points, even when they do not move: the routine divides
by `cos(theta) = 0`, although the interpolation is differentiable. -/
theorem C68_violates_orthogonal : ∃ (q1 q2 : Quat) (d : Quat), Tf.Unit q1 ∧ Tf.Unit q2 ∧ q1 ≠ q2 ∧
    Quat.HasDeriv (fun s => qslerp s q1 q2) d (1 / 2) ∧
    qslerpchaindiff (1 / 2) 1 q1 ⟨0, 0, 0, 0⟩ q2 ⟨0, 0, 0, 0⟩ = none := by
  have u1 : Tf.Unit (⟨0, 0, 0, 1⟩ : Quat) := by norm_num [Tf.Unit]
  have u2 : Tf.Unit (⟨0, 0, 1, 0⟩ : Quat) := by norm_num [Tf.Unit]
  have ha : slerpAngle ⟨0, 0, 0, 1⟩ ⟨0, 0, 1, 0⟩ = Real.pi / 2 := by
    rw [slerpAngle]; simp [qdot]
  have hpi := Real.pi_pos
  have ha0 : slerpAngle ⟨0, 0, 0, 1⟩ ⟨0, 0, 1, 0⟩ ≠ 0 := by rw [ha]; positivity
  obtain ⟨hp, -⟩ := slerp_params u1 u2
  rw [ha] at hp
  have hsg : slerpSign ⟨0, 0, 0, 1⟩ ⟨0, 0, 1, 0⟩ = 1 := by simp [slerpSign, qdot]
  rw [hsg, Real.sin_pi_div_two, one_mul] at hp
  have hpi2 : 0 < |Real.pi / 2| := abs_pos.2 (by positivity)
  refine ⟨⟨0, 0, 0, 1⟩, ⟨0, 0, 1, 0⟩, ⟨0, 0, Real.cos (1 / 2 * (Real.pi / 2)) * (Real.pi / 2),
    Real.cos (Real.pi / 2 - 1 / 2 * (Real.pi / 2)) * -(Real.pi / 2)⟩, u1, u2, by simp, ?_, ?_⟩
  · have e : (fun s => qslerp s ⟨0, 0, 0, 1⟩ ⟨0, 0, 1, 0⟩) = fun s =>
        (⟨0, 0, Real.sin (s * (Real.pi / 2)), Real.sin (Real.pi / 2 - s * (Real.pi / 2))⟩ : Quat) := by
      funext s
      rw [qslerp, hp, qslerpEval, if_pos hpi2]
      simp
    rw [e]
    have h1 : HasDerivAt (fun s : ℝ => s * (Real.pi / 2)) (Real.pi / 2) (1 / 2) :=
      ((hasDerivAt_id _).mul_const _).congr_deriv (one_mul _)
    have h2 : HasDerivAt (fun s : ℝ => Real.pi / 2 - s * (Real.pi / 2)) (-(Real.pi / 2)) (1 / 2) :=
      h1.const_sub _
    exact Quat.hasDeriv_iff.2 ⟨hasDerivAt_const _ _, hasDerivAt_const _ _, h1.sin, h2.sin⟩
  · unfold qslerpchaindiff
    simp only [hp]
    rw [if_neg (not_le.2 hpi2), if_pos Real.cos_pi_div_two]

/-- Half way from 1 to `(0,0,sin t,cos t)`, i.e. along `(0,0,sin(t/2),cos(t/2))`, at `t = π/3` the derivative of
the scalar part is `-1/4`; the routine returns `-1/2 - √3/4`. -/
theorem moving_explicit : ∃ (d : Quat) (r : Quat × Quat),
    (∀ s : ℝ, Tf.Unit (⟨0, 0, Real.sin s, Real.cos s⟩ : Quat)) ∧ Tf.Unit (⟨0, 0, 0, 1⟩ : Quat) ∧
    Quat.HasDeriv (fun s => (⟨0, 0, Real.sin s, Real.cos s⟩ : Quat))
      ⟨0, 0, Real.cos (Real.pi / 3), -Real.sin (Real.pi / 3)⟩ (Real.pi / 3) ∧
    slerpAngle ⟨0, 0, 0, 1⟩ ⟨0, 0, Real.sin (Real.pi / 3), Real.cos (Real.pi / 3)⟩ ≠ 0 ∧
    Quat.HasDeriv (fun s => qslerp (1 / 2) ⟨0, 0, 0, 1⟩ ⟨0, 0, Real.sin s, Real.cos s⟩) d (Real.pi / 3) ∧
    qslerpchaindiff (1 / 2) 0 ⟨0, 0, 0, 1⟩ ⟨0, 0, 0, 0⟩ ⟨0, 0, Real.sin (Real.pi / 3), Real.cos (Real.pi / 3)⟩
      ⟨0, 0, Real.cos (Real.pi / 3), -Real.sin (Real.pi / 3)⟩ = some r ∧
    d.w = -1 / 4 ∧ r.2.w = -1 / 2 - Real.sqrt 3 / 4 ∧ r.2 ≠ d := by
  have u1 : Tf.Unit (⟨0, 0, 0, 1⟩ : Quat) := by norm_num [Tf.Unit]
  have uB : ∀ s : ℝ, Tf.Unit (⟨0, 0, Real.sin s, Real.cos s⟩ : Quat) := by
    intro s
    have := Real.sin_sq_add_cos_sq s
    simp only [Tf.Unit]; linarith
  have hB : Quat.HasDeriv (fun s => (⟨0, 0, Real.sin s, Real.cos s⟩ : Quat))
      ⟨0, 0, Real.cos (Real.pi / 3), -Real.sin (Real.pi / 3)⟩ (Real.pi / 3) :=
    Quat.hasDeriv_iff.2 ⟨hasDerivAt_const _ _, hasDerivAt_const _ _, Real.hasDerivAt_sin _,
      Real.hasDerivAt_cos _⟩
  have hpi := Real.pi_pos
  have hdot : ∀ s, qdot ⟨0, 0, 0, 1⟩ ⟨0, 0, Real.sin s, Real.cos s⟩ = Real.cos s := by
    intro s; simp [qdot]
  have hang : ∀ s, 0 < s → s < Real.pi / 2 →
      slerpAngle ⟨0, 0, 0, 1⟩ ⟨0, 0, Real.sin s, Real.cos s⟩ = s ∧
      slerpSign ⟨0, 0, 0, 1⟩ ⟨0, 0, Real.sin s, Real.cos s⟩ = 1 := by
    intro s h0 h1
    have hc := Real.cos_pos_of_mem_Ioo ⟨by linarith, h1⟩
    rw [slerpAngle, slerpSign, hdot, abs_of_pos hc, if_neg (not_lt.2 hc.le)]
    exact ⟨Real.arccos_cos h0.le (by linarith), rfl⟩
  have hpar : ∀ s, 0 < s → s < Real.pi / 2 →
      qslerpParam ⟨0, 0, 0, 1⟩ ⟨0, 0, Real.sin s, Real.cos s⟩ = (s, Real.sin s, Real.sin s) := by
    intro s h0 h1
    obtain ⟨hp, -⟩ := slerp_params u1 (uB s)
    rw [(hang s h0 h1).1, (hang s h0 h1).2, one_mul] at hp
    exact hp
  have hval : ∀ s, 0 < s → s < Real.pi / 2 →
      qslerp (1 / 2) ⟨0, 0, 0, 1⟩ ⟨0, 0, Real.sin s, Real.cos s⟩ =
        ⟨0, 0, Real.sin (s / 2), Real.cos (s / 2)⟩ := by
    intro s h0 h1
    have hsin : 0 < Real.sin (s / 2) := Real.sin_pos_of_pos_of_lt_pi (by linarith) (by linarith)
    have hcos : 0 < Real.cos (s / 2) := Real.cos_pos_of_mem_Ioo ⟨by linarith, by linarith⟩
    rw [qslerp, hpar s h0 h1, qslerpEval, if_pos (abs_pos.2 h0.ne')]
    simp only [show 1 / 2 * s = s / 2 by ring, show s - s / 2 = s / 2 by ring]
    have e1 : Real.sin s = 2 * Real.sin (s / 2) * Real.cos (s / 2) := by
      rw [← Real.sin_two_mul]; ring_nf
    have e2 : Real.cos s = 2 * Real.cos (s / 2) ^ 2 - 1 := by
      rw [← Real.cos_two_mul]; ring_nf
    rw [e1, e2]
    ext
    · simp
    · simp
    · simp; field_simp
    · simp; field_simp; ring
  have t0 : 0 < Real.pi / 3 := by linarith
  have t1 : Real.pi / 3 < Real.pi / 2 := by linarith
  have hd : Quat.HasDeriv (fun s => qslerp (1 / 2) ⟨0, 0, 0, 1⟩ ⟨0, 0, Real.sin s, Real.cos s⟩)
      ⟨0, 0, Real.cos (Real.pi / 3 / 2) * (1 / 2), -Real.sin (Real.pi / 3 / 2) * (1 / 2)⟩
      (Real.pi / 3) := by
    have h2 : HasDerivAt (fun s : ℝ => s / 2) (1 / 2) (Real.pi / 3) := (hasDerivAt_id _).div_const 2
    have : Quat.HasDeriv (fun s => (⟨0, 0, Real.sin (s / 2), Real.cos (s / 2)⟩ : Quat))
        ⟨0, 0, Real.cos (Real.pi / 3 / 2) * (1 / 2), -Real.sin (Real.pi / 3 / 2) * (1 / 2)⟩
        (Real.pi / 3) :=
      Quat.hasDeriv_iff.2 ⟨hasDerivAt_const _ _, hasDerivAt_const _ _, h2.sin, h2.cos⟩
    refine HasDerivAt.congr_of_eventuallyEq this ?_
    filter_upwards [Ioo_mem_nhds t0 t1] with s hs
    rw [hval s hs.1 hs.2]
  have s3 : Real.sqrt 3 * Real.sqrt 3 = 3 := Real.mul_self_sqrt (by norm_num)
  have s3p : 0 < Real.sqrt 3 := Real.sqrt_pos.2 (by norm_num)
  have hdw : -Real.sin (Real.pi / 3 / 2) * (1 / 2) = -1 / 4 := by
    rw [show Real.pi / 3 / 2 = Real.pi / 6 by ring, Real.sin_pi_div_six]; norm_num
  obtain ⟨r, hr, hrw⟩ : ∃ r, qslerpchaindiff (1 / 2) 0 ⟨0, 0, 0, 1⟩ ⟨0, 0, 0, 0⟩
      ⟨0, 0, Real.sin (Real.pi / 3), Real.cos (Real.pi / 3)⟩
      ⟨0, 0, Real.cos (Real.pi / 3), -Real.sin (Real.pi / 3)⟩ = some r ∧
      r.2.w = -1 / 2 - Real.sqrt 3 / 4 := by
    unfold qslerpchaindiff
    simp only [hpar _ t0 t1]
    rw [if_neg (not_le.2 (abs_pos.2 t0.ne')), if_neg (by rw [Real.cos_pi_div_three]; norm_num)]
    refine ⟨_, rfl, ?_⟩
    simp only [qdot, show (1 - 1 / 2 : ℝ) * (Real.pi / 3) = Real.pi / 6 by ring,
      show (1 / 2 : ℝ) * (Real.pi / 3) = Real.pi / 6 by ring, Real.sin_pi_div_three,
      Real.cos_pi_div_three, Real.sin_pi_div_six, Real.cos_pi_div_six]
    generalize Real.sqrt 3 = k at *
    have k0 := s3p.ne'
    field_simp
    nlinarith
  refine ⟨_, r, uB, u1, hB, ?_, hd, hr, hdw, hrw, ?_⟩
  · rw [(hang _ t0 t1).1]; exact t0.ne'
  · intro h
    rw [h] at hrw
    have : (-1 / 4 : ℝ) = -1 / 2 - Real.sqrt 3 / 4 := hdw.symm.trans hrw
    linarith

/-- **C68 is violated** when an end point moves so that the angle changes: the rate of
`cos(theta)` is used as if it were the rate of `sin(theta)`.  Half way from 1 to
`(0,0,sin t,cos t)`, i.e. along `(0,0,sin(t/2),cos(t/2))`, at `t = π/3` the derivative of the
scalar part is `-1/4`; the routine returns `-1/2 - √3/4`. -/
theorem C68_violates_moving : ∃ (B : ℝ → Quat) (dB d : Quat) (t : ℝ) (r : Quat × Quat),
    (∀ s, Tf.Unit (B s)) ∧ Tf.Unit (⟨0, 0, 0, 1⟩ : Quat) ∧ Quat.HasDeriv B dB t ∧
    slerpAngle ⟨0, 0, 0, 1⟩ (B t) ≠ 0 ∧
    Quat.HasDeriv (fun s => qslerp (1 / 2) ⟨0, 0, 0, 1⟩ (B s)) d t ∧
    qslerpchaindiff (1 / 2) 0 ⟨0, 0, 0, 1⟩ ⟨0, 0, 0, 0⟩ (B t) dB = some r ∧
    d.w = -1 / 4 ∧ r.2.w = -1 / 2 - Real.sqrt 3 / 4 ∧ r.2 ≠ d := by
  obtain ⟨d, r, uB, u1, hB, ha, hd, hr, h⟩ := moving_explicit
  exact ⟨_, _, d, _, r, uB, u1, hB, ha, hd, hr, h⟩

end Verif.Tf
