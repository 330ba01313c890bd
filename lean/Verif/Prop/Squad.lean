import Verif.Prop.TfRate
import Verif.Prop.SlerpChain
import Verif.Prop.QuatInt
import Mathlib.Analysis.SpecialFunctions.Trigonometric.Sinc

/-!
# C127: spherical cubic interpolation and the triad of slerps

Specification: derivatives in `ℍ[ℝ]`; `slerpLog q1 q2` is half the rotation vector of the short rotation from
`q1` to `q2`, in the frame of `q1`.
-/

namespace Verif.Tf

open Quaternion NormedSpace Filter Topology

/-- half the rotation vector of the short way from `q1` to `q2`. -/
noncomputable def slerpLog (q1 q2 : Quat) : V3 :=
  vscal (slerpSign q1 q2 / Real.sinc (slerpAngle q1 q2)) (qcmul q1 q2).vec

theorem slerp_sinc_pos {q1 q2 : Quat} (h1 : Tf.Unit q1) (h2 : Tf.Unit q2) : 0 < Real.sinc (slerpAngle q1 q2) := by
  obtain ⟨-, -, -, h0, hp⟩ := slerp_params h1 h2
  by_cases h : slerpAngle q1 q2 = 0
  · rw [h, Real.sinc_zero]; norm_num
  · rw [Real.sinc_of_ne_zero h]
    exact div_pos (sin_angle_pos h1 h2 h) (lt_of_le_of_ne h0 (Ne.symm h))

/-- the interpolation is the geodesic along `slerpLog`. -/
theorem slerp_log {q1 q2 : Quat} (h1 : Tf.Unit q1) (h2 : Tf.Unit q2) :
    (∀ t : ℝ, (qslerp t q1 q2).den = q1.den * exp (t • (slerpLog q1 q2).pure)) ∧
    q1.den * exp (slerpLog q1 q2).pure = slerpSign q1 q2 • q2.den := by
  obtain ⟨L, hn, hle, he, hL⟩ := C29_geodesic q1 q2 h1 h2
  have hsp := slerp_sinc_pos h1 h2
  have key : L = slerpLog q1 q2 := by
    have e1 : exp L.pure = slerpSign q1 q2 • (qcmul q1 q2).den := by
      rw [(C21_qcmul_qmulc _ _).1, ← mul_smul_comm, ← he, ← mul_assoc, (den_unit_mul h1).2, one_mul]
    rw [exp_pure, hn] at e1
    have hs : (Real.sin (slerpAngle q1 q2) / slerpAngle q1 q2) • L.pure =
        Real.sinc (slerpAngle q1 q2) • L.pure := by
      by_cases h : slerpAngle q1 q2 = 0
      · have : L.pure = 0 := by rw [← norm_eq_zero, norm_pure, hn, h]
        rw [this, smul_zero, smul_zero]
      · rw [Real.sinc_of_ne_zero h]
    rw [hs] at e1
    have c1 := congrArg (fun q : ℍ[ℝ] => q.imI) e1
    have c2 := congrArg (fun q : ℍ[ℝ] => q.imJ) e1
    have c3 := congrArg (fun q : ℍ[ℝ] => q.imK) e1
    simp at c1 c2 c3
    have hne := hsp.ne'
    ext
    · simp only [slerpLog, vscal, Quat.vec]; field_simp; linarith
    · simp only [slerpLog, vscal, Quat.vec]; field_simp; linarith
    · simp only [slerpLog, vscal, Quat.vec]; field_simp; linarith
  rw [← key]
  exact ⟨hL, he⟩

theorem slerpAngle_comm (a b : Quat) : slerpAngle a b = slerpAngle b a := by
  simp only [slerpAngle, qdot]; congr 2; ring

theorem slerpSign_comm (a b : Quat) : slerpSign a b = slerpSign b a := by
  have : qdot a b = qdot b a := by simp only [qdot]; ring
  simp only [slerpSign, this]

/-- the way back. -/
theorem slerpLog_comm (a b : Quat) : (slerpLog b a).pure = -(slerpLog a b).pure := by
  rw [slerpLog, slerpLog, slerpAngle_comm, slerpSign_comm]
  ext <;> simp [vscal, qcmul, Quat.vec] <;> ring

/-- the sign of the second quaternion does not matter. -/
theorem slerpLog_sign (a b b' : Quat) (s : ℝ) (hs : s = 1 ∨ s = -1) (hb : b'.den = s • b.den)
    (h0 : qdot a b ≠ 0) : slerpLog a b' = slerpLog a b := by
  rcases hs with rfl | rfl
  · rw [one_smul] at hb; rw [Quat.den_inj hb]
  · have c1 : b'.x = -b.x := by simpa using congrArg (fun q : ℍ[ℝ] => q.imI) hb
    have c2 : b'.y = -b.y := by simpa using congrArg (fun q : ℍ[ℝ] => q.imJ) hb
    have c3 : b'.z = -b.z := by simpa using congrArg (fun q : ℍ[ℝ] => q.imK) hb
    have c4 : b'.w = -b.w := by simpa using congrArg (fun q : ℍ[ℝ] => q.re) hb
    have hd : qdot a b' = -qdot a b := by simp only [qdot, c1, c2, c3, c4]; ring
    have ha : slerpAngle a b' = slerpAngle a b := by rw [slerpAngle, slerpAngle, hd, abs_neg]
    have hg : slerpSign a b' = -slerpSign a b := by
      rw [slerpSign, slerpSign, hd]
      rcases lt_or_gt_of_ne h0 with h | h
      · rw [if_pos h, if_neg (by linarith)]; norm_num
      · rw [if_pos (by linarith), if_neg (by linarith)]
    rw [slerpLog, slerpLog, ha, hg]
    ext <;> simp [vscal, qcmul, Quat.vec, c1, c2, c3, c4] <;> ring

/-- continuity of the logarithm along paths, where the quaternions are not orthogonal. -/
theorem slerpLog_continuousAt {A B : ℝ → Quat} {t : ℝ} (hA : ContinuousAt (fun s => (A s).den) t)
    (hB : ContinuousAt (fun s => (B s).den) t) (uA : ∀ s, Tf.Unit (A s)) (uB : ∀ s, Tf.Unit (B s))
    (h0 : qdot (A t) (B t) ≠ 0) : ContinuousAt (fun s => (slerpLog (A s) (B s)).pure) t := by
  have hdot : ContinuousAt (fun s => qdot (A s) (B s)) t := by
    simp only [qdot_inner]
    exact hA.inner hB
  have hsg : ∀ᶠ s in nhds t, slerpSign (A s) (B s) = slerpSign (A t) (B t) := by
    rcases lt_or_gt_of_ne h0 with hn | hn
    · filter_upwards [hdot.eventually (gt_mem_nhds hn)] with s hs
      rw [slerpSign, slerpSign, if_pos hs, if_pos hn]
    · filter_upwards [hdot.eventually (lt_mem_nhds hn)] with s hs
      rw [slerpSign, slerpSign, if_neg (not_lt.2 hs.le), if_neg (not_lt.2 hn.le)]
  have hang : ContinuousAt (fun s => slerpAngle (A s) (B s)) t :=
    Real.continuous_arccos.continuousAt.comp hdot.abs
  have hsc : ContinuousAt (fun s => Real.sinc (slerpAngle (A s) (B s))) t :=
    Real.continuous_sinc.continuousAt.comp hang
  have hne := (slerp_sinc_pos (uA t) (uB t)).ne'
  have hvec : ContinuousAt (fun s => (star (A s).den * (B s).den).im) t :=
    Quaternion.continuous_im.continuousAt.comp (hA.star.mul hB)
  have hc : ContinuousAt (fun s => (slerpSign (A t) (B t) / Real.sinc (slerpAngle (A s) (B s))) •
      (star (A s).den * (B s).den).im) t := (continuousAt_const.div hsc hne).smul hvec
  refine hc.congr ?_
  filter_upwards [hsg] with s hs
  rw [slerpLog, hs, vscal_pure, ← (C21_qcmul_qmulc _ _).1]
  congr 1

/-- the derivative of an interpolation where its parameter vanishes: only the first end point and the rate of
the parameter matter. -/
theorem slerp_deriv_zero {U : ℝ → ℝ} {A B : ℝ → Quat} {t du : ℝ} {dA : ℍ[ℝ]} (hU : HasDerivAt U du t)
    (hU0 : U t = 0) (hA : HasDerivAt (fun s => (A s).den) dA t) (hB : ContinuousAt (fun s => (B s).den) t)
    (uA : ∀ s, Tf.Unit (A s)) (uB : ∀ s, Tf.Unit (B s)) (h0 : qdot (A t) (B t) ≠ 0) :
    HasDerivAt (fun s => (qslerp (U s) (A s) (B s)).den)
      (dA + (A t).den * (du • (slerpLog (A t) (B t)).pure)) t := by
  have hc := slerpLog_continuousAt hA.continuousAt hB uA uB h0
  have hg : HasDerivAt (fun s => U s • (slerpLog (A s) (B s)).pure) (du • (slerpLog (A t) (B t)).pure) t := by
    rw [hasDerivAt_iff_tendsto_slope] at hU ⊢
    have := hU.smul (hc.tendsto.mono_left (nhdsWithin_le_nhds (s := {t}ᶜ)))
    refine this.congr fun s => ?_
    simp only [slope, hU0, vsub_eq_sub, sub_zero, zero_smul, smul_eq_mul, smul_smul]
  have hf : HasFDerivAt (exp : ℍ[ℝ] → ℍ[ℝ]) (1 : ℍ[ℝ] →L[ℝ] ℍ[ℝ]) (U t • (slerpLog (A t) (B t)).pure) := by
    rw [hU0, zero_smul]; exact hasFDerivAt_exp_zero
  have he := hf.comp_hasDerivAt t hg
  have := hA.mul he
  refine (this.congr_of_eventuallyEq (Eventually.of_forall fun s => ?_)).congr_deriv ?_
  · exact (slerp_log (uA s) (uB s)).1 (U s)
  · simp [hU0]

/-! ## Spherical cubic interpolation -/

/-- **C127**: the interpolated orientations are unit quaternions for every parameter, and the path begins in the
first and ends in the second orientation. -/
theorem C127_squad_ends (q1 q2 s1 s2 : Quat) (h1 : Tf.Unit q1) (h2 : Tf.Unit q2) (h3 : Tf.Unit s1)
    (h4 : Tf.Unit s2) :
    (∀ h, Tf.Unit (qsquad h q1 q2 s1 s2)) ∧ qsquad 0 q1 q2 s1 s2 = q1 ∧
    quat2rotmat (qsquad 1 q1 q2 s1 s2) = quat2rotmat q2 ∧ (0 ≤ qdot q1 q2 → qsquad 1 q1 q2 s1 s2 = q2) := by
  have e1 : qsquad 1 q1 q2 s1 s2 = qslerp 1 q1 q2 := by
    simp only [qsquad]
    rw [show (2 * 1 * (1 - 1) : ℝ) = 0 by norm_num]
    exact (C29_endpoints_partial _ _ (C29_unit _ _ _ h1 h2) (C29_unit _ _ _ h3 h4)).1
  have e0 : qsquad 0 q1 q2 s1 s2 = qslerp 0 q1 q2 := by
    simp only [qsquad]
    rw [show (2 * 0 * (1 - 0) : ℝ) = 0 by norm_num]
    exact (C29_endpoints_partial _ _ (C29_unit _ _ _ h1 h2) (C29_unit _ _ _ h3 h4)).1
  obtain ⟨a, b, -, d⟩ := C29_endpoints_partial q1 q2 h1 h2
  exact ⟨fun h => C29_unit _ _ _ (C29_unit _ _ _ h1 h2) (C29_unit _ _ _ h3 h4), by rw [e0, a], by rw [e1, d],
    fun h => by rw [e1, b h]⟩

theorem slerp_deriv {q1 q2 : Quat} (h1 : Tf.Unit q1) (h2 : Tf.Unit q2) (t : ℝ) :
    HasDerivAt (fun t => (qslerp t q1 q2).den) ((qslerp t q1 q2).den * (slerpLog q1 q2).pure) t := by
  have := (hasDerivAt_exp_smul_const (slerpLog q1 q2).pure t).const_mul q1.den
  refine (this.congr_of_eventuallyEq (Eventually.of_forall fun s => (slerp_log h1 h2).1 s)).congr_deriv ?_
  rw [(slerp_log h1 h2).1, mul_assoc]

/-- the derivative at the beginning. -/
theorem squad_deriv0 (q1 q2 s1 s2 : Quat) (h1 : Tf.Unit q1) (h2 : Tf.Unit q2) (h3 : Tf.Unit s1)
    (h4 : Tf.Unit s2) (h0 : qdot q1 s1 ≠ 0) :
    HasDerivAt (fun h => (qsquad h q1 q2 s1 s2).den)
      (q1.den * ((slerpLog q1 q2).pure + (2 : ℝ) • (slerpLog q1 s1).pure)) 0 := by
  have hU : HasDerivAt (fun h : ℝ => 2 * h * (1 - h)) 2 0 := by
    have := ((hasDerivAt_id (0 : ℝ)).const_mul 2).mul ((hasDerivAt_id (0 : ℝ)).const_sub 1)
    exact this.congr_deriv (by simp)
  have q0 : qslerp 0 q1 q2 = q1 := (C29_endpoints_partial _ _ h1 h2).1
  have s0 : qslerp 0 s1 s2 = s1 := (C29_endpoints_partial _ _ h3 h4).1
  have := slerp_deriv_zero (A := fun h => qslerp h q1 q2) (B := fun h => qslerp h s1 s2) hU (by norm_num)
    (slerp_deriv h1 h2 0) (slerp_deriv h3 h4 0).continuousAt (fun s => C29_unit _ _ _ h1 h2)
    (fun s => C29_unit _ _ _ h3 h4) (by simpa [q0, s0] using h0)
  refine this.congr_deriv ?_
  simp only [q0, s0]
  rw [mul_add]

/-- the derivative at the end. -/
theorem squad_deriv1 (q1 q2 s1 s2 : Quat) (h1 : Tf.Unit q1) (h2 : Tf.Unit q2) (h3 : Tf.Unit s1)
    (h4 : Tf.Unit s2) (h0 : qdot q2 s2 ≠ 0) (hp : 0 ≤ qdot q1 q2) :
    HasDerivAt (fun h => (qsquad h q1 q2 s1 s2).den)
      (-(q2.den * ((slerpLog q2 q1).pure + (2 : ℝ) • (slerpLog q2 s2).pure))) 1 := by
  have hU : HasDerivAt (fun h : ℝ => 2 * h * (1 - h)) (-2) 1 := by
    have := ((hasDerivAt_id (1 : ℝ)).const_mul 2).mul ((hasDerivAt_id (1 : ℝ)).const_sub 1)
    exact this.congr_deriv (by simp)
  have q0 : qslerp 1 q1 q2 = q2 := (C29_endpoints_partial _ _ h1 h2).2.1 hp
  have s0 : (qslerp 1 s1 s2).den = slerpSign s1 s2 • s2.den := by
    rw [(slerp_log h3 h4).1, one_smul, (slerp_log h3 h4).2]
  have hs : slerpSign s1 s2 = 1 ∨ slerpSign s1 s2 = -1 := by
    unfold slerpSign; split_ifs <;> simp
  have hd : qdot q2 (qslerp 1 s1 s2) ≠ 0 := by
    rw [qdot_inner, s0, inner_smul_right, ← qdot_inner]
    exact mul_ne_zero (slerpSign_ne _ _) h0
  have := slerp_deriv_zero (A := fun h => qslerp h q1 q2) (B := fun h => qslerp h s1 s2) hU (by norm_num)
    (slerp_deriv h1 h2 1) (slerp_deriv h3 h4 1).continuousAt (fun s => C29_unit _ _ _ h1 h2)
    (fun s => C29_unit _ _ _ h3 h4) (by rw [q0]; exact hd)
  refine this.congr_deriv ?_
  simp only [q0]
  rw [slerpLog_sign q2 s2 _ _ hs s0 h0, slerpLog_comm q1 q2, mul_add, mul_neg, neg_smul, mul_neg]
  abel

/-! ## Control points -/

/-- an angle for which the routines of the library evaluate the trigonometric formula, or zero. -/
def Trig (x : ℝ) : Prop := x = 0 ∨ 1 / 2 ^ 13 ≤ x

theorem qln_slerpLog {a b : Quat} (ha : Tf.Unit a) (hb : Tf.Unit b) (h : 0 < qdot a b)
    (ht : Trig (slerpAngle a b)) :
    qln (qcmul a b) = some ⟨(slerpLog a b).x, (slerpLog a b).y, (slerpLog a b).z, 0⟩ := by
  have hw : (qcmul a b).w = qdot a b := by simp [qcmul, qdot]; ring
  have hu : Tf.Unit (qcmul a b) := by
    rw [Unit.iff_norm, (C21_qcmul_qmulc _ _).1, norm_mul, norm_star, (Unit.iff_norm _).1 ha,
      (Unit.iff_norm _).1 hb, one_mul]
  have hn : qnorm (qcmul a b) = 1 := by rw [C21_qnorm]; exact (Unit.iff_norm _).1 hu
  obtain ⟨hs, hc, p0, p1⟩ := unit_polar hu
  have hang : slerpAngle a b = qangle (qcmul a b) := by
    rw [slerpAngle, ← hw, abs_of_pos (by rw [hw]; exact h), ← hc, Real.arccos_cos p0 p1]
  have hsg : slerpSign a b = 1 := if_neg (not_lt.2 h.le)
  rw [qln_eq, hn, slerpLog, hang, hsg]
  rw [hang] at ht
  rcases ht with ht | ht
  · rw [ht, if_pos (by positivity), if_neg one_ne_zero]
    simp [vscal, Quat.vec, invsincSeries, invsincSeries2, horner3]
  · have hp : 0 < qangle (qcmul a b) := lt_of_lt_of_le (by positivity) ht
    have hlt : qangle (qcmul a b) < Real.pi := by
      refine lt_of_le_of_ne p1 fun h' => ?_
      rw [h', Real.cos_pi] at hc
      linarith
    have hsp := Real.sin_pos_of_pos_of_lt_pi hp hlt
    have hv : vnorm (qcmul a b).vec ≠ 0 := by rw [← hs]; exact hsp.ne'
    rw [if_neg (not_lt.2 ht), if_neg hv, Real.sinc_of_ne_zero hp.ne', hs]
    simp [vscal, Quat.vec]

theorem slerpLog_exp {a b : Quat} (ha : Tf.Unit a) {X : V3} (hX : vnorm X ≤ Real.pi / 4)
    (hb : b.den = a.den * exp X.pure) : Tf.Unit b ∧ 0 < qdot a b ∧ slerpLog a b = X := by
  have hub : Tf.Unit b := by
    rw [Unit.iff_norm, hb, norm_mul, (Unit.iff_norm _).1 ha, one_mul, Quaternion.norm_exp]; simp
  have hm : (qcmul a b).den = exp X.pure := by
    rw [(C21_qcmul_qmulc _ _).1, hb, ← mul_assoc, (den_unit_mul ha).2, one_mul]
  have hpi := Real.pi_pos
  have x0 := vnorm_nonneg X
  rw [exp_pure] at hm
  have c1 := congrArg (fun q : ℍ[ℝ] => q.imI) hm
  have c2 := congrArg (fun q : ℍ[ℝ] => q.imJ) hm
  have c3 := congrArg (fun q : ℍ[ℝ] => q.imK) hm
  have c4 := congrArg (fun q : ℍ[ℝ] => q.re) hm
  simp at c1 c2 c3 c4
  have hcos : 0 < Real.cos (vnorm X) := Real.cos_pos_of_mem_Ioo ⟨by linarith, by linarith⟩
  have hw : qdot a b = Real.cos (vnorm X) := by
    rw [← c4]; simp [qcmul, qdot]; ring
  have hd : 0 < qdot a b := by rw [hw]; exact hcos
  refine ⟨hub, hd, ?_⟩
  have hang : slerpAngle a b = vnorm X := by
    rw [slerpAngle, hw, abs_of_pos hcos, Real.arccos_cos x0 (by linarith)]
  rw [slerpLog, hang, slerpSign, if_neg (not_lt.2 hd.le)]
  by_cases h0 : vnorm X = 0
  · have hz : X.pure = 0 := by rw [← norm_eq_zero, norm_pure, h0]
    have z1 : X.x = 0 := by simpa using congrArg (fun q : ℍ[ℝ] => q.imI) hz
    have z2 : X.y = 0 := by simpa using congrArg (fun q : ℍ[ℝ] => q.imJ) hz
    have z3 : X.z = 0 := by simpa using congrArg (fun q : ℍ[ℝ] => q.imK) hz
    ext <;> simp [vscal, Quat.vec, c1, c2, c3, z1, z2, z3]
  · have hsp : 0 < Real.sin (vnorm X) :=
      Real.sin_pos_of_pos_of_lt_pi (lt_of_le_of_ne x0 (Ne.symm h0)) (by linarith)
    have := hsp.ne'
    rw [Real.sinc_of_ne_zero h0]
    ext
    · simp only [vscal, Quat.vec, c1]; field_simp
    · simp only [vscal, Quat.vec, c2]; field_simp
    · simp only [vscal, Quat.vec, c3]; field_simp

theorem qexp_exact (X : V3) (h : Trig (vnorm X)) : (qexp ⟨X.x, X.y, X.z, 0⟩).den = exp X.pure := by
  rcases h with h | h
  · have hz : X.pure = 0 := by rw [← norm_eq_zero, norm_pure, h]
    have z1 : X.x = 0 := by simpa using congrArg (fun q : ℍ[ℝ] => q.imI) hz
    have z2 : X.y = 0 := by simpa using congrArg (fun q : ℍ[ℝ] => q.imJ) hz
    have z3 : X.z = 0 := by simpa using congrArg (fun q : ℍ[ℝ] => q.imK) hz
    have hv : vnorm (⟨0, 0, 0⟩ : V3) = 0 := by simp [vnorm, vdot]
    have hs : (0 : ℝ) < Real.sqrt dblEpsilon := by rw [sqrt_eps]; positivity
    rw [hz, NormedSpace.exp_zero, z1, z2, z3]
    ext <;> simp [qexp, Quat.vec, hv, sinccos, hs, cosSeries, cosSeries2, horner3]
  · rw [(C28_qexp ⟨X.x, X.y, X.z, 0⟩).1 h]
    congr 1

theorem vnorm_add_le (a b : V3) : vnorm ⟨a.x + b.x, a.y + b.y, a.z + b.z⟩ ≤ vnorm a + vnorm b := by
  rw [← norm_pure, ← norm_pure, ← norm_pure]
  refine le_trans (le_of_eq ?_) (norm_add_le _ _)
  congr 1
  ext <;> simp

/-- a quarter of the sum of the ways to the neighbours, reversed: where `aa_tf_qsquad_param` puts the control
point, as half a rotation vector in the frame of the key. -/
noncomputable def ctrl (q0 q1 q2 : Quat) : V3 :=
  ⟨-((slerpLog q1 q0).x + (slerpLog q1 q2).x) / 4, -((slerpLog q1 q0).y + (slerpLog q1 q2).y) / 4,
    -((slerpLog q1 q0).z + (slerpLog q1 q2).z) / 4⟩

theorem ctrl_spec {q0 q1 q2 : Quat} (h0 : Tf.Unit q0) (h1 : Tf.Unit q1) (h2 : Tf.Unit q2)
    (p0 : 0 < qdot q1 q0) (p2 : 0 < qdot q1 q2) (t0 : Trig (slerpAngle q1 q0)) (t2 : Trig (slerpAngle q1 q2))
    (tc : Trig (vnorm (ctrl q0 q1 q2))) :
    ∃ s, qsquadParam q0 q1 q2 = some s ∧ Tf.Unit s ∧ 0 < qdot q1 s ∧ slerpLog q1 s = ctrl q0 q1 q2 := by
  have hl : ∀ {a b : Quat}, Tf.Unit a → Tf.Unit b → vnorm (slerpLog a b) ≤ Real.pi / 2 := by
    intro a b ha hb
    obtain ⟨L, hn, hle, he, hL⟩ := C29_geodesic a b ha hb
    have : L = slerpLog a b := by
      have e : HasDerivAt (fun t => (qslerp t a b).den) (a.den * L.pure) 0 := by
        have := (hasDerivAt_exp_smul_const L.pure (0 : ℝ)).const_mul a.den
        refine (this.congr_of_eventuallyEq (Eventually.of_forall fun s => hL s)).congr_deriv ?_
        rw [zero_smul, NormedSpace.exp_zero, one_mul]
      have e' := slerp_deriv ha hb 0
      rw [(C29_endpoints_partial a b ha hb).1] at e'
      have := congrArg (fun q => star a.den * q) (e.unique e')
      simp only [← mul_assoc, (den_unit_mul ha).2, one_mul] at this
      exact V3.pure_inj this
    rw [← this]; exact hle
  have hX : vnorm (ctrl q0 q1 q2) ≤ Real.pi / 4 := by
    have e : ctrl q0 q1 q2 = vscal (-1 / 4) ⟨(slerpLog q1 q0).x + (slerpLog q1 q2).x,
        (slerpLog q1 q0).y + (slerpLog q1 q2).y, (slerpLog q1 q0).z + (slerpLog q1 q2).z⟩ := by
      ext <;> simp [ctrl, vscal] <;> ring
    rw [e, vnorm_vscal]
    have := vnorm_add_le (slerpLog q1 q0) (slerpLog q1 q2)
    have a := hl h1 h0
    have b := hl h1 h2
    rw [show |(-1 / 4 : ℝ)| = 1 / 4 by rw [abs_of_neg (by norm_num)]; norm_num]
    linarith
  refine ⟨qmul q1 (qexp ⟨(ctrl q0 q1 q2).x, (ctrl q0 q1 q2).y, (ctrl q0 q1 q2).z, 0⟩), ?_, ?_⟩
  · rw [qsquadParam, qln_slerpLog h1 h0 p0 t0, qln_slerpLog h1 h2 p2 t2]
    simp [ctrl]
  · exact slerpLog_exp h1 hX (by rw [C21_qmul, qexp_exact _ tc])

/-- **C127** (partial: neighbouring keys on the same side, so that the short ways are the ones of the logarithms,
and angles that are zero or at least `2^-13`, where the library does not evaluate series): with the control point
that `aa_tf_qsquad_param` computes from three consecutive keys, the segment that ends at the middle key and the one
that begins there have the same derivative in it, namely half of the difference of the ways to the neighbours. -/
theorem C127_smooth_partial (q0 q1 q2 : Quat) (h0 : Tf.Unit q0) (h1 : Tf.Unit q1) (h2 : Tf.Unit q2)
    (p0 : 0 < qdot q1 q0) (p2 : 0 < qdot q1 q2) (t0 : Trig (slerpAngle q1 q0)) (t2 : Trig (slerpAngle q1 q2))
    (tc : Trig (vnorm (ctrl q0 q1 q2))) :
    ∃ s, qsquadParam q0 q1 q2 = some s ∧ ∀ s0 s2, Tf.Unit s0 → Tf.Unit s2 →
      qsquad 1 q0 q1 s0 s = q1 ∧ qsquad 0 q1 q2 s s2 = q1 ∧
      HasDerivAt (fun h => (qsquad h q0 q1 s0 s).den)
        (q1.den * ((1 / 2 : ℝ) • ((slerpLog q1 q2).pure - (slerpLog q1 q0).pure))) 1 ∧
      HasDerivAt (fun h => (qsquad h q1 q2 s s2).den)
        (q1.den * ((1 / 2 : ℝ) • ((slerpLog q1 q2).pure - (slerpLog q1 q0).pure))) 0 := by
  obtain ⟨s, hs, us, ds, ls⟩ := ctrl_spec h0 h1 h2 p0 p2 t0 t2 tc
  have hc : (slerpLog q1 s).pure = (-1 / 4 : ℝ) • ((slerpLog q1 q0).pure + (slerpLog q1 q2).pure) := by
    rw [ls]; ext <;> simp [ctrl] <;> ring
  have p0' : 0 ≤ qdot q0 q1 := by
    have : qdot q0 q1 = qdot q1 q0 := by simp only [qdot]; ring
    rw [this]; exact p0.le
  refine ⟨s, hs, fun s0 s2 u0 u2 => ⟨?_, ?_, ?_, ?_⟩⟩
  · exact (C127_squad_ends _ _ _ _ h0 h1 u0 us).2.2.2 p0'
  · exact (C127_squad_ends _ _ _ _ h1 h2 us u2).2.1
  · refine (squad_deriv1 q0 q1 s0 s h0 h1 u0 us ds.ne' p0').congr_deriv ?_
    rw [hc, ← mul_neg]
    congr 1
    ext <;> simp <;> ring
  · refine (squad_deriv0 q1 q2 s s2 h1 h2 us u2 ds.ne').congr_deriv ?_
    rw [hc]
    congr 1
    ext <;> simp <;> ring

/-! ### Keys about one axis -/

theorem arccos_45 : 3 / 5 ≤ Real.arccos (4 / 5) ∧ Real.arccos (4 / 5) ≤ Real.pi / 2 := by
  have h0 := Real.arccos_nonneg (4 / 5)
  constructor
  · have h := Real.sin_le h0
    rw [Real.sin_arccos] at h
    rw [show (1 - (4 / 5) ^ 2 : ℝ) = (3 / 5) ^ 2 by norm_num, Real.sqrt_sq (by norm_num)] at h
    exact h
  · exact Real.arccos_le_pi_div_two.2 (by norm_num)

theorem slerpLog_self {q : Quat} (h : Tf.Unit q) : slerpLog q q = ⟨0, 0, 0⟩ := by
  ext <;> simp [slerpLog, vscal, qcmul, Quat.vec] <;> right <;> ring

/-- The hypotheses of `C127_smooth_partial` hold: a start from rest (the first key twice) towards a turn about x. -/
example : Tf.Unit (⟨0, 0, 0, 1⟩ : Quat) ∧ Tf.Unit (⟨3 / 5, 0, 0, 4 / 5⟩ : Quat) ∧
    0 < qdot ⟨0, 0, 0, 1⟩ ⟨3 / 5, 0, 0, 4 / 5⟩ ∧ Trig (slerpAngle ⟨0, 0, 0, 1⟩ ⟨0, 0, 0, 1⟩) ∧
    Trig (slerpAngle ⟨0, 0, 0, 1⟩ ⟨3 / 5, 0, 0, 4 / 5⟩) ∧
    Trig (vnorm (ctrl ⟨0, 0, 0, 1⟩ ⟨0, 0, 0, 1⟩ ⟨3 / 5, 0, 0, 4 / 5⟩)) := by
  have u1 : Tf.Unit (⟨0, 0, 0, 1⟩ : Quat) := by norm_num [Tf.Unit]
  have ha : slerpAngle ⟨0, 0, 0, 1⟩ ⟨3 / 5, 0, 0, 4 / 5⟩ = Real.arccos (4 / 5) := by
    rw [slerpAngle]; norm_num [qdot, abs_of_pos]
  have hp : (0 : ℝ) < Real.arccos (4 / 5) := lt_of_lt_of_le (by norm_num) arccos_45.1
  refine ⟨u1, by norm_num [Tf.Unit], by norm_num [qdot], Or.inl (by simp [slerpAngle, qdot]), Or.inr ?_, Or.inr ?_⟩
  · rw [ha]; exact le_trans (by norm_num) arccos_45.1
  · have hl : slerpLog ⟨0, 0, 0, 1⟩ ⟨3 / 5, 0, 0, 4 / 5⟩ = ⟨Real.arccos (4 / 5), 0, 0⟩ := by
      have hs : Real.sin (Real.arccos (4 / 5)) = 3 / 5 := by
        rw [Real.sin_arccos, show (1 - (4 / 5) ^ 2 : ℝ) = (3 / 5) ^ 2 by norm_num, Real.sqrt_sq (by norm_num)]
      have hg : slerpSign ⟨0, 0, 0, 1⟩ ⟨3 / 5, 0, 0, 4 / 5⟩ = 1 := if_neg (by norm_num [qdot])
      rw [slerpLog, ha, hg, Real.sinc_of_ne_zero hp.ne', hs]
      ext <;> simp [vscal, qcmul, Quat.vec]
    have hc : ctrl ⟨0, 0, 0, 1⟩ ⟨0, 0, 0, 1⟩ ⟨3 / 5, 0, 0, 4 / 5⟩ = ⟨-Real.arccos (4 / 5) / 4, 0, 0⟩ := by
      rw [ctrl, slerpLog_self u1, hl]; simp
    rw [hc]
    have : vnorm (⟨-Real.arccos (4 / 5) / 4, 0, 0⟩ : V3) = Real.arccos (4 / 5) / 4 := by
      rw [vnorm, Real.sqrt_eq_iff_mul_self_eq (vdot_nonneg _) (by positivity)]
      simp [vdot]; ring
    rw [this]
    have := arccos_45.1
    norm_num at *
    linarith

/-- **C127 is violated**: a key and its negation are the same orientation, but no control point is computed
(the logarithm of -1 divides by zero). -/
theorem C127_violates_opposite : Tf.Unit ⟨0, 0, 0, 1⟩ ∧ Tf.Unit ⟨0, 0, 0, -1⟩ ∧
    quat2rotmat ⟨0, 0, 0, -1⟩ = quat2rotmat ⟨0, 0, 0, 1⟩ ∧
    qsquadParam ⟨0, 0, 0, 1⟩ ⟨0, 0, 0, 1⟩ ⟨0, 0, 0, -1⟩ = none := by
  refine ⟨by norm_num [Tf.Unit], by norm_num [Tf.Unit], ?_, ?_⟩
  · simp only [quat2rotmat, skewsymScalC, Quat.vec]
    ext <;> simp
  · have e : qcmul (⟨0, 0, 0, 1⟩ : Quat) ⟨0, 0, 0, -1⟩ = ⟨0, 0, 0, -1⟩ := by ext <;> simp [qcmul]
    rw [qsquadParam, e, C28_violates_ln_neg_one.2]
    cases qln (qcmul (⟨0, 0, 0, 1⟩ : Quat) ⟨0, 0, 0, 1⟩) <;> rfl

/-- **C127 is violated** for keys on different sides: the control point is computed from the long way to the next
key, the interpolation goes the short way, and at the key the orientation turns back abruptly. -/
theorem C127_violates_turn : ∃ q0 q1 q2 s : Quat, Tf.Unit q0 ∧ Tf.Unit q1 ∧ Tf.Unit q2 ∧ Tf.Unit s ∧
    qsquadParam q0 q1 q2 = some s ∧ ∀ s0 s2, Tf.Unit s0 → Tf.Unit s2 →
    qsquad 1 q0 q1 s0 s = q1 ∧ qsquad 0 q1 q2 s s2 = q1 ∧
    ∃ D1 D2 : ℍ[ℝ], HasDerivAt (fun h => (qsquad h q0 q1 s0 s).den) D1 1 ∧
      HasDerivAt (fun h => (qsquad h q1 q2 s s2).den) D2 0 ∧ 0 < D1.imI ∧ D2.imI < 0 := by
  have u1 : Tf.Unit (⟨0, 0, 0, 1⟩ : Quat) := by norm_num [Tf.Unit]
  have u2 : Tf.Unit (⟨3 / 5, 0, 0, -4 / 5⟩ : Quat) := by norm_num [Tf.Unit]
  obtain ⟨a1, a2⟩ := arccos_45
  have hpi := Real.pi_pos
  set α := Real.arccos (4 / 5) with hα
  have hsα : Real.sin α = 3 / 5 := by
    rw [hα, Real.sin_arccos, show (1 - (4 / 5) ^ 2 : ℝ) = (3 / 5) ^ 2 by norm_num, Real.sqrt_sq (by norm_num)]
  have hcα : Real.cos α = 4 / 5 := Real.cos_arccos (by norm_num) (by norm_num)
  -- the logarithm goes the long way
  have e1 : qcmul (⟨0, 0, 0, 1⟩ : Quat) ⟨3 / 5, 0, 0, -4 / 5⟩ = ⟨3 / 5, 0, 0, -4 / 5⟩ := by ext <;> simp [qcmul]
  have e0 : qcmul (⟨0, 0, 0, 1⟩ : Quat) ⟨0, 0, 0, 1⟩ = ⟨0, 0, 0, 1⟩ := by ext <;> simp [qcmul]
  have hv : vnorm (⟨3 / 5, 0, 0⟩ : V3) = 3 / 5 := by
    rw [vnorm, Real.sqrt_eq_iff_mul_self_eq (vdot_nonneg _) (by norm_num)]; simp [vdot]
  have hang : qangle ⟨3 / 5, 0, 0, -4 / 5⟩ = Real.pi - α := by
    have := atan2_sin_cos (x := Real.pi - α) (by linarith) (by linarith)
    rw [Real.sin_pi_sub, Real.cos_pi_sub, hsα, hcα] at this
    rw [qangle, Quat.vec, hv, ← this]
    norm_num
  have hn : ∀ {q : Quat}, Tf.Unit q → qnorm q = 1 := fun h => by rw [C21_qnorm]; exact (Unit.iff_norm _).1 h
  have l2 : qln ⟨3 / 5, 0, 0, -4 / 5⟩ = some ⟨Real.pi - α, 0, 0, 0⟩ := by
    rw [qln_eq, hang, hn u2, if_neg (by norm_num at *; linarith), Quat.vec, hv, if_neg (by norm_num)]
    simp
  have l0 : qln ⟨0, 0, 0, 1⟩ = some ⟨0, 0, 0, 0⟩ := by
    have := qln_slerpLog u1 u1 (by norm_num [qdot]) (Or.inl (by simp [slerpAngle, qdot]))
    rwa [e0, slerpLog_self u1] at this
  set X : V3 := ⟨-(Real.pi - α) / 4, 0, 0⟩ with hX
  have nX : vnorm X = (Real.pi - α) / 4 := by
    rw [vnorm, Real.sqrt_eq_iff_mul_self_eq (vdot_nonneg _) (by linarith)]
    simp [vdot, hX]; ring
  obtain ⟨us, ds, ls⟩ := slerpLog_exp (b := qmul ⟨0, 0, 0, 1⟩ (qexp ⟨X.x, X.y, X.z, 0⟩)) u1 (X := X)
    (by rw [nX]; linarith) (by rw [C21_qmul, qexp_exact X (Or.inr (by rw [nX]; norm_num at *; linarith))])
  set s := qmul (⟨0, 0, 0, 1⟩ : Quat) (qexp ⟨X.x, X.y, X.z, 0⟩) with hs
  have hpar : qsquadParam ⟨0, 0, 0, 1⟩ ⟨0, 0, 0, 1⟩ ⟨3 / 5, 0, 0, -4 / 5⟩ = some s := by
    rw [qsquadParam, e0, e1, l0, l2, hs, hX]
    simp
  have hl : (slerpLog ⟨0, 0, 0, 1⟩ ⟨3 / 5, 0, 0, -4 / 5⟩).x < 0 := by
    have hg : slerpSign ⟨0, 0, 0, 1⟩ ⟨3 / 5, 0, 0, -4 / 5⟩ = -1 := if_pos (by norm_num [qdot])
    rw [slerpLog, hg, e1]
    have := slerp_sinc_pos u1 u2
    simp only [vscal, Quat.vec]
    have : -1 / Real.sinc (slerpAngle ⟨0, 0, 0, 1⟩ ⟨3 / 5, 0, 0, -4 / 5⟩) < 0 := div_neg_of_neg_of_pos (by norm_num) this
    linarith
  refine ⟨_, _, _, s, u1, u1, u2, us, hpar, fun s0 s2 h0 h2 => ?_⟩
  obtain ⟨-, -, -, c1⟩ := C127_squad_ends _ _ _ _ u1 u1 h0 us
  obtain ⟨-, c2, -⟩ := C127_squad_ends _ _ _ _ u1 u2 us h2
  refine ⟨c1 (by norm_num [qdot]), c2, _, _,
    squad_deriv1 _ _ s0 s u1 u1 h0 us ds.ne' (by norm_num [qdot]), squad_deriv0 _ _ s s2 u1 u2 us h2 ds.ne', ?_, ?_⟩
  · rw [ls, slerpLog_self u1]
    simp [hX]
    linarith
  · rw [ls]
    simp [hX]
    linarith

/-! ## The triad of slerps -/

/-- **C127**, the first output of `aa_tf_qslerp3diff`. -/
theorem C127_slerp3_value (u12 du12 : ℝ) (q1 q2 : Quat) (u34 du34 : ℝ) (q3 q4 : Quat) (u du : ℝ) (h1 : Tf.Unit q1)
    (h2 : Tf.Unit q2) (h3 : Tf.Unit q3) (h4 : Tf.Unit q4) (r : Quat × Quat)
    (hr : qslerp3diff u12 du12 q1 q2 u34 du34 q3 q4 u du = some r) :
    r.1 = qslerp u (qslerp u12 q1 q2) (qslerp u34 q3 q4) ∧ Tf.Unit r.1 := by
  have u1 := C29_unit u12 q1 q2 h1 h2
  have u2 := C29_unit u34 q3 q4 h3 h4
  have := C68_value _ _ _ _ _ _ u1 u2 r hr
  exact ⟨this, by rw [this]; exact C29_unit _ _ _ u1 u2⟩

/-- the chain rule along one interpolation. -/
theorem slerpdiff_chain {V : ℝ → ℝ} {dv t : ℝ} (hV : HasDerivAt V dv t) {q1 q2 : Quat} (h1 : Tf.Unit q1)
    (h2 : Tf.Unit q2) (ht : Trig (slerpAngle q1 q2)) :
    Quat.HasDeriv (fun s => qslerp (V s) q1 q2) ⟨(qslerpdiff (V t) q1 q2).x * dv, (qslerpdiff (V t) q1 q2).y * dv,
      (qslerpdiff (V t) q1 q2).z * dv, (qslerpdiff (V t) q1 q2).w * dv⟩ t := by
  obtain ⟨D, hD, -, he⟩ := C29_slerpdiff_partial (V t) q1 q2 h1 h2
  have := hD.scomp t hV
  refine HasDerivAt.congr_deriv (f := fun s => (qslerp (V s) q1 q2).den) this ?_
  rw [← he ht.symm]
  ext <;> simp <;> ring

/-- **C127** (partial: as C68, the angle between the two interpolated orientations is momentarily constant and they
are neither equal nor orthogonal; angles of the two interpolations zero or at least `2^-13`): the second output of
`aa_tf_qslerp3diff` is the time derivative. -/
theorem C127_slerp3_derivative_partial (U12 U34 U : ℝ → ℝ) (du12 du34 du t : ℝ) (h12 : HasDerivAt U12 du12 t)
    (h34 : HasDerivAt U34 du34 t) (hU : HasDerivAt U du t) (q1 q2 q3 q4 : Quat) (h1 : Tf.Unit q1)
    (h2 : Tf.Unit q2) (h3 : Tf.Unit q3) (h4 : Tf.Unit q4) (t1 : Trig (slerpAngle q1 q2))
    (t2 : Trig (slerpAngle q3 q4)) (ha : slerpAngle (qslerp (U12 t) q1 q2) (qslerp (U34 t) q3 q4) ≠ 0)
    (hc : qdot (qslerp (U12 t) q1 q2) (qslerp (U34 t) q3 q4) ≠ 0)
    (hD : HasDerivAt (fun s => qdot (qslerp (U12 s) q1 q2) (qslerp (U34 s) q3 q4)) 0 t) :
    ∃ r, qslerp3diff (U12 t) du12 q1 q2 (U34 t) du34 q3 q4 (U t) du = some r ∧
      Quat.HasDeriv (fun s => qslerp (U s) (qslerp (U12 s) q1 q2) (qslerp (U34 s) q3 q4)) r.2 t := by
  have d1 := slerpdiff_chain h12 h1 h2 t1
  have d2 := slerpdiff_chain h34 h3 h4 t2
  obtain ⟨r, e, -, d⟩ := C68_derivative_partial U du _ _ _ _ t hU d1 d2 (fun s => C29_unit _ _ _ h1 h2)
    (fun s => C29_unit _ _ _ h3 h4) ha hc ((hasDerivAt_qdot d1 d2).unique hD)
  exact ⟨r, e, d⟩

/-- **C127 is violated** when the angle changes: half way between a fixed orientation and one that moves
along an interpolation, the returned rate is not the derivative. -/
theorem C127_violates_slerp3 : ∃ (q1 q2 q3 q4 : Quat) (V : ℝ → ℝ) (dv t : ℝ) (d : Quat) (r : Quat × Quat),
    Tf.Unit q1 ∧ Tf.Unit q2 ∧ Tf.Unit q3 ∧ Tf.Unit q4 ∧ HasDerivAt V dv t ∧
    slerpAngle (qslerp 0 q1 q2) (qslerp (V t) q3 q4) ≠ 0 ∧
    qslerp3diff 0 0 q1 q2 (V t) dv q3 q4 (1 / 2) 0 = some r ∧
    Quat.HasDeriv (fun s => qslerp (1 / 2) (qslerp 0 q1 q2) (qslerp (V s) q3 q4)) d t ∧ r.2 ≠ d := by
  obtain ⟨d, r, uB, u1, hB, ha, hd, hr, -, -, hne⟩ := moving_explicit
  have hpi := Real.pi_pos
  have u4 : Tf.Unit (⟨0, 0, 1, 0⟩ : Quat) := by norm_num [Tf.Unit]
  have ha4 : slerpAngle ⟨0, 0, 0, 1⟩ ⟨0, 0, 1, 0⟩ = Real.pi / 2 := by
    rw [slerpAngle]; simp [qdot]
  have hV : HasDerivAt (fun s : ℝ => s * (2 / Real.pi)) (2 / Real.pi) (Real.pi / 3) :=
    ((hasDerivAt_id _).mul_const _).congr_deriv (one_mul _)
  have hq : ∀ s : ℝ, qslerp (s * (2 / Real.pi)) ⟨0, 0, 0, 1⟩ ⟨0, 0, 1, 0⟩ = ⟨0, 0, Real.sin s, Real.cos s⟩ := by
    intro s
    refine Quat.den_inj ?_
    rw [slerp_den u1 u4 (by rw [ha4]; positivity), ha4, show s * (2 / Real.pi) * (Real.pi / 2) = s by field_simp,
      Real.sin_pi_div_two, Real.sin_pi_div_two_sub, slerpSign, if_neg (by norm_num [qdot])]
    ext <;> simp
  have q0 : qslerp 0 ⟨0, 0, 0, 1⟩ ⟨0, 0, 0, 1⟩ = ⟨0, 0, 0, 1⟩ := (C29_endpoints_partial _ _ u1 u1).1
  have d2 := slerpdiff_chain hV u1 u4 (Or.inr (by rw [ha4]; have := Real.pi_gt_three; norm_num; linarith))
  simp only [hq] at d2
  have e := Quat.den_inj (HasDerivAt.unique d2 hB)
  refine ⟨_, _, _, _, fun s => s * (2 / Real.pi), 2 / Real.pi, Real.pi / 3, d, r, u1, u1, u1, u4, hV, ?_, ?_, ?_, hne⟩
  · rw [q0, hq]; exact ha
  · rw [← hr, qslerp3diff]
    simp only [q0, hq, mul_zero]
    rw [e]
  · simp only [q0, hq]; exact hd

end Verif.Tf
