import Verif.Model.TfF
import Verif.Prop.ExpDeriv

/-!
# C126: rates of rotation vectors

Specification: the derivative (Mathlib's `HasDerivAt`) of `exp (v/2)` in `ℍ[ℝ]` along a path of rotation
vectors `v`; the angular velocity `w` of a path `R` of unit quaternions is the one with `R' = w R / 2`.
-/

namespace Verif.Tf

open Quaternion NormedSpace

theorem V3.HasDeriv.half {E : ℝ → V3} {de : V3} {t : ℝ} (h : V3.HasDeriv E de t) :
    V3.HasDeriv (fun s => (⟨(E s).x / 2, (E s).y / 2, (E s).z / 2⟩ : V3)) ⟨de.x / 2, de.y / 2, de.z / 2⟩ t := by
  obtain ⟨a, b, c⟩ := V3.hasDeriv_iff.1 h
  exact V3.hasDeriv_iff.2 ⟨a.div_const 2, b.div_const 2, c.div_const 2⟩

theorem rotvecDen_half (r : V3) : r.rotvecDen = exp (⟨r.x / 2, r.y / 2, r.z / 2⟩ : V3).pure := by
  rw [V3.rotvecDen]
  congr 1
  ext <;> simp <;> ring

theorem vnorm_halve (r : V3) : vnorm ⟨r.x / 2, r.y / 2, r.z / 2⟩ = vnorm r / 2 := by
  have h : vdot (⟨r.x / 2, r.y / 2, r.z / 2⟩ : V3) ⟨r.x / 2, r.y / 2, r.z / 2⟩ = vdot r r / 2 ^ 2 := by
    simp only [vdot]; ring
  rw [vnorm, h, Real.sqrt_div (vdot_nonneg _), Real.sqrt_sq (by norm_num), vnorm]

/-- the Jacobian times a rate, in the shape of the derivative of the exponential. -/
theorem qjac_form (v dv : V3) (h0 : vnorm v ≠ 0) : gemv43 (rotvecQjac v) dv =
    expForm ⟨v.x / 2, v.y / 2, v.z / 2⟩ ⟨dv.x / 2, dv.y / 2, dv.z / 2⟩ (Real.sin (vnorm v / 2) / (vnorm v / 2))
      ((Real.cos (vnorm v / 2) - Real.sin (vnorm v / 2) / (vnorm v / 2)) / (vnorm v / 2 * (vnorm v / 2))) := by
  have hn : ¬ (0 ≥ Real.sqrt (vdot v v)) := not_le.2 (lt_of_le_of_ne (vnorm_nonneg v) (Ne.symm h0))
  have hsq : Real.sqrt (vdot v v) = vnorm v := rfl
  unfold rotvecQjac
  rw [if_neg hn]
  rw [hsq]
  generalize vnorm v = n at *
  ext <;> simp [gemv43, expForm, vdot] <;> field_simp <;> ring

/-- **C126**: `aa_tf_rotvec_qjac` is the matrix of partial derivatives of the unit quaternion of a rotation
vector, at every rotation vector including zero. -/
theorem C126_qjac (E : ℝ → V3) (de : V3) (t : ℝ) (h : V3.HasDeriv E de t) :
    HasDerivAt (fun s => (E s).rotvecDen) (gemv43 (rotvecQjac (E t)) de).den t := by
  have hh := h.half
  simp only [rotvecDen_half]
  by_cases h0 : vnorm (E t) = 0
  · have h1 : vnorm ((fun s => (⟨(E s).x / 2, (E s).y / 2, (E s).z / 2⟩ : V3)) t) = 0 := by
      show vnorm _ = 0
      rw [vnorm_halve, h0]; norm_num
    refine (hasDeriv_exp_zero hh h1 0).congr_deriv ?_
    have hp : (E t).pure = 0 := by rw [← norm_eq_zero, norm_pure, h0]
    have hx : (E t).x = 0 := by simpa using congrArg (fun q : ℍ[ℝ] => q.imI) hp
    have hy : (E t).y = 0 := by simpa using congrArg (fun q : ℍ[ℝ] => q.imJ) hp
    have hz : (E t).z = 0 := by simpa using congrArg (fun q : ℍ[ℝ] => q.imK) hp
    have hn : 0 ≥ Real.sqrt (vdot (E t) (E t)) := h0.le
    unfold rotvecQjac
    rw [if_pos hn]
    ext <;> simp [gemv43, expForm, vdot, hx, hy, hz] <;> ring
  · have h1 : vnorm ((fun s => (⟨(E s).x / 2, (E s).y / 2, (E s).z / 2⟩ : V3)) t) ≠ 0 := by
      show vnorm _ ≠ 0
      rw [vnorm_halve]; positivity
    refine (hasDeriv_exp hh h1).congr_deriv ?_
    rw [qjac_form _ _ h0, ← vnorm_sq, vnorm_halve]

theorem diff2qdiff_form (v dv : V3) : rotvecDiff2qdiff v dv =
    if vnorm v < 1 / 2 ^ 12 then
      expForm ⟨v.x / 2, v.y / 2, v.z / 2⟩ ⟨dv.x / 2, dv.y / 2, dv.z / 2⟩
        (sincSeries2 (vdot ⟨v.x / 2, v.y / 2, v.z / 2⟩ ⟨v.x / 2, v.y / 2, v.z / 2⟩))
        (horner3 (vdot ⟨v.x / 2, v.y / 2, v.z / 2⟩ ⟨v.x / 2, v.y / 2, v.z / 2⟩) (-1 / 3) (1 / 30) (-1 / 840))
    else gemv43 (rotvecQjac v) dv := by
  have hthr : vdot (⟨v.x / 2, v.y / 2, v.z / 2⟩ : V3) ⟨v.x / 2, v.y / 2, v.z / 2⟩ < Real.sqrt dblEpsilon ↔
      vnorm v < 1 / 2 ^ 12 := by
    rw [← vnorm_sq, vnorm_halve, sqrt_eps]
    have := vnorm_nonneg v
    constructor
    · intro h
      by_contra hc
      rw [not_lt] at hc
      have : (1 / 2 ^ 12 : ℝ) * (1 / 2 ^ 12) ≤ vnorm v * vnorm v := mul_self_le_mul_self (by positivity) hc
      norm_num at *
      linarith
    · intro h
      have : vnorm v * vnorm v < (1 / 2 ^ 12 : ℝ) * (1 / 2 ^ 12) := mul_self_lt_mul_self this h
      norm_num at *
      linarith
  unfold rotvecDiff2qdiff
  simp only [hthr]
  by_cases h : vnorm v < 1 / 2 ^ 12
  · simp only [if_pos h]; rfl
  · have h0 : vnorm v ≠ 0 := fun h' => h (by rw [h']; positivity)
    simp only [if_neg h]
    rw [qjac_form _ _ h0, show Real.sqrt (vdot (⟨v.x / 2, v.y / 2, v.z / 2⟩ : V3) ⟨v.x / 2, v.y / 2, v.z / 2⟩) =
      vnorm ⟨v.x / 2, v.y / 2, v.z / 2⟩ from rfl, ← vnorm_sq, vnorm_halve]
    rfl

/-- **C126**: `aa_tf_rotvec_diff2qdiff` is the derivative of the quaternion along a path of rotation vectors, to
within `2^-80` of the rate; exactly when the rotation vector is zero or not shorter than `2^-12`. -/
theorem C126_diff2qdiff (E : ℝ → V3) (de : V3) (t : ℝ) (h : V3.HasDeriv E de t) :
    ∃ D, HasDerivAt (fun s => (E s).rotvecDen) D t ∧
      ‖(rotvecDiff2qdiff (E t) de).den - D‖ ≤ 1 / 2 ^ 80 * vnorm de ∧
      (1 / 2 ^ 12 ≤ vnorm (E t) ∨ vnorm (E t) = 0 → (rotvecDiff2qdiff (E t) de).den = D) := by
  have d0 := vnorm_nonneg de
  refine ⟨_, C126_qjac E de t h, ?_⟩
  rw [diff2qdiff_form]
  by_cases h1 : vnorm (E t) < 1 / 2 ^ 12
  · simp only [if_pos h1]
    by_cases h0 : vnorm (E t) = 0
    · have e : (expForm ⟨(E t).x / 2, (E t).y / 2, (E t).z / 2⟩ ⟨de.x / 2, de.y / 2, de.z / 2⟩
        (sincSeries2 (vdot ⟨(E t).x / 2, (E t).y / 2, (E t).z / 2⟩ ⟨(E t).x / 2, (E t).y / 2, (E t).z / 2⟩))
        (horner3 (vdot ⟨(E t).x / 2, (E t).y / 2, (E t).z / 2⟩ ⟨(E t).x / 2, (E t).y / 2, (E t).z / 2⟩)
          (-1 / 3) (1 / 30) (-1 / 840))) = gemv43 (rotvecQjac (E t)) de := by
        have hp : (E t).pure = 0 := by rw [← norm_eq_zero, norm_pure, h0]
        have hx : (E t).x = 0 := by simpa using congrArg (fun q : ℍ[ℝ] => q.imI) hp
        have hy : (E t).y = 0 := by simpa using congrArg (fun q : ℍ[ℝ] => q.imJ) hp
        have hz : (E t).z = 0 := by simpa using congrArg (fun q : ℍ[ℝ] => q.imK) hp
        have hn : 0 ≥ Real.sqrt (vdot (E t) (E t)) := h0.le
        unfold rotvecQjac
        rw [if_pos hn]
        ext <;> simp [gemv43, expForm, vdot, hx, hy, hz, sincSeries2, horner3] <;> ring
      rw [e]
      refine ⟨?_, fun _ => rfl⟩
      rw [sub_self, norm_zero]; positivity
    · refine ⟨?_, fun h' => absurd h' (not_or.2 ⟨not_le.2 h1, h0⟩)⟩
      have hh : vnorm (⟨(E t).x / 2, (E t).y / 2, (E t).z / 2⟩ : V3) ≠ 0 := by rw [vnorm_halve]; positivity
      have hl : vnorm (⟨(E t).x / 2, (E t).y / 2, (E t).z / 2⟩ : V3) ≤ 1 / 2 ^ 13 := by
        rw [vnorm_halve]; norm_num at *; linarith
      have := expForm_small ⟨(E t).x / 2, (E t).y / 2, (E t).z / 2⟩ ⟨de.x / 2, de.y / 2, de.z / 2⟩ hh hl
      rw [qjac_form _ _ h0]
      rw [vnorm_halve de] at this
      rw [← vnorm_sq ⟨(E t).x / 2, (E t).y / 2, (E t).z / 2⟩, vnorm_halve] at this
      rw [← vnorm_sq ⟨(E t).x / 2, (E t).y / 2, (E t).z / 2⟩, vnorm_halve]
      refine this.trans ?_
      have : (0 : ℝ) < 1 / 2 ^ 80 := by positivity
      nlinarith
  · simp only [if_neg h1]
    refine ⟨?_, fun _ => trivial⟩
    rw [sub_self, norm_zero]; positivity

/-- the rate is at most as long as the rate of the rotation vector, up to the accuracy of the series. -/
theorem diff2qdiff_small (v dv : V3) (h : vnorm v < 1 / 2 ^ 12) : ‖(rotvecDiff2qdiff v dv).den‖ ≤ 2 * vnorm dv := by
  rw [diff2qdiff_form, if_pos h]
  have hz : (expForm ⟨v.x / 2, v.y / 2, v.z / 2⟩ ⟨dv.x / 2, dv.y / 2, dv.z / 2⟩ 0 0).den = 0 := by
    ext <;> simp [expForm]
  have hc := expForm_close ⟨v.x / 2, v.y / 2, v.z / 2⟩ ⟨dv.x / 2, dv.y / 2, dv.z / 2⟩
    (sincSeries2 (vdot ⟨v.x / 2, v.y / 2, v.z / 2⟩ ⟨v.x / 2, v.y / 2, v.z / 2⟩)) 0
    (horner3 (vdot ⟨v.x / 2, v.y / 2, v.z / 2⟩ ⟨v.x / 2, v.y / 2, v.z / 2⟩) (-1 / 3) (1 / 30) (-1 / 840)) 0
  rw [hz, sub_zero, sub_zero, sub_zero] at hc
  refine hc.trans ?_
  rw [← vnorm_sq, vnorm_halve, vnorm_halve]
  have d0 := vnorm_nonneg dv
  have v0 := vnorm_nonneg v
  generalize vnorm v = x at *
  generalize vnorm dv = d at *
  have hx : x / 2 * (x / 2) ≤ 1 / 2 ^ 26 := by
    have : x * x ≤ (1 / 2 ^ 12 : ℝ) * (1 / 2 ^ 12) := mul_self_le_mul_self v0 h.le
    norm_num at *; linarith
  have hx0 : 0 ≤ x / 2 * (x / 2) := by positivity
  generalize x / 2 * (x / 2) = y at *
  have a1 : |sincSeries2 y| ≤ 2 := by
    rw [sincSeries2, horner3, abs_le]
    norm_num at *
    constructor <;> nlinarith
  have a2 : |horner3 y (-1 / 3) (1 / 30) (-1 / 840)| ≤ 1 := by
    rw [horner3, abs_le]
    norm_num at *
    constructor <;> nlinarith
  have hx1 : x / 2 ≤ 1 / 2 := by norm_num at *; linarith
  have e1 : |sincSeries2 y| * (d / 2) * (1 + x / 2) ≤ 2 * (d / 2) * (1 + 1 / 2) := by gcongr
  have e2 : |horner3 y (-1 / 3) (1 / 30) (-1 / 840)| * y * (d / 2) ≤ 1 * (1 / 2 ^ 26) * (d / 2) := by gcongr
  norm_num at *
  linarith

theorem norm_im_le (a : ℍ[ℝ]) : ‖a.im‖ ≤ ‖a‖ := by
  have h : ‖a.im‖ * ‖a.im‖ ≤ ‖a‖ * ‖a‖ := by
    rw [← normSq_eq_norm_mul_self, ← normSq_eq_norm_mul_self, normSq_def', normSq_def']
    simp
    nlinarith [sq_nonneg a.re]
  exact le_of_not_gt fun hc => absurd h (not_le.2 (mul_self_lt_mul_self (norm_nonneg _) hc))

/-- the velocities of nearby quaternions and rates are close. -/
theorem qdiff2vel_close (q q' d d' : Quat) : ‖(qdiff2vel q d).pure - (qdiff2vel q' d').pure‖ ≤
    2 * (‖d.den‖ * ‖q.den - q'.den‖ + ‖d.den - d'.den‖ * ‖q'.den‖) := by
  have e : ∀ q d : Quat, (qdiff2vel q d).pure = ((2 : ℝ) • (d.den * star q.den)).im := by
    intro q d
    ext <;> simp [qdiff2vel, qmulcV] <;> ring
  have e2 : (2 : ℝ) • (d.den * star q.den) - (2 : ℝ) • (d'.den * star q'.den) =
      (2 : ℝ) • (d.den * star (q.den - q'.den) + (d.den - d'.den) * star q'.den) := by
    rw [← smul_sub, star_sub, mul_sub, sub_mul]; congr 1; abel
  have e3 : ∀ a b : ℍ[ℝ], a.im - b.im = (a - b).im := fun a b => by ext <;> simp
  rw [e, e, e3, e2]
  refine (norm_im_le _).trans ?_
  rw [norm_smul, Real.norm_eq_abs, abs_of_pos (by norm_num : (0 : ℝ) < 2)]
  refine mul_le_mul_of_nonneg_left ((norm_add_le _ _).trans ?_) (by norm_num)
  rw [norm_mul, norm_mul, norm_star, norm_star]

/-- **C126**: `aa_tf_rotvec_diff2vel` is the angular velocity of the motion, to within `2^-70` of the rate;
exactly when the rotation vector is zero or not shorter than `2^-12`. -/
theorem C126_diff2vel (E : ℝ → V3) (de : V3) (t : ℝ) (h : V3.HasDeriv E de t) :
    ∃ w : V3, HasDerivAt (fun s => (E s).rotvecDen) ((1 / 2 : ℝ) • (w.pure * (E t).rotvecDen)) t ∧
      ‖(rotvecDiff2vel (E t) de).pure - w.pure‖ ≤ 1 / 2 ^ 70 * vnorm de ∧
      (1 / 2 ^ 12 ≤ vnorm (E t) ∨ vnorm (E t) = 0 → rotvecDiff2vel (E t) de = w) := by
  obtain ⟨D, hD, hb, he⟩ := C126_diff2qdiff E de t h
  obtain ⟨r1, r2, -⟩ := C30_rotvec2quat (E t)
  have nR : ∀ s, ‖(E s).rotvecDen‖ = 1 := fun s => by
    rw [V3.rotvecDen, Quaternion.norm_exp]; simp
  -- the exact velocity
  let Q : ℝ → Quat := fun s => ⟨(E s).rotvecDen.imI, (E s).rotvecDen.imJ, (E s).rotvecDen.imK, (E s).rotvecDen.re⟩
  have hQ : ∀ s, (Q s).den = (E s).rotvecDen := fun s => by ext <;> simp [Q]
  have uQ : ∀ s, Unit (Q s) := fun s => by rw [Unit.iff_norm, hQ, nR]
  let d : Quat := ⟨D.imI, D.imJ, D.imK, D.re⟩
  have hd : d.den = D := by ext <;> simp [d]
  have hQd : Quat.HasDeriv Q d t := by
    show HasDerivAt (fun s => (Q s).den) d.den t
    simp only [hQ, hd]; exact hD
  have htan := unit_tangent hQd uQ
  have hre : (d.den * star (Q t).den).re = 0 := by
    have := congrArg (fun q : ℍ[ℝ] => q.re) htan
    simp at this ⊢
    linarith
  have hw := qdiff2vel_pure (Q t) d hre
  have hx : 1 / 2 ^ 12 ≤ vnorm (E t) ∨ vnorm (E t) = 0 → rotvecDiff2vel (E t) de = qdiff2vel (Q t) d := by
    intro hc
    have e1 : rotvecDiff2qdiff (E t) de = d := Quat.den_inj (by rw [hd]; exact he hc)
    have e2 : rotvec2quat (E t) = Q t := by
      refine Quat.den_inj ?_
      rw [hQ]
      rcases hc with hc | hc
      · exact (r1 hc).1
      · have hp : (E t).pure = 0 := by rw [← norm_eq_zero, norm_pure, hc]
        have hx : (E t).x = 0 := by simpa using congrArg (fun q : ℍ[ℝ] => q.imI) hp
        have hy : (E t).y = 0 := by simpa using congrArg (fun q : ℍ[ℝ] => q.imJ) hp
        have hz : (E t).z = 0 := by simpa using congrArg (fun q : ℍ[ℝ] => q.imK) hp
        have hs : (0 : ℝ) < Real.sqrt dblEpsilon := by rw [sqrt_eps]; positivity
        rw [V3.rotvecDen, hp, smul_zero, NormedSpace.exp_zero]
        ext <;> simp [rotvec2quat, sinccos2, hx, hy, hz, hs, cosSeries2, horner3]
    rw [rotvecDiff2vel, e1, e2]
  refine ⟨qdiff2vel (Q t) d, hD.congr_deriv ?_, ?_, ?_⟩
  · rw [hw, hd, ← hQ, smul_mul_assoc, mul_assoc, (den_unit_mul (uQ t)).2, mul_one, smul_smul]
    norm_num
  · by_cases h1 : vnorm (E t) < 1 / 2 ^ 12
    · refine (qdiff2vel_close _ _ _ _).trans ?_
      rw [hQ, hd, nR, mul_one]
      have hs := diff2qdiff_small (E t) de h1
      have d0 := vnorm_nonneg de
      have e1 : ‖(rotvecDiff2qdiff (E t) de).den‖ * ‖(rotvec2quat (E t)).den - (E t).rotvecDen‖ ≤
          2 * vnorm de * (1 / 2 ^ 86) := mul_le_mul hs r2 (norm_nonneg _) (by positivity)
      have e2 : (2 * (2 * (1 / 2 ^ 86) + 1 / 2 ^ 80) : ℝ) * vnorm de ≤ 1 / 2 ^ 70 * vnorm de :=
        mul_le_mul_of_nonneg_right (by norm_num) d0
      linarith
    · have e := hx (Or.inl (not_lt.1 h1))
      rw [e, sub_self, norm_zero]
      exact mul_nonneg (by norm_num) (vnorm_nonneg de)
  · exact hx

/-- The hypotheses hold: a rotation vector that grows along its axis and turns. -/
example : V3.HasDeriv (fun s => (⟨s, s ^ 2, 1⟩ : V3)) ⟨1, 2, 0⟩ 1 := by
  refine V3.hasDeriv_iff.2 ⟨hasDerivAt_id _, ?_, hasDerivAt_const _ _⟩
  simpa using hasDerivAt_pow 2 (1 : ℝ)

/-- At the zero rotation vector the velocity is the rate. -/
example : rotvecDiff2vel ⟨0, 0, 0⟩ ⟨0, 0, 3⟩ = ⟨0, 0, 3⟩ := by
  have hs : (0 : ℝ) < Real.sqrt dblEpsilon := by rw [sqrt_eps]; positivity
  ext <;> simp [rotvecDiff2vel, rotvecDiff2qdiff, rotvec2quat, qdiff2vel, qmulcV, sinccos2, vdot, hs, sincSeries2,
    cosSeries2, horner3]

end Verif.Tf
