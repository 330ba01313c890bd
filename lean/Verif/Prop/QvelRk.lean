import Verif.Model.TfPde
import Verif.Prop.Vel
import Verif.Prop.Exp
import Verif.Proof.Taylor
import Verif.Proof.LnDeriv
import Mathlib.Analysis.SpecialFunctions.Exponential
import Mathlib.Analysis.Calculus.MeanValue

/-!
# C70: Runge-Kutta integration of a constant angular velocity

Specification: any path `Q` of quaternions starting at `q0` with angular velocity `v` at all times,
i.e. `Q' = ½ v Q` in Mathlib's quaternions.
-/

namespace Verif.Tf

open Quaternion NormedSpace

/-- `Q` moves with the constant angular velocity `v`. -/
def ConstVel (Q : ℝ → Quat) (v : V3) : Prop :=
  ∀ s, HasDerivAt (fun s => (Q s).den) ((1 / 2 : ℝ) • (v.pure * (Q s).den)) s

/-- The velocity determines the path. -/
theorem constVel_unique {Q : ℝ → Quat} {v : V3} (h : ConstVel Q v) (t : ℝ) :
    (Q t).den = exp ((t / 2) • v.pure) * (Q 0).den := by
  set X : ℍ[ℝ] := (-(1 / 2) : ℝ) • v.pure with hX
  have hE : ∀ s : ℝ, HasDerivAt (fun u : ℝ => exp (u • X)) (exp (s • X) * X) s :=
    fun s => hasDerivAt_exp_smul_const X s
  have hc : ∀ s, HasDerivAt (fun u => exp (u • X) * (Q u).den) 0 s := by
    intro s
    refine ((hE s).mul (h s)).congr_deriv ?_
    rw [hX]
    simp only [mul_assoc, mul_smul_comm, neg_smul]
    simp
  have hconst := is_const_of_deriv_eq_zero (fun s => (hc s).differentiableAt)
    (fun s => (hc s).deriv) t 0
  simp only [zero_smul, exp_zero, one_mul] at hconst
  rw [← hconst, ← mul_assoc]
  have ht : (t / 2) • v.pure = -(t • X) := by
    rw [hX, smul_smul, ← neg_smul]; congr 1; ring
  let _ : NormedAlgebra ℚ ℍ[ℝ] := NormedAlgebra.restrictScalars ℚ ℝ ℍ[ℝ]
  rw [ht, ← exp_add_of_commute (Commute.neg_left (Commute.refl _)), neg_add_cancel, exp_zero,
    one_mul]

/-- The step, as a pure quaternion. -/
noncomputable def halfStep (v : V3) (dt : ℝ) : V3 := ⟨dt / 2 * v.x, dt / 2 * v.y, dt / 2 * v.z⟩

theorem halfStep_pure (v : V3) (dt : ℝ) : (halfStep v dt).pure = (dt / 2) • v.pure := by
  ext <;> simp [halfStep]

theorem vnorm_halfStep (v : V3) (dt : ℝ) : vnorm (halfStep v dt) = vnorm v * |dt| / 2 := by
  rw [← norm_pure, halfStep_pure, norm_smul, norm_pure, Real.norm_eq_abs, abs_div,
    abs_of_pos (two_pos : (0 : ℝ) < 2)]
  ring

theorem pure_mul_self (v : V3) : v.pure * v.pure = ((-(vnorm v * vnorm v) : ℝ) : ℍ[ℝ]) := by
  rw [vnorm_sq]
  ext <;> simp [vdot] <;> ring

theorem qrk1_den (q d : Quat) (dt : ℝ) : (qrk1 q d dt).den = q.den + dt • d.den := by
  ext <;> simp [qrk1]

theorem qvelrk1_den (q : Quat) (v : V3) (dt : ℝ) :
    (qvelrk1 q v dt).den = (1 + (halfStep v dt).pure) * q.den := by
  rw [qvelrk1, qrk1_den, qvel2diff_den, halfStep_pure, add_mul, one_mul, smul_mul_assoc, smul_smul]
  congr 2

theorem qvelrk4_den (q : Quat) (v : V3) (dt : ℝ) :
    (qvelrk4 q v dt).den =
      (((1 - vnorm (halfStep v dt) ^ 2 / 2 + vnorm (halfStep v dt) ^ 4 / 24 : ℝ) : ℍ[ℝ]) +
        (1 - vnorm (halfStep v dt) ^ 2 / 6) • (halfStep v dt).pure) * q.den := by
  have e2 : vnorm (halfStep v dt) ^ 2 = (dt / 2) ^ 2 * vdot v v := by
    rw [vnorm_halfStep, div_pow, mul_pow, sq_abs, sq (vnorm v), vnorm_sq]; ring
  have e4 : vnorm (halfStep v dt) ^ 4 = ((dt / 2) ^ 2 * vdot v v) ^ 2 := by
    rw [← e2]; ring
  rw [e4, e2]
  generalize hc : 1 - (dt / 2) ^ 2 * vdot v v / 2 + ((dt / 2) ^ 2 * vdot v v) ^ 2 / 24 = c
  simp only [vdot] at hc
  ext <;>
  · simp [qvelrk4, qvelrk4Term, qrk1, qvel2diff, halfStep, vdot, qmulVQ, Quat.vec]
    rw [← hc]
    ring

theorem rk1_bound {x : ℝ} (h : 0 ≤ x) :
    |Real.cos x - 1| ≤ x ^ 2 / 2 ∧ |Real.sin x - x| ≤ x ^ 2 / 2 := by
  have c1 := Taylor.cos_ge2 h
  have c2 := Real.cos_le_one x
  have s1 := Taylor.sin_ge3 h
  have s2 := Real.sin_le h
  have s3 := Real.neg_one_le_sin x
  refine ⟨by rw [abs_le]; constructor <;> nlinarith, ?_⟩
  rw [abs_le]
  refine ⟨?_, by nlinarith⟩
  rcases le_total x 3 with h3 | h3
  · have : x ^ 3 ≤ 3 * x ^ 2 := by nlinarith [mul_nonneg h h]
    linarith
  · nlinarith

theorem rk4_bound {x : ℝ} (h : 0 ≤ x) :
    |Real.cos x - (1 - x ^ 2 / 2 + x ^ 4 / 24)| ≤ x ^ 5 / 120 ∧
    |Real.sin x - (1 - x ^ 2 / 6) * x| ≤ x ^ 5 / 120 := by
  have c1 := Taylor.cos_ge6 h
  have c2 := Taylor.cos_le4 h
  have c3 := Real.neg_one_le_cos x
  have s1 := Taylor.sin_ge3 h
  have s2 := Taylor.sin_le5 h
  have p5 := pow_nonneg h 5
  have p4 := pow_nonneg h 4
  refine ⟨?_, by rw [abs_le]; constructor <;> nlinarith⟩
  rw [abs_le]
  refine ⟨?_, by linarith⟩
  rcases le_total x 6 with h6 | h6
  · have : x ^ 6 ≤ 6 * x ^ 5 := by nlinarith
    linarith
  · have a : 6 * x ^ 4 ≤ x ^ 5 := by nlinarith
    have b : 36 ≤ x ^ 2 := by nlinarith
    nlinarith

theorem unit_norm {q : Quat} (h : Tf.Unit q) : ‖q.den‖ = 1 := (Unit.iff_norm q).1 h

/-- Difference between the exponential and a polynomial in the same pure quaternion. -/
theorem exp_sub_poly (v : V3) (c s : ℝ) :
    ‖((c : ℝ) : ℍ[ℝ]) + s • v.pure - exp v.pure‖ ≤
      |Real.cos (vnorm v) - c| + |Real.sin (vnorm v) - s * vnorm v| := by
  have e : ((c : ℝ) : ℍ[ℝ]) + s • v.pure - exp v.pure =
      ((c - Real.cos (vnorm v) : ℝ) : ℍ[ℝ]) + (s - Real.sin (vnorm v) / vnorm v) • v.pure := by
    rw [exp_pure]
    ext <;> simp <;> ring
  rw [e]
  refine (norm_cs _ _ _).trans (le_of_eq ?_)
  rw [abs_sub_comm]
  congr 1
  by_cases h : vnorm v = 0
  · simp [h]
  · rw [sub_mul, div_mul_cancel₀ _ h, abs_sub_comm]

/-- **C70** for `aa_tf_qvelrk1`: second-order local error. -/
theorem C70_qvelrk1 (Q : ℝ → Quat) (v : V3) (dt : ℝ) (h : ConstVel Q v) (hu : Tf.Unit (Q 0)) :
    ‖(qvelrk1 (Q 0) v dt).den - (Q dt).den‖ ≤ 1 / 4 * (vnorm v * |dt|) ^ 2 := by
  rw [constVel_unique h dt, qvelrk1_den, ← halfStep_pure, ← sub_mul, norm_mul, unit_norm hu, mul_one]
  have := exp_sub_poly (halfStep v dt) 1 1
  rw [one_smul, one_mul] at this
  refine (le_trans (by simpa using this)
    (add_le_add (rk1_bound (vnorm_nonneg _)).1 (rk1_bound (vnorm_nonneg _)).2)).trans (le_of_eq ?_)
  rw [vnorm_halfStep]; ring

/-- **C70** for `aa_tf_qvelrk4`: fifth-order local error. -/
theorem C70_qvelrk4 (Q : ℝ → Quat) (v : V3) (dt : ℝ) (h : ConstVel Q v) (hu : Tf.Unit (Q 0)) :
    ‖(qvelrk4 (Q 0) v dt).den - (Q dt).den‖ ≤ 1 / 1920 * (vnorm v * |dt|) ^ 5 := by
  rw [constVel_unique h dt, qvelrk4_den, ← halfStep_pure, ← sub_mul, norm_mul, unit_norm hu, mul_one]
  refine ((exp_sub_poly _ _ _).trans
    (add_le_add (rk4_bound (vnorm_nonneg _)).1 (rk4_bound (vnorm_nonneg _)).2)).trans (le_of_eq ?_)
  rw [vnorm_halfStep]; ring

/-- The hypotheses hold: rotation about `z` with velocity 2. -/
example : ConstVel (fun s => ⟨0, 0, Real.sin s, Real.cos s⟩) ⟨0, 0, 2⟩ ∧
    Tf.Unit (⟨0, 0, Real.sin 0, Real.cos 0⟩ : Quat) := by
  refine ⟨fun s => ?_, by simp [Tf.Unit]⟩
  have : Quat.HasDeriv (fun s => (⟨0, 0, Real.sin s, Real.cos s⟩ : Quat))
      ⟨0, 0, Real.cos s, -Real.sin s⟩ s :=
    Quat.hasDeriv_iff.2 ⟨hasDerivAt_const _ _, hasDerivAt_const _ _, Real.hasDerivAt_sin s,
      Real.hasDerivAt_cos s⟩
  refine HasDerivAt.congr_deriv this ?_
  ext <;> simp

end Verif.Tf
