import Verif.Model.Tf
import Mathlib.Analysis.Quaternion
import Mathlib.LinearAlgebra.CrossProduct
import Mathlib.LinearAlgebra.Matrix.Determinant.Basic

/-!
# C21, C23: quaternion algebra and rotation by quaternions

Specification: Mathlib's real quaternions `ℍ[ℝ]`, their product, `star`, inverse and norm, and
Mathlib's dot and cross products on `Fin 3 → ℝ`.
-/

namespace Verif.Tf

open scoped Quaternion Matrix
open Quaternion

/-! ## Reading the arrays -/

/-- The quaternion that an array `x, y, z, w` denotes. -/
def Quat.den (q : Quat) : ℍ[ℝ] := ⟨q.w, q.x, q.y, q.z⟩

/-- The pure quaternion denoted by a vector. -/
def V3.pure (v : V3) : ℍ[ℝ] := ⟨0, v.x, v.y, v.z⟩

/-- The vector denoted by an array. -/
def V3.den (v : V3) : Fin 3 → ℝ := ![v.x, v.y, v.z]

@[simp] theorem Quat.den_re (q : Quat) : q.den.re = q.w := rfl
@[simp] theorem Quat.den_imI (q : Quat) : q.den.imI = q.x := rfl
@[simp] theorem Quat.den_imJ (q : Quat) : q.den.imJ = q.y := rfl
@[simp] theorem Quat.den_imK (q : Quat) : q.den.imK = q.z := rfl
@[simp] theorem V3.pure_re (v : V3) : v.pure.re = 0 := rfl
@[simp] theorem V3.pure_imI (v : V3) : v.pure.imI = v.x := rfl
@[simp] theorem V3.pure_imJ (v : V3) : v.pure.imJ = v.y := rfl
@[simp] theorem V3.pure_imK (v : V3) : v.pure.imK = v.z := rfl

theorem Quat.den_inj {a b : Quat} (h : a.den = b.den) : a = b := by
  have h0 := congrArg QuaternionAlgebra.re h
  have h1 := congrArg QuaternionAlgebra.imI h
  have h2 := congrArg QuaternionAlgebra.imJ h
  have h3 := congrArg QuaternionAlgebra.imK h
  ext <;> simpa using by assumption

theorem V3.den_inj {a b : V3} (h : a.den = b.den) : a = b := by
  have h0 := congrFun h 0
  have h1 := congrFun h 1
  have h2 := congrFun h 2
  cases a; cases b
  simp_all [V3.den]

theorem V3.pure_inj {a b : V3} (h : a.pure = b.pure) : a = b := by
  have h1 := congrArg QuaternionAlgebra.imI h
  have h2 := congrArg QuaternionAlgebra.imJ h
  have h3 := congrArg QuaternionAlgebra.imK h
  ext <;> simpa using by assumption

/-- A quaternion of norm one. -/
def Unit (q : Quat) : Prop := q.x ^ 2 + q.y ^ 2 + q.z ^ 2 + q.w ^ 2 = 1

theorem Unit.iff_norm (q : Quat) : Unit q ↔ ‖q.den‖ = 1 := by
  have h : ‖q.den‖ ^ 2 = q.x ^ 2 + q.y ^ 2 + q.z ^ 2 + q.w ^ 2 := by
    rw [sq, ← normSq_eq_norm_mul_self, normSq_def']
    simp only [Quat.den_re, Quat.den_imI, Quat.den_imJ, Quat.den_imK]
    ring
  constructor
  · intro hu
    rw [Unit, ← h] at hu
    have := norm_nonneg q.den
    nlinarith
  · intro hn
    rw [Unit, ← h, hn]
    norm_num

example : Unit ⟨1 / 2, 1 / 2, -1 / 2, 1 / 2⟩ := by norm_num [Unit]

/-! ## C21 -/

/-- C21: `aa_tf_qmul` is the quaternion product. -/
theorem C21_qmul (a b : Quat) : (qmul a b).den = a.den * b.den := by
  ext <;> simp [qmul] <;> ring

/-- C21: `aa_tf_qmul_a` adds the product to its last argument. -/
theorem C21_qmul_a (a b c : Quat) : (qmulA a b c).den = c.den + a.den * b.den := by
  ext <;> simp [qmulA] <;> ring

/-- C21: `aa_tf_qconj` is conjugation. -/
theorem C21_qconj (a : Quat) : (qconj a).den = star a.den := by
  ext <;> simp [qconj]

/-- C21: `aa_tf_qcmul` is `conj(a) b`, `aa_tf_qmulc` is `a conj(b)`, and `aa_tf_qmulc_v` the vector
part of the latter. -/
theorem C21_qcmul_qmulc (a b : Quat) :
    (qcmul a b).den = star a.den * b.den ∧ (qmulc a b).den = a.den * star b.den ∧
    (qmulcV a b).pure = (a.den * star b.den).im := by
  refine ⟨?_, ?_, ?_⟩
  · ext <;> simp [qcmul] <;> ring
  · ext <;> simp [qmulc, mkq, qmulcV] <;> ring
  · ext <;> simp [qmulcV] <;> ring

/-- C21: products with a vector (a pure quaternion) on either side. -/
theorem C21_vector_products (q : Quat) (v : V3) :
    (qmulVQ v q).den = v.pure * q.den ∧ (qmulQV q v).den = q.den * v.pure := by
  constructor
  · ext <;> simp [qmulVQ, vdot, Quat.vec] <;> ring
  · ext <;> simp [qmulQV, qmulQVv, mkq, vdot, Quat.vec] <;> ring

/-- C21: `aa_tf_qinv` is the inverse; in particular a two-sided inverse of every nonzero
quaternion. -/
theorem C21_qinv (a : Quat) : (qinv a).den = a.den⁻¹ := by
  rw [Quaternion.inv_def]
  have hn : normSq a.den = qdot a a := by
    rw [normSq_def']; simp only [Quat.den_re, Quat.den_imI, Quat.den_imJ, Quat.den_imK, qdot]; ring
  rw [hn]
  ext <;> simp [qinv, qconj] <;> ring

/-- C21: `aa_tf_qnorm` is the norm. -/
theorem C21_qnorm (a : Quat) : qnorm a = ‖a.den‖ := by
  rw [qnorm, ← Real.sqrt_mul_self (norm_nonneg a.den), ← normSq_eq_norm_mul_self, normSq_def']
  congr 1
  simp only [Quat.den_re, Quat.den_imI, Quat.den_imJ, Quat.den_imK, qdot]; ring

/-- C21: associativity, neutral identity, multiplicative norm, reversal by conjugation, and
inverses, all stated about the code's functions. -/
theorem C21_laws (a b c : Quat) :
    qmul (qmul a b) c = qmul a (qmul b c) ∧
    qmul qident a = a ∧ qmul a qident = a ∧
    qnorm (qmul a b) = qnorm a * qnorm b ∧
    qconj (qmul a b) = qmul (qconj b) (qconj a) ∧
    qcmul a b = qmul (qconj a) b ∧ qmulc a b = qmul a (qconj b) ∧
    (qnorm a ≠ 0 → qmul a (qinv a) = qident ∧ qmul (qinv a) a = qident) := by
  refine ⟨?_, ?_, ?_, ?_, ?_, ?_, ?_, ?_⟩
  · apply Quat.den_inj; simp only [C21_qmul]; exact mul_assoc _ _ _
  · cases a; simp [qmul, qident]
  · cases a; simp [qmul, qident]
  · simp only [C21_qnorm, C21_qmul, norm_mul]
  · apply Quat.den_inj; simp only [C21_qmul, C21_qconj, star_mul]
  · apply Quat.den_inj; rw [(C21_qcmul_qmulc a b).1, C21_qmul, C21_qconj]
  · apply Quat.den_inj; rw [(C21_qcmul_qmulc a b).2.1, C21_qmul, C21_qconj]
  · intro h
    rw [C21_qnorm, norm_ne_zero_iff] at h
    have h1 : qident.den = 1 := rfl
    constructor
    · apply Quat.den_inj; rw [C21_qmul, C21_qinv, h1, mul_inv_cancel₀ h]
    · apply Quat.den_inj; rw [C21_qmul, C21_qinv, h1, inv_mul_cancel₀ h]

example : qnorm ⟨1, 2, 3, 4⟩ ≠ 0 := by
  rw [qnorm]; exact (Real.sqrt_pos.mpr (by norm_num [qdot])).ne'

/-- C21: the left and right product matrices represent left and right multiplication. -/
theorem C21_qmatrix (a b : Quat) :
    (qmatrixL a).mulVec b = qmul a b ∧ (qmatrixR b).mulVec a = qmul a b := by
  constructor <;>
    (ext <;> simp [qmatrixL, qmatrixR, M4.mulVec, qmul, qadd, qscal] <;> ring)

/-- C21: `aa_tf_qnormalize` of a nonzero quaternion is a unit quaternion in the same direction,
and `aa_tf_qmulnorm` of unit quaternions is their product. -/
theorem C21_qnormalize (a : Quat) (h : qnorm a ≠ 0) :
    Unit (qnormalize a) ∧ qscal (qnormalize a) (qnorm a) = a := by
  constructor
  · have hs : qnorm a * qnorm a = qdot a a := by
      rw [qnorm, Real.mul_self_sqrt]
      simp only [qdot]; nlinarith [mul_self_nonneg a.x, mul_self_nonneg a.y, mul_self_nonneg a.z,
        mul_self_nonneg a.w]
    have h2 : qnorm a ^ 2 ≠ 0 := pow_ne_zero _ h
    simp only [Unit, qnormalize, div_pow]
    rw [← add_div, ← add_div, ← add_div, div_eq_one_iff_eq h2, sq (qnorm a), hs]
    simp only [qdot]; ring
  · cases a
    simp only [qscal, qnormalize]
    ext <;> simp only [] <;> exact div_mul_cancel₀ _ h

theorem C21_qmulnorm (a b : Quat) (ha : Unit a) (hb : Unit b) :
    qmulnorm a b = qmul a b ∧ Unit (qmul a b) := by
  rw [Unit.iff_norm] at ha hb
  have hn : ‖(qmul a b).den‖ = 1 := by rw [C21_qmul, norm_mul, ha, hb]; norm_num
  refine ⟨?_, (Unit.iff_norm _).2 hn⟩
  rw [qmulnorm, qnormalize, C21_qnorm, hn]
  simp

/-! ## C23 -/

/-- C23: rotating by a unit quaternion is conjugation `q v q*`, for both implementations. -/
theorem C23_qrot (q : Quat) (v : V3) (h : Unit q) :
    (qrot q v).pure = q.den * v.pure * star q.den ∧ qrot1 q v = qrot q v := by
  constructor
  · have hw : q.w ^ 2 = 1 - q.x ^ 2 - q.y ^ 2 - q.z ^ 2 := by rw [Unit] at h; linarith
    ext
    · simp [qrot]; ring
    · simp [qrot]; linear_combination (-v.x) * hw
    · simp [qrot]; linear_combination (-v.y) * hw
    · simp [qrot]; linear_combination (-v.z) * hw
  · ext <;> simp [qrot, qrot1, qmulQVv, crossA, Quat.vec] <;> ring

theorem den_unit_mul {q : Quat} (h : Unit q) :
    q.den * star q.den = 1 ∧ star q.den * q.den = 1 := by
  rw [Quaternion.self_mul_star, Quaternion.star_mul_self]
  rw [Unit.iff_norm] at h
  rw [normSq_eq_norm_mul_self, h]
  norm_num

/-- C23: rotation composes like the quaternion product. -/
theorem C23_compose (a b : Quat) (v : V3) (ha : Unit a) (hb : Unit b) :
    qrot (qmul a b) v = qrot a (qrot b v) := by
  apply V3.pure_inj
  rw [(C23_qrot _ _ (C21_qmulnorm a b ha hb).2).1, (C23_qrot _ _ ha).1, (C23_qrot _ _ hb).1,
    C21_qmul, star_mul]
  simp only [mul_assoc]

/-- C23: the conjugate undoes the rotation. -/
theorem C23_inverse (q : Quat) (v : V3) (h : Unit q) :
    qrot (qconj q) (qrot q v) = v ∧ qrot q (qrot (qconj q) v) = v := by
  have hc : Unit (qconj q) := by simpa [Unit, qconj] using h
  obtain ⟨h1, h2⟩ := den_unit_mul h
  constructor
  · apply V3.pure_inj
    rw [(C23_qrot _ _ hc).1, (C23_qrot _ _ h).1, C21_qconj, star_star]
    calc star q.den * (q.den * v.pure * star q.den) * q.den
        = (star q.den * q.den) * v.pure * (star q.den * q.den) := by simp only [mul_assoc]
      _ = v.pure := by rw [h2]; simp
  · apply V3.pure_inj
    rw [(C23_qrot _ _ h).1, (C23_qrot _ _ hc).1, C21_qconj, star_star]
    calc q.den * (star q.den * v.pure * q.den) * star q.den
        = (q.den * star q.den) * v.pure * (q.den * star q.den) := by simp only [mul_assoc]
      _ = v.pure := by rw [h1]; simp

/-- The code's dot and cross products are Mathlib's. -/
theorem vdot_eq (a b : V3) : vdot a b = a.den ⬝ᵥ b.den := by
  simp [vdot, V3.den, dotProduct, Fin.sum_univ_three]

theorem cross_eq (a b : V3) : (cross a b).den = crossProduct a.den b.den := by
  rw [cross_apply]
  simp [cross, V3.den]

/-- C23: a rotation preserves dot products (hence lengths and angles) and cross products (hence
handedness), and is linear. -/
theorem C23_rigid (q : Quat) (a b : V3) (h : Unit q) :
    (qrot q a).den ⬝ᵥ (qrot q b).den = a.den ⬝ᵥ b.den ∧
    crossProduct (qrot q a).den (qrot q b).den = (qrot q (cross a b)).den ∧
    (cross a b).den = crossProduct a.den b.den := by
  have hw : q.w ^ 2 = 1 - q.x ^ 2 - q.y ^ 2 - q.z ^ 2 := by rw [Unit] at h; linarith
  refine ⟨?_, ?_, cross_eq a b⟩
  · rw [← vdot_eq, ← vdot_eq]
    obtain ⟨x, y, z, w⟩ := q
    obtain ⟨a0, a1, a2⟩ := a
    obtain ⟨b0, b1, b2⟩ := b
    simp only [vdot, qrot] at *
    linear_combination (4 * ((a1 * b1 + a2 * b2) * x ^ 2 + (a0 * b0 + a2 * b2) * y ^ 2
      + (a0 * b0 + a1 * b1) * z ^ 2 - (a0 * b1 + a1 * b0) * x * y - (a0 * b2 + a2 * b0) * x * z
      - (a1 * b2 + a2 * b1) * y * z)) * hw
  · rw [← cross_eq]
    congr 1
    -- cross product through the commutator of pure quaternions
    have comm : ∀ u v : V3, (cross u v).pure = (1 / 2 : ℝ) • (u.pure * v.pure - v.pure * u.pure) := by
      intro u v
      ext <;> simp [cross] <;> ring
    apply V3.pure_inj
    rw [comm, (C23_qrot q a h).1, (C23_qrot q b h).1, (C23_qrot q _ h).1, comm]
    obtain ⟨_, h2⟩ := den_unit_mul h
    have key : ∀ u v : ℍ[ℝ], q.den * u * star q.den * (q.den * v * star q.den)
        = q.den * (u * v) * star q.den := by
      intro u v
      calc _ = q.den * u * (star q.den * q.den) * v * star q.den := by simp only [mul_assoc]
        _ = _ := by rw [h2]; simp only [mul_one, mul_assoc]
    rw [key, key, mul_smul_comm, smul_mul_assoc, mul_sub, sub_mul]

/-- C23: lengths are preserved. -/
theorem C23_norm (q : Quat) (a : V3) (h : Unit q) : vnorm (qrot q a) = vnorm a := by
  rw [vnorm, vnorm, vdot_eq, vdot_eq, (C23_rigid q a a h).1]

/-- C23: linearity. -/
theorem C23_linear (q : Quat) (a b : V3) (k : ℝ) :
    qrot q (vadd a b) = vadd (qrot q a) (qrot q b) ∧ qrot q (vscal k a) = vscal k (qrot q a) := by
  constructor <;> (ext <;> simp [qrot, vadd, vscal] <;> ring)

/-- A non-trivial rotation: 90 degrees about z takes x to y. -/
example : Unit ⟨0, 0, Real.sqrt 2 / 2, Real.sqrt 2 / 2⟩ ∧
    qrot ⟨0, 0, Real.sqrt 2 / 2, Real.sqrt 2 / 2⟩ ⟨1, 0, 0⟩ = ⟨0, 1, 0⟩ := by
  have h : Real.sqrt 2 * Real.sqrt 2 = 2 := Real.mul_self_sqrt (by norm_num)
  constructor
  · simp only [Unit]; nlinarith
  · ext <;> simp [qrot] <;> nlinarith

end Verif.Tf
