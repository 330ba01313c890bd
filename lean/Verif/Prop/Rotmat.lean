import Verif.Prop.Quat
import Mathlib.LinearAlgebra.Matrix.Adjugate
import Mathlib.LinearAlgebra.UnitaryGroup

/-!
# C24, C25: quaternions and rotation matrices

Specification: Mathlib's `Matrix (Fin 3) (Fin 3) ℝ` and `Matrix.specialOrthogonalGroup`.
-/

namespace Verif.Tf

open scoped Quaternion Matrix
open Quaternion

/-- The matrix an array denotes: column major. -/
def M3.den (R : M3) : Matrix (Fin 3) (Fin 3) ℝ :=
  !![R.m0, R.m3, R.m6; R.m1, R.m4, R.m7; R.m2, R.m5, R.m8]

theorem M3.den_inj {A B : M3} (h : A.den = B.den) : A = B := by
  have e : ∀ i j, A.den i j = B.den i j := fun i j => by rw [h]
  have h00 := e 0 0
  have h01 := e 0 1
  have h02 := e 0 2
  have h10 := e 1 0
  have h11 := e 1 1
  have h12 := e 1 2
  have h20 := e 2 0
  have h21 := e 2 1
  have h22 := e 2 2
  simp [M3.den] at h00 h01 h02 h10 h11 h12 h20 h21 h22
  ext <;> assumption

/-- A rotation matrix: orthogonal with determinant one. -/
def IsRot (R : M3) : Prop := R.den ∈ Matrix.specialOrthogonalGroup (Fin 3) ℝ

/-- the scalar equations of a rotation matrix: orthonormal columns, orthonormal rows, and equality
with the cofactor matrix. -/
structure RotEqs (R : M3) : Prop where
  c00 : R.m0 * R.m0 + R.m1 * R.m1 + R.m2 * R.m2 = 1
  c11 : R.m3 * R.m3 + R.m4 * R.m4 + R.m5 * R.m5 = 1
  c22 : R.m6 * R.m6 + R.m7 * R.m7 + R.m8 * R.m8 = 1
  c01 : R.m0 * R.m3 + R.m1 * R.m4 + R.m2 * R.m5 = 0
  c02 : R.m0 * R.m6 + R.m1 * R.m7 + R.m2 * R.m8 = 0
  c12 : R.m3 * R.m6 + R.m4 * R.m7 + R.m5 * R.m8 = 0
  r00 : R.m0 * R.m0 + R.m3 * R.m3 + R.m6 * R.m6 = 1
  r11 : R.m1 * R.m1 + R.m4 * R.m4 + R.m7 * R.m7 = 1
  r22 : R.m2 * R.m2 + R.m5 * R.m5 + R.m8 * R.m8 = 1
  r01 : R.m0 * R.m1 + R.m3 * R.m4 + R.m6 * R.m7 = 0
  r02 : R.m0 * R.m2 + R.m3 * R.m5 + R.m6 * R.m8 = 0
  r12 : R.m1 * R.m2 + R.m4 * R.m5 + R.m7 * R.m8 = 0
  k0 : R.m4 * R.m8 - R.m7 * R.m5 = R.m0
  k1 : R.m6 * R.m5 - R.m3 * R.m8 = R.m1
  k2 : R.m3 * R.m7 - R.m6 * R.m4 = R.m2
  k3 : R.m7 * R.m2 - R.m1 * R.m8 = R.m3
  k4 : R.m0 * R.m8 - R.m6 * R.m2 = R.m4
  k5 : R.m6 * R.m1 - R.m0 * R.m7 = R.m5
  k6 : R.m1 * R.m5 - R.m4 * R.m2 = R.m6
  k7 : R.m3 * R.m2 - R.m0 * R.m5 = R.m7
  k8 : R.m0 * R.m4 - R.m3 * R.m1 = R.m8

theorem IsRot.eqs {R : M3} (h : IsRot R) : RotEqs R := by
  obtain ⟨ho, hd⟩ := Matrix.mem_specialOrthogonalGroup_iff.1 h
  have ho1 : R.den * R.denᵀ = 1 := (Matrix.mem_orthogonalGroup_iff _ _).1 ho
  have ho2 : R.denᵀ * R.den = 1 := by
    exact mul_eq_one_comm.1 ho1
  have ha : R.den.adjugate = R.denᵀ := by
    have := Matrix.mul_adjugate R.den
    rw [hd, one_smul] at this
    calc R.den.adjugate = (R.denᵀ * R.den) * R.den.adjugate := by rw [ho2, one_mul]
      _ = R.denᵀ := by rw [mul_assoc, this, mul_one]
  have e1 : ∀ i j, (R.den * R.denᵀ) i j = (1 : Matrix (Fin 3) (Fin 3) ℝ) i j := by simp [ho1]
  have e2 : ∀ i j, (R.denᵀ * R.den) i j = (1 : Matrix (Fin 3) (Fin 3) ℝ) i j := by simp [ho2]
  have e3 : ∀ i j, R.den.adjugate i j = R.denᵀ i j := by simp [ha]
  simp only [M3.den, Matrix.adjugate_fin_three, Matrix.mul_apply, Fin.sum_univ_three] at e1 e2 e3
  constructor
  · simpa using e2 0 0
  · simpa using e2 1 1
  · simpa using e2 2 2
  · simpa using e2 0 1
  · simpa using e2 0 2
  · simpa using e2 1 2
  · simpa using e1 0 0
  · simpa using e1 1 1
  · simpa using e1 2 2
  · simpa using e1 0 1
  · simpa using e1 0 2
  · simpa using e1 1 2
  · have := e3 0 0; simp at this; linarith
  · have := e3 0 1; simp at this; linarith
  · have := e3 0 2; simp at this; linarith
  · have := e3 1 0; simp at this; linarith
  · have := e3 1 1; simp at this; linarith
  · have := e3 1 2; simp at this; linarith
  · have := e3 2 0; simp at this; linarith
  · have := e3 2 1; simp at this; linarith
  · have := e3 2 2; simp at this; linarith

/-! ## C24 -/

/-- The code's matrix-vector and matrix-matrix products and transpose are Mathlib's. -/
theorem C24_matrix_ops (A B : M3) (v : V3) :
    (rot9 A v).den = A.den *ᵥ v.den ∧ (mul9 A B).den = A.den * B.den ∧
    (transp A).den = A.denᵀ := by
  refine ⟨?_, ?_, ?_⟩
  · ext i; fin_cases i <;>
      simp [rot9, V3.den, M3.den, Matrix.mulVec, dotProduct, Fin.sum_univ_three]
  · ext i j; fin_cases i <;> fin_cases j <;>
      simp [mul9, M3.den, Matrix.mul_apply, Fin.sum_univ_three]
  · ext i j; fin_cases i <;> fin_cases j <;> simp [transp, M3.den]

/-- C24: the matrix acts on vectors exactly as the quaternion does (no unit hypothesis needed). -/
theorem C24_acts (q : Quat) (v : V3) : (quat2rotmat q).den *ᵥ v.den = (qrot q v).den := by
  rw [← (C24_matrix_ops (quat2rotmat q) m3ident v).1]
  congr 1
  ext <;> simp [rot9, quat2rotmat, skewsymScalC, qrot, Quat.vec] <;> ring

/-- two matrices acting alike are equal. -/
theorem M3.ext_rot {A B : M3} (h : ∀ v, rot9 A v = rot9 B v) : A = B := by
  have h0 := h ⟨1, 0, 0⟩
  have h1 := h ⟨0, 1, 0⟩
  have h2 := h ⟨0, 0, 1⟩
  simp only [rot9, V3.mk.injEq, mul_one, mul_zero, add_zero, zero_add] at h0 h1 h2
  ext <;> tauto

theorem rot9_quat2rotmat (q : Quat) (v : V3) : rot9 (quat2rotmat q) v = qrot q v := by
  apply V3.den_inj
  rw [(C24_matrix_ops _ m3ident _).1, C24_acts]

theorem rot9_mul9 (A B : M3) (v : V3) : rot9 (mul9 A B) v = rot9 A (rot9 B v) := by
  ext <;> simp [rot9, mul9] <;> ring

/-- C24: products go to products. -/
theorem C24_hom (a b : Quat) (ha : Unit a) (hb : Unit b) :
    (quat2rotmat (qmul a b)).den = (quat2rotmat a).den * (quat2rotmat b).den := by
  rw [← (C24_matrix_ops _ _ ⟨0, 0, 0⟩).2.1]
  congr 1
  apply M3.ext_rot
  intro v
  rw [rot9_mul9, rot9_quat2rotmat, rot9_quat2rotmat, rot9_quat2rotmat, C23_compose a b v ha hb]

/-- C24: conjugation goes to transposition. -/
theorem C24_conj (q : Quat) : (quat2rotmat (qconj q)).den = (quat2rotmat q).denᵀ := by
  rw [← (C24_matrix_ops _ m3ident ⟨0, 0, 0⟩).2.2]
  congr 1
  ext <;> simp [quat2rotmat, transp, skewsymScalC, Quat.vec, qconj] <;> ring

/-- C24: the result is in SO(3). -/
theorem C24_isRot (q : Quat) (h : Unit q) : IsRot (quat2rotmat q) := by
  rw [IsRot, Matrix.mem_specialOrthogonalGroup_iff, Matrix.mem_orthogonalGroup_iff]
  have hw : q.w ^ 2 = 1 - q.x ^ 2 - q.y ^ 2 - q.z ^ 2 := by rw [Unit] at h; linarith
  constructor
  · have hc : Unit (qconj q) := by simpa [Unit, qconj] using h
    rw [← C24_conj, ← C24_hom q _ h hc]
    have e : qmul q (qconj q) = qident := by
      apply Quat.den_inj
      rw [C21_qmul, C21_qconj, (den_unit_mul h).1]; rfl
    rw [e]
    ext i j; fin_cases i <;> fin_cases j <;>
      simp [M3.den, quat2rotmat, skewsymScalC, qident, Quat.vec]
  · rw [Matrix.det_fin_three]
    simp only [M3.den, quat2rotmat, skewsymScalC, Quat.vec, Matrix.of_apply, Matrix.cons_val',
      Matrix.cons_val_zero, Matrix.cons_val_one, Matrix.cons_val, Matrix.cons_val_fin_one]
    obtain ⟨x, y, z, w⟩ := q
    simp only at *
    linear_combination (4 * x ^ 2 + 4 * y ^ 2 + 4 * z ^ 2) * hw

theorem four_sq_zero (a b c d : ℝ) (h : a ^ 2 + b ^ 2 + c ^ 2 + d ^ 2 = 0) :
    a = 0 ∧ b = 0 ∧ c = 0 ∧ d = 0 := by
  refine ⟨?_, ?_, ?_, ?_⟩ <;> apply pow_eq_zero_iff (two_ne_zero) |>.1 <;>
    linarith [sq_nonneg a, sq_nonneg b, sq_nonneg c, sq_nonneg d]

/-- C24: exactly `q` and `-q` give the same matrix. -/
theorem C24_two_to_one (a b : Quat) (ha : Unit a) (hb : Unit b) :
    quat2rotmat a = quat2rotmat b ↔ a = b ∨ a.den = -b.den := by
  constructor
  · intro h
    obtain ⟨x, y, z, w⟩ := a
    obtain ⟨p, q, r, s⟩ := b
    simp only [Unit] at ha hb
    simp only [quat2rotmat, skewsymScalC, Quat.vec, M3.mk.injEq] at h
    obtain ⟨h0, h1, h2, h3, h4, h5, h6, h7, h8⟩ := h
    have xx : x * x = p * p := by linarith
    have yy : y * y = q * q := by linarith
    have zz : z * z = r * r := by linarith
    have ww : w * w = s * s := by nlinarith
    have xy : x * y = p * q := by linarith
    have xz : x * z = p * r := by linarith
    have yz : y * z = q * r := by linarith
    have wx : w * x = s * p := by linarith
    have wy : w * y = s * q := by linarith
    have wz : w * z = s * r := by linarith
    have hd : (x * p + y * q + z * r + w * s) ^ 2 = 1 := by
      have : (x * p + y * q + z * r + w * s) ^ 2 =
          (x ^ 2 + y ^ 2 + z ^ 2 + w ^ 2) * (p ^ 2 + q ^ 2 + r ^ 2 + s ^ 2) := by
        linear_combination 2 * (p * q) * xy + 2 * (p * r) * xz + 2 * (q * r) * yz + 2 * (s * p) * wx
          + 2 * (s * q) * wy + 2 * (s * r) * wz
          - (p * p) * yy - (q * q) * xx - (p * p) * zz - (r * r) * xx
          - (q * q) * zz - (r * r) * yy - (s * s) * xx - (p * p) * ww - (s * s) * yy
          - (q * q) * ww - (s * s) * zz - (r * r) * ww
      rw [this, ha, hb]; norm_num
    rcases mul_self_eq_one_iff.1 ((sq _).symm.trans hd) with hp | hn
    · left
      have := four_sq_zero (x - p) (y - q) (z - r) (w - s) (by linear_combination ha + hb - 2 * hp)
      ext <;> simp only [] <;> linarith [this.1, this.2.1, this.2.2.1, this.2.2.2]
    · right
      have := four_sq_zero (x + p) (y + q) (z + r) (w + s) (by linear_combination ha + hb + 2 * hn)
      ext <;> simp <;> linarith [this.1, this.2.1, this.2.2.1, this.2.2.2]
  · rintro (h | h)
    · rw [h]
    · have e1 := congrArg QuaternionAlgebra.re h
      have e2 := congrArg QuaternionAlgebra.imI h
      have e3 := congrArg QuaternionAlgebra.imJ h
      have e4 := congrArg QuaternionAlgebra.imK h
      simp at e1 e2 e3 e4
      ext <;> simp [quat2rotmat, skewsymScalC, Quat.vec, e1, e2, e3, e4]

/-- C24 instance: a unit quaternion with four nonzero entries, its negation and a third one. -/
example : Unit ⟨1 / 2, 1 / 2, 1 / 2, 1 / 2⟩ ∧ Unit ⟨3 / 5, 0, 0, 4 / 5⟩ ∧
    quat2rotmat ⟨1 / 2, 1 / 2, 1 / 2, 1 / 2⟩ = ⟨0, 1, 0, 0, 0, 1, 1, 0, 0⟩ := by
  refine ⟨by norm_num [Unit], by norm_num [Unit], ?_⟩
  ext <;> norm_num [quat2rotmat, skewsymScalC, Quat.vec]

/-! ## C25 -/

/-- the rank one identities of the matrix `4 q qᵀ` written with the entries of `R`. -/
structure RankOne (R : M3) (tx ty tz tw xy xz yz wx wy wz : ℝ) : Prop where
  hxy2 : xy * xy = tx * ty
  hxz2 : xz * xz = tx * tz
  hyz2 : yz * yz = ty * tz
  hwx2 : wx * wx = tw * tx
  hwy2 : wy * wy = tw * ty
  hwz2 : wz * wz = tw * tz
  w1 : wx * wy = tw * xy
  w2 : wx * wz = tw * xz
  w3 : wy * wz = tw * yz
  x1 : xy * xz = tx * yz
  x2 : xy * wx = tx * wy
  x3 : xz * wx = tx * wz
  y1 : xy * yz = ty * xz
  y2 : xy * wy = ty * wx
  y3 : yz * wy = ty * wz
  z1 : xz * yz = tz * xy
  z2 : xz * wz = tz * wx
  z3 : yz * wz = tz * wy

theorem RotEqs.rankOne {R : M3} (h : RotEqs R) :
    RankOne R (1 + R.m0 - R.m4 - R.m8) (1 + R.m4 - R.m8 - R.m0) (1 + R.m8 - R.m0 - R.m4)
      (R.m0 + R.m4 + R.m8 + 1) (R.m3 + R.m1) (R.m2 + R.m6) (R.m7 + R.m5) (R.m5 - R.m7)
      (R.m6 - R.m2) (R.m1 - R.m3) := by
  obtain ⟨c00, c11, c22, c01, c02, c12, r00, r11, r22, r01, r02, r12, k0, k1, k2, k3, k4, k5, k6,
    k7, k8⟩ := h
  constructor <;> linarith

/-- the quaternion's products determine its matrix. -/
theorem rotmat_of_products {R : M3} {q : Quat}
    (xx : 4 * (q.x * q.x) = 1 + R.m0 - R.m4 - R.m8) (yy : 4 * (q.y * q.y) = 1 + R.m4 - R.m8 - R.m0)
    (zz : 4 * (q.z * q.z) = 1 + R.m8 - R.m0 - R.m4) (ww : 4 * (q.w * q.w) = R.m0 + R.m4 + R.m8 + 1)
    (xy : 4 * (q.x * q.y) = R.m3 + R.m1) (xz : 4 * (q.x * q.z) = R.m2 + R.m6)
    (yz : 4 * (q.y * q.z) = R.m7 + R.m5) (wx : 4 * (q.w * q.x) = R.m5 - R.m7)
    (wy : 4 * (q.w * q.y) = R.m6 - R.m2) (wz : 4 * (q.w * q.z) = R.m1 - R.m3) :
    Unit q ∧ quat2rotmat q = R := by
  constructor
  · rw [Unit]; linarith
  · ext <;> simp only [quat2rotmat, skewsymScalC, Quat.vec] <;> linarith

theorem half_inv_sqrt {t : ℝ} (ht : 0 < t) :
    Real.sqrt t * (0.5 / Real.sqrt t) = 1 / 2 ∧ Real.sqrt t * Real.sqrt t = t ∧
    4 * t * ((0.5 / Real.sqrt t) * (0.5 / Real.sqrt t)) = 1 := by
  have hr : 0 < Real.sqrt t := Real.sqrt_pos.2 ht
  have h2 : Real.sqrt t * Real.sqrt t = t := Real.mul_self_sqrt ht.le
  refine ⟨by field_simp; norm_num, h2, ?_⟩
  rw [div_mul_div_comm, h2]
  field_simp; norm_num

/-- the four closed forms of the method, each valid when its pivot is positive. -/
theorem rotmat_pivots {R : M3} (h : RotEqs R) :
    (0 < R.m0 + R.m4 + R.m8 + 1 →
      let r := Real.sqrt (R.m0 + R.m4 + R.m8 + 1)
      let s := 0.5 / r
      let q : Quat := ⟨(R.m5 - R.m7) * s, (R.m6 - R.m2) * s, (R.m1 - R.m3) * s, r / 2⟩
      Unit q ∧ quat2rotmat q = R) ∧
    (0 < 1 + R.m0 - R.m4 - R.m8 → Unit (rotmatQ0 R) ∧ quat2rotmat (rotmatQ0 R) = R) ∧
    (0 < 1 + R.m4 - R.m8 - R.m0 → Unit (rotmatQ1 R) ∧ quat2rotmat (rotmatQ1 R) = R) ∧
    (0 < 1 + R.m8 - R.m0 - R.m4 → Unit (rotmatQ2 R) ∧ quat2rotmat (rotmatQ2 R) = R) := by
  have k := h.rankOne
  refine ⟨?_, ?_, ?_, ?_⟩
  · intro ht
    obtain ⟨rs, rr, ss⟩ := half_inv_sqrt ht
    intro r s
    change r * s = _ at rs
    change r * r = _ at rr
    change _ * (s * s) = _ at ss
    apply rotmat_of_products <;> simp only
    · linear_combination 4 * s * s * k.hwx2 + (1 + R.m0 - R.m4 - R.m8) * ss
    · linear_combination 4 * s * s * k.hwy2 + (1 + R.m4 - R.m8 - R.m0) * ss
    · linear_combination 4 * s * s * k.hwz2 + (1 + R.m8 - R.m0 - R.m4) * ss
    · linear_combination rr
    · linear_combination 4 * s * s * k.w1 + (R.m3 + R.m1) * ss
    · linear_combination 4 * s * s * k.w2 + (R.m2 + R.m6) * ss
    · linear_combination 4 * s * s * k.w3 + (R.m7 + R.m5) * ss
    · linear_combination 2 * (R.m5 - R.m7) * rs
    · linear_combination 2 * (R.m6 - R.m2) * rs
    · linear_combination 2 * (R.m1 - R.m3) * rs
  · intro ht
    obtain ⟨rs, rr, ss⟩ := half_inv_sqrt ht
    unfold rotmatQ0
    generalize Real.sqrt (1 + R.m0 - R.m4 - R.m8) = r at *
    simp only
    generalize 0.5 / r = s at *
    apply rotmat_of_products <;> simp only
    · linear_combination rr
    · linear_combination 4 * s * s * k.hxy2 + (1 + R.m4 - R.m8 - R.m0) * ss
    · linear_combination 4 * s * s * k.hxz2 + (1 + R.m8 - R.m0 - R.m4) * ss
    · linear_combination 4 * s * s * k.hwx2 + (R.m0 + R.m4 + R.m8 + 1) * ss
    · linear_combination 2 * (R.m3 + R.m1) * rs
    · linear_combination 2 * (R.m2 + R.m6) * rs
    · linear_combination 4 * s * s * k.x1 + (R.m7 + R.m5) * ss
    · linear_combination 2 * (R.m5 - R.m7) * rs
    · linear_combination 4 * s * s * k.x2 + (R.m6 - R.m2) * ss
    · linear_combination 4 * s * s * k.x3 + (R.m1 - R.m3) * ss
  · intro ht
    obtain ⟨rs, rr, ss⟩ := half_inv_sqrt ht
    unfold rotmatQ1
    generalize Real.sqrt (1 + R.m4 - R.m8 - R.m0) = r at *
    simp only
    generalize 0.5 / r = s at *
    apply rotmat_of_products <;> simp only
    · linear_combination 4 * s * s * k.hxy2 + (1 + R.m0 - R.m4 - R.m8) * ss
    · linear_combination rr
    · linear_combination 4 * s * s * k.hyz2 + (1 + R.m8 - R.m0 - R.m4) * ss
    · linear_combination 4 * s * s * k.hwy2 + (R.m0 + R.m4 + R.m8 + 1) * ss
    · linear_combination 2 * (R.m3 + R.m1) * rs
    · linear_combination 4 * s * s * k.y1 + (R.m2 + R.m6) * ss
    · linear_combination 2 * (R.m7 + R.m5) * rs
    · linear_combination 4 * s * s * k.y2 + (R.m5 - R.m7) * ss
    · linear_combination 2 * (R.m6 - R.m2) * rs
    · linear_combination 4 * s * s * k.y3 + (R.m1 - R.m3) * ss
  · intro ht
    obtain ⟨rs, rr, ss⟩ := half_inv_sqrt ht
    unfold rotmatQ2
    generalize Real.sqrt (1 + R.m8 - R.m0 - R.m4) = r at *
    simp only
    generalize 0.5 / r = s at *
    apply rotmat_of_products <;> simp only
    · linear_combination 4 * s * s * k.hxz2 + (1 + R.m0 - R.m4 - R.m8) * ss
    · linear_combination 4 * s * s * k.hyz2 + (1 + R.m4 - R.m8 - R.m0) * ss
    · linear_combination rr
    · linear_combination 4 * s * s * k.hwz2 + (R.m0 + R.m4 + R.m8 + 1) * ss
    · linear_combination 4 * s * s * k.z1 + (R.m3 + R.m1) * ss
    · linear_combination 2 * (R.m2 + R.m6) * rs
    · linear_combination 2 * (R.m7 + R.m5) * rs
    · linear_combination 4 * s * s * k.z2 + (R.m5 - R.m7) * ss
    · linear_combination 4 * s * s * k.z3 + (R.m6 - R.m2) * ss
    · linear_combination 2 * (R.m1 - R.m3) * rs

/-- the largest diagonal entry is a safe pivot when the trace is not positive. -/
theorem rotmatQ_spec {R : M3} (h : RotEqs R) (ht : ¬ R.m0 + R.m4 + R.m8 > 0) :
    Unit (rotmatQ R) ∧ quat2rotmat (rotmatQ R) = R := by
  obtain ⟨_, p0, p1, p2⟩ := rotmat_pivots h
  push Not at ht
  unfold rotmatQ
  split_ifs with h1 h2 h3
  · exact p2 (by linarith)
  · exact p1 (by linarith)
  · exact p2 (by linarith)
  · exact p0 (by linarith)

theorem qminimize_spec (q : Quat) :
    (Unit q → Unit (qminimize q)) ∧ quat2rotmat (qminimize q) = quat2rotmat q ∧
    0 ≤ (qminimize q).w ∧ (qminimize q = q ∨ (qminimize q).den = -q.den) := by
  unfold qminimize
  split_ifs with h
  · refine ⟨fun hu => by simpa [Unit] using hu, ?_, by simpa using h.le, Or.inr ?_⟩
    · ext <;> simp [quat2rotmat, skewsymScalC, Quat.vec]
    · ext <;> simp
  · exact ⟨id, rfl, not_lt.1 h, Or.inl rfl⟩

theorem qnormalize_unit {q : Quat} (h : Unit q) : qnormalize q = q := by
  have hn : qnorm q = 1 := by
    rw [Unit] at h
    have : qdot q q = 1 := by simp only [qdot]; linarith
    simp [qnorm, this]
  ext <;> simp [qnormalize, hn]

/-- C25: for every rotation matrix, every branch of `aa_tf_rotmat2quat` returns a unit quaternion
with nonnegative scalar part that converts back to exactly that matrix. -/
theorem C25_rotmat2quat (R : M3) (h : IsRot R) :
    Unit (rotmat2quat R) ∧ quat2rotmat (rotmat2quat R) = R ∧ 0 ≤ (rotmat2quat R).w := by
  have he := h.eqs
  unfold rotmat2quat
  simp only
  split_ifs with ht
  · have := (rotmat_pivots he).1 (by linarith)
    rw [qnormalize_unit this.1]
    refine ⟨this.1, this.2, ?_⟩
    positivity
  · obtain ⟨hu, hr⟩ := rotmatQ_spec he ht
    obtain ⟨m1, m2, m3, _⟩ := qminimize_spec (rotmatQ R)
    rw [qnormalize_unit (m1 hu)]
    exact ⟨m1 hu, m2.trans hr, m3⟩

/-- Division that records a zero divisor as an error. -/
noncomputable def cdiv (a b : ℝ) : Option ℝ := if b = 0 then none else some (a / b)

/-- src/tf.c:254-291 `aa_tf_rotmat2quat` with every division checked (`0.5 / r` of the branch taken,
and the norm in `aa_tf_qnormalize`). -/
noncomputable def rotmat2quatChecked (R : M3) : Option Quat := do
  let trace := R.m0 + R.m4 + R.m8
  let q ← if trace > 0 then do
      let r := Real.sqrt (trace + 1)
      let s ← cdiv 0.5 r
      some (⟨(R.m5 - R.m7) * s, (R.m6 - R.m2) * s, (R.m1 - R.m3) * s, r / 2⟩ : Quat)
    else do
      let x := if R.m0 < R.m4 then (if R.m4 < R.m8 then 1 + R.m8 - R.m0 - R.m4
          else 1 + R.m4 - R.m8 - R.m0)
        else (if R.m0 < R.m8 then 1 + R.m8 - R.m0 - R.m4 else 1 + R.m0 - R.m4 - R.m8)
      let _ ← cdiv 0.5 (Real.sqrt x)
      some (qminimize (rotmatQ R))
  let _ ← cdiv 1 (qnorm q)
  some (qnormalize q)

/-- C25: for every rotation matrix no division in the branch taken has a zero divisor. -/
theorem C25_no_division_by_zero (R : M3) (h : IsRot R) :
    rotmat2quatChecked R = some (rotmat2quat R) := by
  have he := h.eqs
  have cd : ∀ a b : ℝ, 0 < b → cdiv a b = some (a / b) := fun a b hb => if_neg hb.ne'
  have hn : ∀ q : Quat, Unit q → 0 < qnorm q := by
    intro q hq
    have e : qdot q q = 1 := by
      have : q.x ^ 2 + q.y ^ 2 + q.z ^ 2 + q.w ^ 2 = 1 := hq
      unfold qdot; linarith
    unfold qnorm
    rw [e, Real.sqrt_one]; exact one_pos
  unfold rotmat2quatChecked rotmat2quat
  simp only
  split_ifs with ht h1 h2 h3
  · have := (rotmat_pivots he).1 (by linarith)
    rw [cd _ _ (Real.sqrt_pos.2 (by linarith))]
    simp only [Option.bind_eq_bind, Option.bind_some]
    rw [cd _ _ (hn _ this.1)]
    rfl
  all_goals
    obtain ⟨hu, -⟩ := rotmatQ_spec he ht
    rw [cd _ _ (Real.sqrt_pos.2 (by linarith))]
    simp only [Option.bind_eq_bind, Option.bind_some]
    rw [cd _ _ (hn _ ((qminimize_spec (rotmatQ R)).1 hu))]
    rfl

/-- C25: from a unit quaternion to the matrix and back gives the quaternion up to sign; with a
positive scalar part it gives the quaternion itself. -/
theorem C25_roundtrip (q : Quat) (h : Unit q) :
    (rotmat2quat (quat2rotmat q) = q ∨ (rotmat2quat (quat2rotmat q)).den = -q.den) ∧
    (0 < q.w → rotmat2quat (quat2rotmat q) = q) := by
  obtain ⟨hu, hr, hw⟩ := C25_rotmat2quat _ (C24_isRot q h)
  have := (C24_two_to_one _ _ hu h).1 hr
  refine ⟨this, fun hp => ?_⟩
  rcases this with e | e
  · exact e
  · have := congrArg QuaternionAlgebra.re e
    simp at this
    linarith

/-- C24/C25: every rotation matrix comes from a unit quaternion, unique up to sign. -/
theorem C25_surjective (R : M3) (h : IsRot R) :
    ∃ q, Unit q ∧ quat2rotmat q = R ∧
      ∀ p, Unit p → quat2rotmat p = R → p = q ∨ p.den = -q.den := by
  obtain ⟨hu, hr, _⟩ := C25_rotmat2quat R h
  exact ⟨_, hu, hr, fun p hp hpr => (C24_two_to_one p _ hp hu).1 (hpr.trans hr.symm)⟩

/-- C25 instance: a half turn about an oblique axis, where the trace branch is not taken. -/
example : ∃ R, IsRot R ∧ R.m0 + R.m4 + R.m8 = -1 ∧ R.m0 < R.m4 := by
  refine ⟨quat2rotmat ⟨3 / 5, 4 / 5, 0, 0⟩, C24_isRot _ (by norm_num [Unit]), ?_, ?_⟩ <;>
    norm_num [quat2rotmat, skewsymScalC, Quat.vec]

end Verif.Tf
