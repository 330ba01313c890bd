import Verif.Model.Tfp
import Mathlib.Analysis.SpecialFunctions.Complex.Arg
import Mathlib.LinearAlgebra.Matrix.Notation
import Mathlib.LinearAlgebra.Matrix.Determinant.Basic
import Mathlib.Tactic.FinCases

/-!
# C65: planar rigid motions

Specification: the plane is Mathlib's `ℂ`; the motion with rotation `z` (`‖z‖ = 1`) and translation
`t` is `p ↦ z * p + t`; a matrix acts by Mathlib's `Matrix.mulVec`.
-/

namespace Verif.Tfp

open Matrix

/-! ## Reading the arrays -/

def Cx.den (c : Cx) : ℂ := ⟨c.re, c.im⟩

def Cx.vec (c : Cx) : Fin 2 → ℝ := ![c.re, c.im]

/-- Column major. -/
def R2.den (R : R2) : Matrix (Fin 2) (Fin 2) ℝ := !![R.m0, R.m2; R.m1, R.m3]

/-- The homogeneous matrix of a transformation array. -/
def T2.den (T : T2) : Matrix (Fin 3) (Fin 3) ℝ :=
  !![T.R.m0, T.R.m2, T.v.re; T.R.m1, T.R.m3, T.v.im; 0, 0, 1]

/-- A planar rotation matrix: orthogonal of determinant one. -/
def R2.Rot (R : R2) : Prop := R.den.transpose * R.den = 1 ∧ R.den.det = 1

/-- A unit complex number. -/
def Cx.Unit (c : Cx) : Prop := ‖c.den‖ = 1

/-- The motion of the plane with rotation `z` and translation `t`. -/
def motion (z t p : ℂ) : ℂ := z * p + t

theorem Cx.den_inj {a b : Cx} (h : a.den = b.den) : a = b := by
  have h1 := congrArg Complex.re h
  have h2 := congrArg Complex.im h
  cases a; cases b; simp_all [Cx.den]

theorem Cx.unit_iff (c : Cx) : c.Unit ↔ c.re ^ 2 + c.im ^ 2 = 1 := by
  unfold Cx.Unit
  rw [← sq_eq_sq₀ (norm_nonneg _) (by norm_num), Complex.sq_norm, Complex.normSq_apply]
  simp only [Cx.den]
  constructor <;> intro h <;> nlinarith

theorem R2.rot_iff (R : R2) : R.Rot ↔ ∃ c : Cx, c.Unit ∧ R = cmplx2rotmatp c := by
  constructor
  · rintro ⟨ho, hd⟩
    have e0 := congrFun (congrFun ho 0) 0
    have e1 := congrFun (congrFun ho 0) 1
    have e3 := congrFun (congrFun ho 1) 1
    simp [R2.den, Matrix.mul_apply, Fin.sum_univ_two] at e0 e1 e3
    simp [R2.den, Matrix.det_fin_two] at hd
    refine ⟨⟨R.m0, R.m1⟩, ?_, ?_⟩
    · rw [Cx.unit_iff]; simp only; nlinarith
    · have h1 : (R.m0 - R.m3) ^ 2 + (R.m1 + R.m2) ^ 2 = 0 := by nlinarith
      have h2 : R.m0 - R.m3 = 0 := by nlinarith [sq_nonneg (R.m0 - R.m3), sq_nonneg (R.m1 + R.m2)]
      have h3 : R.m1 + R.m2 = 0 := by nlinarith [sq_nonneg (R.m0 - R.m3), sq_nonneg (R.m1 + R.m2)]
      ext <;> simp [cmplx2rotmatp] <;> linarith
  · rintro ⟨c, hc, rfl⟩
    rw [Cx.unit_iff] at hc
    constructor
    · ext i j
      fin_cases i <;> fin_cases j <;>
        simp [R2.den, cmplx2rotmatp, Matrix.mul_apply, Fin.sum_univ_two] <;> nlinarith
    · simp [R2.den, cmplx2rotmatp, Matrix.det_fin_two]; nlinarith

/-! ## Applying -/

/-- **C65**: rotating by a complex number multiplies by it; transforming by a complex number and a
vector is the motion they denote. -/
theorem C65_apply_complex (c v p : Cx) :
    (crot c p).den = motion c.den 0 p.den ∧ (cvTf c v p).den = motion c.den v.den p.den := by
  constructor <;> apply Complex.ext <;>
    simp [crot, cprod, cvTf, Cx.den, motion] <;> ring

/-- **C65**: the array forms apply the matrix they denote. -/
theorem C65_apply_matrix (R : R2) (T : T2) (p : Cx) :
    (rotmatpRot R p).vec = R.den *ᵥ p.vec ∧
      (tfmatpTf T p).vec = T.R.den *ᵥ p.vec + T.v.vec := by
  constructor <;> ext i <;> fin_cases i <;>
    simp [rotmatpRot, tfmatpTf, Cx.vec, R2.den, Matrix.mulVec, dotProduct, Fin.sum_univ_two] <;> ring

/-- **C65**: a motion keeps distances, in either representation. -/
theorem C65_isometry (c v p q : Cx) (hc : c.Unit) :
    ‖(cvTf c v p).den - (cvTf c v q).den‖ = ‖p.den - q.den‖ ∧
      ‖(tfmatpTf (cv2tfmatp c v) p).den - (tfmatpTf (cv2tfmatp c v) q).den‖ = ‖p.den - q.den‖ ∧
      ‖(crot c p).den‖ = ‖p.den‖ := by
  have h1 : ∀ p, (tfmatpTf (cv2tfmatp c v) p).den = motion c.den v.den p.den := by
    intro p
    apply Complex.ext <;> simp [tfmatpTf, cv2tfmatp, cmplx2rotmatp, Cx.den, motion] <;> ring
  have hd : ∀ a b t z : ℂ, ‖z‖ = 1 → ‖motion z t a - motion z t b‖ = ‖a - b‖ := by
    intro a b t z hz
    have : motion z t a - motion z t b = z * (a - b) := by unfold motion; ring
    rw [this, norm_mul, hz, one_mul]
  refine ⟨?_, ?_, ?_⟩
  · rw [(C65_apply_complex c v p).2, (C65_apply_complex c v q).2]; exact hd _ _ _ _ hc
  · rw [h1, h1]; exact hd _ _ _ _ hc
  · rw [(C65_apply_complex c v p).1]; simp only [motion, add_zero, norm_mul]; rw [hc, one_mul]

/-! ## Composing and inverting -/

/-- **C65**: products of complex numbers and complex-vector pairs compose the motions, and the
rotation of a product of unit numbers has unit length. -/
theorem C65_compose_complex (c1 v1 c2 v2 : Cx) :
    (cmul c1 c2).den = c1.den * c2.den ∧
      (∀ p, motion (cvMul c1 v1 c2 v2).1.den (cvMul c1 v1 c2 v2).2.den p =
        motion c1.den v1.den (motion c2.den v2.den p)) ∧
      (∀ p, cvTf (cvMul c1 v1 c2 v2).1 (cvMul c1 v1 c2 v2).2 p = cvTf c1 v1 (cvTf c2 v2 p)) ∧
      (c1.Unit → c2.Unit → (cvMul c1 v1 c2 v2).1.Unit) := by
  have h0 : (cmul c1 c2).den = c1.den * c2.den := by
    apply Complex.ext <;> simp [cmul, cprod, Cx.den]
  refine ⟨h0, ?_, ?_, ?_⟩
  · intro p
    have h2 : (cvMul c1 v1 c2 v2).2.den = motion c1.den v1.den v2.den :=
      (C65_apply_complex c1 v1 v2).2
    have h1 : (cvMul c1 v1 c2 v2).1.den = c1.den * c2.den := h0
    rw [h1, h2]; unfold motion; ring
  · intro p
    ext <;> simp [cvMul, cvTf, cmul, cprod] <;> ring
  · intro h1 h2
    show ‖(cmul c1 c2).den‖ = 1
    rw [h0, norm_mul, h1, h2, one_mul]

/-- **C65**: array products are matrix products, so they compose the transforms; rotation matrices
are closed under them. -/
theorem C65_compose_matrix (A B : T2) :
    (rotmatpMul A.R B.R).den = A.R.den * B.R.den ∧
      (tfmatpMul A B).den = A.den * B.den ∧
      (∀ p, tfmatpTf (tfmatpMul A B) p = tfmatpTf A (tfmatpTf B p)) ∧
      (A.R.Rot → B.R.Rot → (tfmatpMul A B).R.Rot) := by
  have h0 : (rotmatpMul A.R B.R).den = A.R.den * B.R.den := by
    ext i j
    fin_cases i <;> fin_cases j <;>
      simp [R2.den, rotmatpMul, Matrix.mul_apply, Fin.sum_univ_two]
  refine ⟨h0, ?_, ?_, ?_⟩
  · ext i j
    fin_cases i <;> fin_cases j <;>
      simp [T2.den, tfmatpMul, rotmatpMul, tfmatpTf, Matrix.mul_apply, Fin.sum_univ_three] <;> ring
  · intro p
    ext <;> simp [tfmatpMul, rotmatpMul, tfmatpTf] <;> ring
  · rintro ⟨a1, a2⟩ ⟨b1, b2⟩
    have h1 : (tfmatpMul A B).R.den = A.R.den * B.R.den := h0
    refine ⟨?_, ?_⟩
    · rw [h1, Matrix.transpose_mul, Matrix.mul_assoc, ← Matrix.mul_assoc _ A.R.den, a1,
        Matrix.one_mul, b1]
    · rw [h1, Matrix.det_mul, a2, b2, one_mul]

/-- **C65**: inverting undoes the motion, on both sides, in the complex forms. -/
theorem C65_invert_complex (c v : Cx) (hc : c.Unit) :
    cmul (cconj c) c = ⟨1, 0⟩ ∧ cmul c (cconj c) = ⟨1, 0⟩ ∧ (cvInv c v).1.Unit ∧
      (∀ p, cvTf (cvInv c v).1 (cvInv c v).2 (cvTf c v p) = p) ∧
      (∀ p, cvTf c v (cvTf (cvInv c v).1 (cvInv c v).2 p) = p) ∧
      cvMul (cvInv c v).1 (cvInv c v).2 c v = (⟨1, 0⟩, ⟨0, 0⟩) ∧
      cvMul c v (cvInv c v).1 (cvInv c v).2 = (⟨1, 0⟩, ⟨0, 0⟩) := by
  obtain ⟨a, b⟩ := c
  obtain ⟨x, y⟩ := v
  have h := (Cx.unit_iff _).1 hc
  simp only at h
  refine ⟨?_, ?_, ?_, ?_, ?_, ?_, ?_⟩
  · ext <;> simp [cmul, cprod, cconj] <;> linarith
  · ext <;> simp [cmul, cprod, cconj] <;> linarith
  · rw [Cx.unit_iff]; simp [cvInv, cconj]; linarith
  · rintro ⟨p, q⟩
    ext <;> simp [cvTf, cvInv, cconj, crot, cprod]
    · linear_combination p * h
    · linear_combination q * h
  · rintro ⟨p, q⟩
    ext <;> simp [cvTf, cvInv, cconj, crot, cprod]
    · linear_combination (p - x) * h
    · linear_combination (q - y) * h
  · refine Prod.ext ?_ ?_
    · ext <;> simp [cvMul, cvInv, cmul, cprod, cconj] <;> linarith
    · ext <;> simp [cvMul, cvInv, cvTf, crot, cprod, cconj] <;> ring
  · refine Prod.ext ?_ ?_
    · ext <;> simp [cvMul, cvInv, cmul, cprod, cconj] <;> linarith
    · ext <;> simp [cvMul, cvInv, cvTf, crot, cprod, cconj]
      · linear_combination (-x) * h
      · linear_combination (-y) * h

/-- **C65**: inverting undoes the motion, on both sides, in the matrix forms. -/
theorem C65_invert_matrix (T : T2) (hT : T.R.Rot) :
    (rotmatpInv2 T.R).den * T.R.den = 1 ∧ T.R.den * (rotmatpInv2 T.R).den = 1 ∧
      (tfmatpInv2 T).R.Rot ∧
      (∀ p, tfmatpTf (tfmatpInv2 T) (tfmatpTf T p) = p) ∧
      (∀ p, tfmatpTf T (tfmatpTf (tfmatpInv2 T) p) = p) ∧
      (tfmatpInv2 T).den * T.den = 1 ∧ T.den * (tfmatpInv2 T).den = 1 := by
  obtain ⟨R, ⟨x, y⟩⟩ := T
  obtain ⟨⟨a, b⟩, hc, hR⟩ := (R2.rot_iff _).1 hT
  simp only at hR
  subst hR
  have h := (Cx.unit_iff _).1 hc
  simp only at h
  refine ⟨?_, ?_, ?_, ?_, ?_, ?_, ?_⟩
  · ext i j
    fin_cases i <;> fin_cases j <;>
      simp [R2.den, rotmatpInv2, cmplx2rotmatp, Matrix.mul_apply, Fin.sum_univ_two] <;> linarith
  · ext i j
    fin_cases i <;> fin_cases j <;>
      simp [R2.den, rotmatpInv2, cmplx2rotmatp, Matrix.mul_apply, Fin.sum_univ_two] <;> linarith
  · rw [R2.rot_iff]
    exact ⟨⟨a, -b⟩, by rw [Cx.unit_iff]; simp only; linarith,
      by ext <;> simp [tfmatpInv2, rotmatpInv2, cmplx2rotmatp]⟩
  · rintro ⟨p, q⟩
    ext <;> simp [tfmatpTf, tfmatpInv2, rotmatpInv2, cmplx2rotmatp, rotmatpRot]
    · linear_combination p * h
    · linear_combination q * h
  · rintro ⟨p, q⟩
    ext <;> simp [tfmatpTf, tfmatpInv2, rotmatpInv2, cmplx2rotmatp, rotmatpRot]
    · linear_combination (p - x) * h
    · linear_combination (q - y) * h
  · ext i j
    fin_cases i <;> fin_cases j <;>
      simp [T2.den, tfmatpInv2, rotmatpInv2, rotmatpRot, cmplx2rotmatp, Matrix.mul_apply,
        Fin.sum_univ_three] <;> first | linarith | ring
  · ext i j
    fin_cases i <;> fin_cases j <;>
      simp [T2.den, tfmatpInv2, rotmatpInv2, rotmatpRot, cmplx2rotmatp, Matrix.mul_apply,
        Fin.sum_univ_three] <;>
      first | linarith | linear_combination (-x) * h | linear_combination (-y) * h

/-! ## Conversions -/

/-- **C65**: converting changes the representation and not the motion: conversions commute with
applying, composing and inverting. -/
theorem C65_convert (c v c' v' p : Cx) :
    rotmatpRot (cmplx2rotmatp c) p = crot c p ∧
      tfmatpTf (cv2tfmatp c v) p = cvTf c v p ∧
      cmplx2rotmatp (cmul c c') = rotmatpMul (cmplx2rotmatp c) (cmplx2rotmatp c') ∧
      cv2tfmatp (cvMul c v c' v').1 (cvMul c v c' v').2 =
        tfmatpMul (cv2tfmatp c v) (cv2tfmatp c' v') ∧
      cmplx2rotmatp (cconj c) = rotmatpInv2 (cmplx2rotmatp c) ∧
      cv2tfmatp (cvInv c v).1 (cvInv c v).2 = tfmatpInv2 (cv2tfmatp c v) := by
  refine ⟨?_, ?_, ?_, ?_, ?_, ?_⟩
  · ext <;> simp [rotmatpRot, cmplx2rotmatp, crot, cprod] <;> ring
  · ext <;> simp [tfmatpTf, cv2tfmatp, cmplx2rotmatp, cvTf] <;> ring
  · ext <;> simp [rotmatpMul, cmplx2rotmatp, cmul, cprod] <;> ring
  · refine T2.ext ?_ ?_
    · ext <;> simp [tfmatpMul, cv2tfmatp, cvMul, rotmatpMul, cmplx2rotmatp, cmul, cprod] <;> ring
    · ext <;> simp [tfmatpMul, cv2tfmatp, cvMul, tfmatpTf, cmplx2rotmatp, cvTf] <;> ring
  · ext <;> simp [rotmatpInv2, cmplx2rotmatp, cconj]
  · refine T2.ext ?_ ?_
    · ext <;> simp [tfmatpInv2, cv2tfmatp, cvInv, rotmatpInv2, cmplx2rotmatp, cconj]
    · ext <;> simp [tfmatpInv2, cv2tfmatp, cvInv, rotmatpInv2, rotmatpRot, cmplx2rotmatp, cconj,
        crot, cprod] <;> ring

/-- **C65**: conversions are inverse to each other. -/
theorem C65_roundtrip (c v : Cx) (T : T2) :
    rotmatp2cmplx (cmplx2rotmatp c) = c ∧
      tfmatp2cv (cv2tfmatp c v) = (c, v) ∧
      (T.R.Rot → cmplx2rotmatp (rotmatp2cmplx T.R) = T.R ∧ (rotmatp2cmplx T.R).Unit ∧
        cv2tfmatp (tfmatp2cv T).1 (tfmatp2cv T).2 = T) ∧
      (c.Unit → (cmplx2rotmatp c).Rot) := by
  have h0 : ∀ c, rotmatp2cmplx (cmplx2rotmatp c) = c := by
    intro c; ext <;> simp [rotmatp2cmplx, cmplx2rotmatp]
  refine ⟨h0 c, ?_, ?_, fun hc => (R2.rot_iff _).2 ⟨c, hc, rfl⟩⟩
  · simp [tfmatp2cv, cv2tfmatp, h0]
  · intro hT
    obtain ⟨z, hz, hR⟩ := (R2.rot_iff _).1 hT
    obtain ⟨R, t⟩ := T
    simp only at hR
    subst hR
    simp [cv2tfmatp, tfmatp2cv, h0, hz]

/-! ## Angles -/

/-- **C65**: an angle is converted to the rotation by that angle, `exp (i a)`. -/
theorem C65_angle (a : ℝ) (p : Cx) :
    (cpexp a).den = Complex.exp (a * Complex.I) ∧ (cpexp a).Unit ∧ (angle2rotmatp a).Rot ∧
      (rotmatpRot (angle2rotmatp a) p).den = Complex.exp (a * Complex.I) * p.den := by
  have h0 : (cpexp a).den = Complex.exp (a * Complex.I) := by
    apply Complex.ext
    · simp [cpexp, Cx.den, Complex.exp_ofReal_mul_I_re]
    · simp [cpexp, Cx.den, Complex.exp_ofReal_mul_I_im]
  have hu : (cpexp a).Unit := by
    rw [Cx.unit_iff]; simp [cpexp]
  refine ⟨h0, hu, (R2.rot_iff _).2 ⟨_, hu, rfl⟩, ?_⟩
  show (rotmatpRot (cmplx2rotmatp (cpexp a)) p).den = _
  rw [(C65_convert (cpexp a) p p p p).1, (C65_apply_complex _ p p).1, h0, motion, add_zero]

/-- **C65**: logarithm and exponential are inverse on `(-π, π]`, and so are the conversions between
angles and matrices. -/
theorem C65_log_exp (a : ℝ) (c : Cx) (R : R2) :
    (-Real.pi < a → a ≤ Real.pi → culn (cpexp a) = a ∧ rotmatp2angle (angle2rotmatp a) = a) ∧
      (c.Unit → cpexp (culn c) = c ∧ -Real.pi < culn c ∧ culn c ≤ Real.pi) ∧
      (R.Rot → angle2rotmatp (rotmatp2angle R) = R) := by
  have h1 : ∀ a, -Real.pi < a → a ≤ Real.pi → culn (cpexp a) = a := by
    intro a h1 h2
    show Complex.arg (cpexp a).den = a
    rw [(C65_angle a c).1, Complex.arg_exp_mul_I, toIocMod_eq_self]
    constructor
    · exact h1
    · linarith
  have h2 : ∀ c : Cx, c.Unit → cpexp (culn c) = c := by
    intro c hc
    apply Cx.den_inj
    rw [(C65_angle _ c).1]
    show Complex.exp (((Complex.arg c.den : ℝ) : ℂ) * Complex.I) = c.den
    have := Complex.norm_mul_exp_arg_mul_I c.den
    rw [show ‖c.den‖ = 1 from hc] at this
    simpa using this
  refine ⟨fun ha hb => ⟨h1 a ha hb, ?_⟩, fun hc => ⟨h2 c hc, ?_, ?_⟩, fun hR => ?_⟩
  · show culn (rotmatp2cmplx (cmplx2rotmatp (cpexp a))) = a
    rw [(C65_roundtrip (cpexp a) c ⟨R, c⟩).1, h1 a ha hb]
  · exact Complex.neg_pi_lt_arg _
  · exact Complex.arg_le_pi _
  · have := (C65_roundtrip c c ⟨R, c⟩).2.2.1 hR
    show cmplx2rotmatp (cpexp (culn (rotmatp2cmplx R))) = R
    rw [h2 _ this.2.1]
    exact this.1

/-! ## Concrete cases -/

/-- A unit complex number that is not an axis, and the rotation by it of `(1, 2)`. -/
example : (⟨3 / 5, 4 / 5⟩ : Cx).Unit ∧ crot ⟨3 / 5, 4 / 5⟩ ⟨1, 2⟩ = ⟨-1, 2⟩ := by
  constructor
  · rw [Cx.unit_iff]; norm_num
  · ext <;> simp [crot, cprod] <;> norm_num

/-- A rotation matrix. -/
example : (⟨3 / 5, 4 / 5, -(4 / 5), 3 / 5⟩ : R2).Rot :=
  (R2.rot_iff _).2 ⟨⟨3 / 5, 4 / 5⟩, by rw [Cx.unit_iff]; norm_num, rfl⟩

/-- Composition is not commutative. -/
example : cvMul ⟨0, 1⟩ ⟨1, 0⟩ ⟨1, 0⟩ ⟨1, 0⟩ ≠ cvMul ⟨1, 0⟩ ⟨1, 0⟩ ⟨0, 1⟩ ⟨1, 0⟩ := by
  intro h
  have := congrArg (fun x : Cx × Cx => x.2.re) h
  norm_num [cvMul, cvTf] at this

end Verif.Tfp
