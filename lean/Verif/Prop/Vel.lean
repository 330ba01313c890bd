import Verif.Model.TfVel
import Verif.Prop.Conv
import Mathlib.Analysis.Calculus.Deriv.Mul
import Mathlib.Analysis.Calculus.Deriv.Star

/-!
# C31: velocities

Specification: derivatives of paths, taken in `ℍ[ℝ]` or entry by entry for matrices. The angular
velocity of a rotating frame is the vector `w` with `d/dt (R p) = w × (R p)` for every fixed `p`.
-/

namespace Verif.Tf

open scoped Quaternion
open Quaternion NormedSpace

/-- the path `q` has derivative `dq` at `t`. -/
def Quat.HasDeriv (q : ℝ → Quat) (dq : Quat) (t : ℝ) : Prop :=
  HasDerivAt (fun s => (q s).den) dq.den t

/-- the path `p` has derivative `dp` at `t`. -/
def V3.HasDeriv (p : ℝ → V3) (dp : V3) (t : ℝ) : Prop :=
  HasDerivAt (fun s => (p s).pure) dp.pure t

/-- the path `R` has derivative `dR` at `t`. -/
def M3.HasDeriv (R : ℝ → M3) (dR : M3) (t : ℝ) : Prop :=
  ∀ i j, HasDerivAt (fun s => (R s).den i j) (dR.den i j) t

/-! ## Helpers -/

instance : StarModule ℝ ℍ[ℝ] := ⟨fun r a => by ext <;> simp⟩

theorem cross_pure (a b : V3) :
    (cross a b).pure = (2⁻¹ : ℝ) • (a.pure * b.pure - b.pure * a.pure) := by
  ext <;> simp [cross] <;> ring

theorem HasDerivAt.quat {f : ℝ → ℍ[ℝ]} {f' : ℍ[ℝ]} {t : ℝ} (h : HasDerivAt f f' t) :
    HasDerivAt (fun s => (f s).re) f'.re t ∧ HasDerivAt (fun s => (f s).imI) f'.imI t ∧
    HasDerivAt (fun s => (f s).imJ) f'.imJ t ∧ HasDerivAt (fun s => (f s).imK) f'.imK t := by
  have key : ∀ L : ℍ[ℝ] →ₗ[ℝ] ℝ, HasDerivAt (fun s => L (f s)) (L f') t := fun L =>
    (LinearMap.toContinuousLinearMap L).hasFDerivAt.comp_hasDerivAt t h
  refine ⟨?_, ?_, ?_, ?_⟩
  · exact key (QuaternionAlgebra.reₗ _ _ _)
  · exact key (QuaternionAlgebra.imIₗ _ _ _)
  · exact key (QuaternionAlgebra.imJₗ _ _ _)
  · exact key (QuaternionAlgebra.imKₗ _ _ _)

/-- a path of unit quaternions moves orthogonally to itself. -/
theorem unit_tangent {q : ℝ → Quat} {dq : Quat} {t : ℝ} (h : Quat.HasDeriv q dq t)
    (hu : ∀ s, Unit (q s)) : dq.den * star (q t).den = -((q t).den * star dq.den) := by
  have h1 : HasDerivAt (fun s => (q s).den * star (q s).den)
      (dq.den * star (q t).den + (q t).den * star dq.den) t := h.mul h.star
  have h2 : (fun s => (q s).den * star (q s).den) = fun _ => (1 : ℍ[ℝ]) := by
    funext s; exact (den_unit_mul (hu s)).1
  rw [h2] at h1
  have := h1.unique (hasDerivAt_const t _)
  exact eq_neg_of_add_eq_zero_left this

theorem qvel2diff_den (q : Quat) (w : V3) : (qvel2diff q w).den = (2⁻¹ : ℝ) • (w.pure * q.den) := by
  rw [qvel2diff, (C21_vector_products _ _).1, half_pure, smul_mul_assoc]

theorem qdiff2vel_pure (q dq : Quat) (h : (dq.den * star q.den).re = 0) :
    (qdiff2vel q dq).pure = (2 : ℝ) • (dq.den * star q.den) := by
  ext
  · simp only [V3.pure_re, Quaternion.re_smul, h, smul_zero]
  all_goals simp [qdiff2vel, qmulcV]; ring

/-! ## C31: quaternions -/

/-- C31: `aa_tf_qdiff2vel` inverts `aa_tf_qvel2diff`, and is inverted by it on tangent vectors. -/
theorem C31_quat_inverse (q : Quat) (h : Unit q) :
    (∀ w, qdiff2vel q (qvel2diff q w) = w) ∧
    (∀ dq, qdot q dq = 0 → qvel2diff q (qdiff2vel q dq) = dq) := by
  have hm := den_unit_mul h
  constructor
  · intro w
    apply V3.pure_inj
    have e : (qvel2diff q w).den * star q.den = (2⁻¹ : ℝ) • w.pure := by
      rw [qvel2diff_den, smul_mul_assoc, mul_assoc, hm.1, mul_one]
    rw [qdiff2vel_pure _ _ (by rw [e]; simp), e, smul_smul]
    norm_num
  · intro dq hd
    have hr : (dq.den * star q.den).re = 0 := by
      simp only [qdot] at hd
      simp; linarith
    apply Quat.den_inj
    rw [qvel2diff_den, qdiff2vel_pure _ _ hr, smul_mul_assoc, mul_assoc, hm.2, mul_one, smul_smul]
    norm_num

/-- C31: along a differentiable path of unit quaternions, `aa_tf_qdiff2vel` of the derivative is the
angular velocity of the rotating frame, and `aa_tf_qvel2diff` of that is the derivative. -/
theorem C31_quat_path (q : ℝ → Quat) (dq : Quat) (t : ℝ) (h : Quat.HasDeriv q dq t)
    (hu : ∀ s, Unit (q s)) :
    qvel2diff (q t) (qdiff2vel (q t) dq) = dq ∧
    ∀ p, V3.HasDeriv (fun s => qrot (q s) p) (cross (qdiff2vel (q t) dq) (qrot (q t) p)) t := by
  have ht := unit_tangent h hu
  have hm := den_unit_mul (hu t)
  have hr : (dq.den * star (q t).den).re = 0 := by
    have := congrArg QuaternionAlgebra.re ht
    simp at this ⊢
    linarith
  have hi : qvel2diff (q t) (qdiff2vel (q t) dq) = dq := by
    apply (C31_quat_inverse _ (hu t)).2
    simp only [qdot]; simp at hr; linarith
  refine ⟨hi, fun p => ?_⟩
  have e : (fun s => (qrot (q s) p).pure) = fun s => (q s).den * p.pure * star (q s).den := by
    funext s; exact (C23_qrot _ _ (hu s)).1
  have hd : HasDerivAt (fun s => (q s).den * p.pure * star (q s).den)
      (dq.den * p.pure * star (q t).den + (q t).den * p.pure * star dq.den) t :=
    (h.mul_const p.pure).mul h.star
  rw [V3.HasDeriv, e]
  convert hd using 1
  rw [cross_pure, qdiff2vel_pure _ _ hr, (C23_qrot _ _ (hu t)).1]
  have e1 : dq.den * star (q t).den * ((q t).den * p.pure * star (q t).den) =
      dq.den * p.pure * star (q t).den := by
    calc _ = dq.den * (star (q t).den * (q t).den) * p.pure * star (q t).den := by
          simp only [mul_assoc]
      _ = _ := by rw [hm.2, mul_one]
  have e2 : (q t).den * p.pure * star (q t).den * (dq.den * star (q t).den) =
      -((q t).den * p.pure * star dq.den) := by
    rw [ht, mul_neg]
    congr 1
    calc _ = (q t).den * p.pure * (star (q t).den * (q t).den) * star dq.den := by
          simp only [mul_assoc]
      _ = _ := by rw [hm.2, mul_one]
  rw [smul_mul_assoc, mul_smul_comm, e1, e2, smul_neg, sub_neg_eq_add, ← smul_add, smul_smul]
  norm_num

/-! ## C31: rotation matrices -/

theorem unskewsym_skew (w : V3) : unskewsym (skewSym w) = w := by
  have : Real.sqrt (0 + 0 + 0 + 1) = 1 := by norm_num
  ext <;> simp [unskewsym, skewSym, unskewsymScal] <;> ring

theorem rot9_skew (w p : V3) : rot9 (skewSym w) p = cross w p := by
  ext <;> simp [rot9, skewSym, cross] <;> ring

theorem IsRot.mul_transp {R : M3} (h : IsRot R) : mul9 R (transp R) = m3ident := by
  have he := h.eqs
  ext <;> simp only [mul9, transp, m3ident] <;>
    linarith [he.r00, he.r11, he.r22, he.r01, he.r02, he.r12]

theorem IsRot.transp_mul {R : M3} (h : IsRot R) : mul9 (transp R) R = m3ident := by
  have he := h.eqs
  ext <;> simp only [mul9, transp, m3ident] <;>
    linarith [he.c00, he.c11, he.c22, he.c01, he.c02, he.c12]

theorem mul9_assoc (A B C : M3) : mul9 (mul9 A B) C = mul9 A (mul9 B C) := by
  ext <;> simp only [mul9] <;> ring

theorem mul9_ident (A : M3) : mul9 A m3ident = A ∧ mul9 m3ident A = A := by
  constructor <;> (ext <;> simp [mul9, m3ident])

/-- C31: `aa_tf_rotmat_diff2vel` inverts `aa_tf_rotmat_vel2diff`. -/
theorem C31_rotmat_inverse (R : M3) (h : IsRot R) (w : V3) :
    rotmatDiff2vel R (rotmatVel2diff R w) = w := by
  rw [rotmatDiff2vel, rotmatVel2diff, mul9_assoc, h.mul_transp, (mul9_ident _).1, unskewsym_skew]

theorem M3.HasDeriv.entries {R : ℝ → M3} {dR : M3} {t : ℝ} (h : M3.HasDeriv R dR t) :
    HasDerivAt (fun s => (R s).m0) dR.m0 t ∧ HasDerivAt (fun s => (R s).m1) dR.m1 t ∧
    HasDerivAt (fun s => (R s).m2) dR.m2 t ∧ HasDerivAt (fun s => (R s).m3) dR.m3 t ∧
    HasDerivAt (fun s => (R s).m4) dR.m4 t ∧ HasDerivAt (fun s => (R s).m5) dR.m5 t ∧
    HasDerivAt (fun s => (R s).m6) dR.m6 t ∧ HasDerivAt (fun s => (R s).m7) dR.m7 t ∧
    HasDerivAt (fun s => (R s).m8) dR.m8 t := by
  refine ⟨?_, ?_, ?_, ?_, ?_, ?_, ?_, ?_, ?_⟩
  · simpa [M3.den] using h 0 0
  · simpa [M3.den] using h 1 0
  · simpa [M3.den] using h 2 0
  · simpa [M3.den] using h 0 1
  · simpa [M3.den] using h 1 1
  · simpa [M3.den] using h 2 1
  · simpa [M3.den] using h 0 2
  · simpa [M3.den] using h 1 2
  · simpa [M3.den] using h 2 2

theorem V3.hasDeriv_iff {p : ℝ → V3} {dp : V3} {t : ℝ} : V3.HasDeriv p dp t ↔
    HasDerivAt (fun s => (p s).x) dp.x t ∧ HasDerivAt (fun s => (p s).y) dp.y t ∧
    HasDerivAt (fun s => (p s).z) dp.z t := by
  constructor
  · intro h
    have := HasDerivAt.quat h
    simpa using this.2
  · rintro ⟨hx, hy, hz⟩
    have := ((hx.smul_const (V3.pure ⟨1, 0, 0⟩)).add (hy.smul_const (V3.pure ⟨0, 1, 0⟩))).add
      (hz.smul_const (V3.pure ⟨0, 0, 1⟩))
    have e1 : dp.pure = dp.x • V3.pure ⟨1, 0, 0⟩ + dp.y • V3.pure ⟨0, 1, 0⟩ +
        dp.z • V3.pure ⟨0, 0, 1⟩ := by ext <;> simp
    have e2 : (fun s => (p s).pure) = fun s => (p s).x • V3.pure ⟨1, 0, 0⟩ +
        (p s).y • V3.pure ⟨0, 1, 0⟩ + (p s).z • V3.pure ⟨0, 0, 1⟩ := by
      funext s; ext <;> simp
    rw [V3.HasDeriv, e1, e2]
    exact this

/-- C31: along a differentiable path of rotation matrices, `aa_tf_rotmat_diff2vel` of the derivative
is the angular velocity of the rotating frame, and `aa_tf_rotmat_vel2diff` of that is the
derivative. -/
theorem C31_rotmat_path (R : ℝ → M3) (dR : M3) (t : ℝ) (h : M3.HasDeriv R dR t)
    (hr : ∀ s, IsRot (R s)) :
    rotmatVel2diff (R t) (rotmatDiff2vel (R t) dR) = dR ∧
    ∀ p, V3.HasDeriv (fun s => rot9 (R s) p) (cross (rotmatDiff2vel (R t) dR) (rot9 (R t) p)) t := by
  obtain ⟨d0, d1, d2, d3, d4, d5, d6, d7, d8⟩ := h.entries
  have tan : ∀ (a b c a' b' c' : ℝ → ℝ) (da db dc da' db' dc' k : ℝ),
      HasDerivAt a da t → HasDerivAt b db t → HasDerivAt c dc t →
      HasDerivAt a' da' t → HasDerivAt b' db' t → HasDerivAt c' dc' t →
      (∀ s, a s * a' s + b s * b' s + c s * c' s = k) →
      da * a' t + a t * da' + (db * b' t + b t * db') + (dc * c' t + c t * dc') = 0 := by
    intro a b c a' b' c' da db dc da' db' dc' k ha hb hc ha' hb' hc' he
    have h1 := ((ha.mul ha').add (hb.mul hb')).add (hc.mul hc')
    have h2 : (a * a' + b * b' + c * c') = fun _ => k := by
      funext s; exact he s
    rw [h2] at h1
    exact h1.unique (hasDerivAt_const t _)
  have t00 := tan _ _ _ _ _ _ _ _ _ _ _ _ _ d0 d3 d6 d0 d3 d6 (fun s => (hr s).eqs.r00)
  have t11 := tan _ _ _ _ _ _ _ _ _ _ _ _ _ d1 d4 d7 d1 d4 d7 (fun s => (hr s).eqs.r11)
  have t22 := tan _ _ _ _ _ _ _ _ _ _ _ _ _ d2 d5 d8 d2 d5 d8 (fun s => (hr s).eqs.r22)
  have t01 := tan _ _ _ _ _ _ _ _ _ _ _ _ _ d0 d3 d6 d1 d4 d7 (fun s => (hr s).eqs.r01)
  have t02 := tan _ _ _ _ _ _ _ _ _ _ _ _ _ d0 d3 d6 d2 d5 d8 (fun s => (hr s).eqs.r02)
  have t12 := tan _ _ _ _ _ _ _ _ _ _ _ _ _ d1 d4 d7 d2 d5 d8 (fun s => (hr s).eqs.r12)
  have hK : skewSym (rotmatDiff2vel (R t) dR) = mul9 dR (transp (R t)) := by
    rw [rotmatDiff2vel, unskewsym]
    have tr : (mul9 dR (transp (R t))).m0 + (mul9 dR (transp (R t))).m4 +
        (mul9 dR (transp (R t))).m8 = 0 := by
      simp only [mul9, transp]; linarith
    simp only [tr, zero_add, Real.sqrt_one]
    ext <;> simp only [skewSym, unskewsymScal, mul9, transp] <;> linarith
  have hi : rotmatVel2diff (R t) (rotmatDiff2vel (R t) dR) = dR := by
    rw [rotmatVel2diff, hK, mul9_assoc, (hr t).transp_mul, (mul9_ident _).1]
  refine ⟨hi, fun p => ?_⟩
  have e : cross (rotmatDiff2vel (R t) dR) (rot9 (R t) p) = rot9 dR p := by
    conv_rhs => rw [← hi]
    rw [rotmatVel2diff, rot9_mul9, rot9_skew]
  rw [e, V3.hasDeriv_iff]
  refine ⟨?_, ?_, ?_⟩
  · exact ((d0.mul_const p.x).add (d3.mul_const p.y)).add (d6.mul_const p.z)
  · exact ((d1.mul_const p.x).add (d4.mul_const p.y)).add (d7.mul_const p.z)
  · exact ((d2.mul_const p.x).add (d5.mul_const p.y)).add (d8.mul_const p.z)

/-- C31: the quaternion and the matrix functions give the same angular velocity: if a unit
quaternion path has derivative `vel2diff w`, its matrix path has derivative `vel2diff w`. -/
theorem C31_quat_rotmat (q : ℝ → Quat) (w : V3) (t : ℝ)
    (h : Quat.HasDeriv q (qvel2diff (q t) w) t) (hu : ∀ s, Unit (q s)) :
    M3.HasDeriv (fun s => quat2rotmat (q s)) (rotmatVel2diff (quat2rotmat (q t)) w) t := by
  obtain ⟨_, hp⟩ := C31_quat_path q _ t h hu
  rw [(C31_quat_inverse _ (hu t)).1] at hp
  have key : ∀ p : V3, V3.HasDeriv (fun s => rot9 (quat2rotmat (q s)) p)
      (rot9 (rotmatVel2diff (quat2rotmat (q t)) w) p) t := by
    intro p
    have := hp p
    simp only [rotmatVel2diff, rot9_mul9, rot9_skew, rot9_quat2rotmat]
    exact this
  have kx := V3.hasDeriv_iff.1 (key ⟨1, 0, 0⟩)
  have ky := V3.hasDeriv_iff.1 (key ⟨0, 1, 0⟩)
  have kz := V3.hasDeriv_iff.1 (key ⟨0, 0, 1⟩)
  simp only [rot9, mul_one, mul_zero, add_zero, zero_add] at kx ky kz
  intro i j
  fin_cases i <;> fin_cases j <;> simp [M3.den]
  · exact kx.1
  · exact ky.1
  · exact kz.1
  · exact kx.2.1
  · exact ky.2.1
  · exact kz.2.1
  · exact kx.2.2
  · exact ky.2.2
  · exact kz.2.2

/-! ## C31: rigid transforms -/

/-- both components of the path have the derivative. -/
def Qutr.HasDeriv (E : ℝ → Qutr) (dE : Qutr) (t : ℝ) : Prop :=
  Quat.HasDeriv (fun s => (E s).q) dE.q t ∧ V3.HasDeriv (fun s => (E s).v) dE.v t

/-- both components of the path have the derivative. -/
def Tfm.HasDeriv (T : ℝ → Tfm) (dT : Tfm) (t : ℝ) : Prop :=
  M3.HasDeriv (fun s => (T s).R) dT.R t ∧ V3.HasDeriv (fun s => (T s).v) dT.v t

/-- both components of the path have the derivative. -/
def Duqu.HasDeriv (S : ℝ → Duqu) (dS : Duqu) (t : ℝ) : Prop :=
  Quat.HasDeriv (fun s => (S s).real) dS.real t ∧ Quat.HasDeriv (fun s => (S s).dual) dS.dual t

/-- Specification: the velocity of a point `x` fixed in a body whose origin `o` moves with velocity
`dx.v` and which turns with angular velocity `dx.w`. -/
def bodyVel (dx : Dx) (o x : V3) : V3 := vadd dx.v (cross dx.w (vadd x (vneg o)))

/-- C31: velocity and derivative conversions of `aa_tf_qutr_*` are inverse, and along a path of
transforms give the velocity of every point carried by the body. -/
theorem C31_qutr (E : ℝ → Qutr) (dE : Qutr) (t : ℝ) (h : Qutr.HasDeriv E dE t)
    (hv : ∀ s, (E s).Valid) :
    qutrVel2diff (E t) (qutrDiff2vel (E t) dE) = dE ∧
    (∀ dx, qutrDiff2vel (E t) (qutrVel2diff (E t) dx) = dx) ∧
    ∀ p, V3.HasDeriv (fun s => qutrTf (E s) p)
      (bodyVel (qutrDiff2vel (E t) dE) (E t).v (qutrTf (E t) p)) t := by
  obtain ⟨h1, h2⟩ := C31_quat_path _ _ t h.1 hv
  refine ⟨?_, fun dx => ?_, fun p => ?_⟩
  · rw [qutrVel2diff, qutrDiff2vel, h1]
  · rw [qutrVel2diff, qutrDiff2vel, (C31_quat_inverse _ (hv t)).1]
  · have hp := h2 p
    have e : bodyVel (qutrDiff2vel (E t) dE) (E t).v (qutrTf (E t) p) =
        vadd (cross (qdiff2vel (E t).q dE.q) (qrot (E t).q p)) dE.v := by
      rw [qutrTf_eq]
      ext <;> simp [bodyVel, vadd, vneg, cross, qutrDiff2vel] <;> ring
    rw [e]
    simp only [V3.HasDeriv, qutrTf_eq, vadd_pure]
    exact HasDerivAt.add hp h.2

/-- C31: the same for transform matrices. -/
theorem C31_tfmat (T : ℝ → Tfm) (dT : Tfm) (t : ℝ) (h : Tfm.HasDeriv T dT t)
    (hv : ∀ s, (T s).Valid) :
    tfmatVel2diff (T t) (tfmatDiff2vel (T t) dT) = dT ∧
    (∀ dx, tfmatDiff2vel (T t) (tfmatVel2diff (T t) dx) = dx) ∧
    ∀ p, V3.HasDeriv (fun s => tfmTf (T s) p)
      (bodyVel (tfmatDiff2vel (T t) dT) (T t).v (tfmTf (T t) p)) t := by
  obtain ⟨h1, h2⟩ := C31_rotmat_path _ _ t h.1 hv
  refine ⟨?_, fun dx => ?_, fun p => ?_⟩
  · rw [tfmatVel2diff, tfmatDiff2vel, h1]
  · rw [tfmatVel2diff, tfmatDiff2vel, C31_rotmat_inverse _ (hv t)]
  · have hp := h2 p
    have e : bodyVel (tfmatDiff2vel (T t) dT) (T t).v (tfmTf (T t) p) =
        vadd (cross (rotmatDiff2vel (T t).R dT.R) (rot9 (T t).R p)) dT.v := by
      rw [tfmTf_eq]
      ext <;> simp [bodyVel, vadd, vneg, cross, tfmatDiff2vel] <;> ring
    rw [e]
    simp only [V3.HasDeriv, tfmTf_eq, vadd_pure]
    exact HasDerivAt.add hp h.2

theorem qscal2_pure (a b : V3) : (⟨2 * (a.x + b.x), 2 * (a.y + b.y), 2 * (a.z + b.z)⟩ : V3) =
    vscal 2 (vadd a b) := rfl

/-- C31: the dual quaternion functions: the velocity found by `aa_tf_duqu_diff2vel` is that of the
body, `aa_tf_duqu_vel2diff` inverts it, and likewise through the twist. -/
theorem C31_duqu (S : ℝ → Duqu) (dS : Duqu) (t : ℝ) (h : Duqu.HasDeriv S dS t)
    (hv : ∀ s, (S s).Valid) :
    duquVel2diff (S t) (duquDiff2vel (S t) dS) = dS ∧
    duquTwist2diff (S t) (duquDiff2twist (S t) dS) = dS ∧
    V3.HasDeriv (fun s => duquTrans (S s)) (duquDiff2vel (S t) dS).v t ∧
    ∀ p, V3.HasDeriv (fun s => duquTf (S s) p)
      (bodyVel (duquDiff2vel (S t) dS) (duquTrans (S t)) (duquTf (S t) p)) t := by
  obtain ⟨hr, hd⟩ := h
  have hu : ∀ s, Unit (S s).real := fun s => (hv s).1
  -- the translation
  have hT : HasDerivAt (fun s => (2 : ℝ) • ((S s).dual.den * star (S s).real.den))
      ((2 : ℝ) • (dS.dual.den * star (S t).real.den + (S t).dual.den * star dS.real.den)) t :=
    (hd.mul hr.star).const_smul (2 : ℝ)
  have eT : (fun s => (duquTrans (S s)).pure) =
      fun s => (2 : ℝ) • ((S s).dual.den * star (S s).real.den) := by
    funext s; exact C26_actions.2.2.2 _ (hv s)
  have hre : (dS.dual.den * star (S t).real.den + (S t).dual.den * star dS.real.den).re = 0 := by
    have h1 := (HasDerivAt.quat hT).1
    have h2 : (fun s => ((2 : ℝ) • ((S s).dual.den * star (S s).real.den)).re) = fun _ => (0 : ℝ) := by
      funext s
      have := congrFun eT s
      rw [← this]; simp
    rw [h2] at h1
    have := h1.unique (hasDerivAt_const t _)
    rw [Quaternion.re_smul, smul_eq_mul] at this
    linarith
  have ev : (duquDiff2vel (S t) dS).v.pure =
      (2 : ℝ) • (dS.dual.den * star (S t).real.den + (S t).dual.den * star dS.real.den) := by
    ext
    · rw [Quaternion.re_smul, hre]; simp
    all_goals simp [duquDiff2vel, qmulcV]; ring
  have hv3 : V3.HasDeriv (fun s => duquTrans (S s)) (duquDiff2vel (S t) dS).v t := by
    rw [V3.HasDeriv, eT, ev]; exact hT
  -- as a quaternion-translation path
  have hE : Qutr.HasDeriv (fun s => duqu2qutr (S s)) ⟨dS.real, (duquDiff2vel (S t) dS).v⟩ t := ⟨hr, hv3⟩
  obtain ⟨q1, _, q3⟩ := C31_qutr _ _ t hE (fun s => hu s)
  have edx : qutrDiff2vel (duqu2qutr (S t)) ⟨dS.real, (duquDiff2vel (S t) dS).v⟩ =
      duquDiff2vel (S t) dS := rfl
  rw [edx] at q1 q3
  -- vel2diff
  have hqv : qvel2diff (S t).real (duquDiff2vel (S t) dS).w = dS.real := congrArg Qutr.q q1
  have hm := den_unit_mul (hu t)
  have hinv : duquVel2diff (S t) (duquDiff2vel (S t) dS) = dS := by
    have hrd : (duquVel2diff (S t) (duquDiff2vel (S t) dS)).real = dS.real := by
      conv_rhs => rw [← hqv]
      ext <;> simp [duquVel2diff, duquTwist2diff, duquVel2twist, vel2twist, Dx.pure, duquMul, qmul,
        qvel2diff, qmulVQ, mkq, vdot, Quat.vec] <;> ring
    have hw : (duquDiff2vel (S t) dS).w.pure * (S t).real.den = (2 : ℝ) • dS.real.den := by
      rw [← hqv, qvel2diff_den, smul_smul]; norm_num
    have hdd : (duquVel2diff (S t) (duquDiff2vel (S t) dS)).dual.den = dS.dual.den := by
      have e0 : (duquVel2diff (S t) (duquDiff2vel (S t) dS)).dual.den =
          (2⁻¹ : ℝ) • ((crossA (duquTrans (S t)) (duquDiff2vel (S t) dS).w
            (duquDiff2vel (S t) dS).v).pure * (S t).real.den +
            (duquDiff2vel (S t) dS).w.pure * (S t).dual.den) := by
        ext <;> simp [duquVel2diff, duquTwist2diff, duquVel2twist, vel2twist, Dx.pure, duquMul, qmul,
          qmulA, mkq, crossA] <;> ring
      have ec : (crossA (duquTrans (S t)) (duquDiff2vel (S t) dS).w (duquDiff2vel (S t) dS).v).pure =
          (duquDiff2vel (S t) dS).v.pure + (2⁻¹ : ℝ) • ((duquTrans (S t)).pure *
            (duquDiff2vel (S t) dS).w.pure - (duquDiff2vel (S t) dS).w.pure * (duquTrans (S t)).pure) := by
        rw [← cross_pure]; ext <;> simp [crossA, cross] <;> ring
      have et := C26_actions.2.2.2 _ (hv t)
      have etr : (duquTrans (S t)).pure * (S t).real.den = (2 : ℝ) • (S t).dual.den := by
        rw [et, smul_mul_assoc, mul_assoc, hm.2, mul_one]
      have tang := unit_tangent hr hu
      have e3 : star dS.real.den * (S t).real.den = -(star (S t).real.den * dS.real.den) := by
        have : (S t).real.den * (star dS.real.den * (S t).real.den) =
            (S t).real.den * -(star (S t).real.den * dS.real.den) := by
          rw [← mul_assoc, ← neg_eq_iff_eq_neg.2 tang, neg_mul, mul_assoc, hm.2, mul_neg, ← mul_assoc,
            hm.1, one_mul, mul_one]
        have h0 : (S t).real.den ≠ 0 := by
          intro h0; rw [h0] at hm; simp at hm
        exact mul_left_cancel₀ h0 this
      rw [e0, ec, ev, add_mul, smul_mul_assoc, smul_mul_assoc, sub_mul, mul_assoc, hw, mul_assoc, etr, add_mul,
        mul_assoc, hm.2, mul_one, mul_assoc, e3]
      have e4 : (S t).dual.den * (star (S t).real.den * dS.real.den) =
          (2⁻¹ : ℝ) • ((duquTrans (S t)).pure * dS.real.den) := by
        rw [et, smul_mul_assoc, smul_smul, mul_assoc]; norm_num
      rw [mul_neg, e4, mul_smul_comm, mul_smul_comm]
      module
    have := Quat.den_inj hdd
    exact Duqu.ext hrd this
  refine ⟨hinv, hinv, hv3, fun p => ?_⟩
  have ep : (fun s => duquTf (S s) p) = fun s => qutrTf (duqu2qutr (S s)) p := by
    funext s; exact C26_point.2.1 _ p (hv s)
  have := q3 p
  rw [← ep, ← C26_point.2.1 _ p (hv t)] at this
  exact this

/-- C31: velocity and twist conversions are inverse to each other, and a velocity survives the round
trip through the derivative of the dual quaternion. -/
theorem C31_twist (S : Duqu) (h : S.Valid) (v : V3) (dx : Dx) :
    twist2vel v (vel2twist v dx) = dx ∧ vel2twist v (twist2vel v dx) = dx ∧
    duquTwist2vel S (duquVel2twist S dx) = dx ∧
    duquDiff2vel S (duquVel2diff S dx) = dx := by
  refine ⟨?_, ?_, ?_, ?_⟩
  · rcases dx with ⟨dv, w⟩
    rw [vel2twist, twist2vel, Dx.mk.injEq]
    refine ⟨?_, rfl⟩
    ext <;> simp [crossA] <;> ring
  · rcases dx with ⟨dv, w⟩
    rw [vel2twist, twist2vel, Dx.mk.injEq]
    refine ⟨?_, rfl⟩
    ext <;> simp [crossA] <;> ring
  · rcases dx with ⟨dv, w⟩
    rw [duquTwist2vel, duquVel2twist, vel2twist, twist2vel, Dx.mk.injEq]
    refine ⟨?_, rfl⟩
    ext <;> simp [crossA, Dx.pure, mkq, Quat.vec] <;> ring
  · obtain ⟨hu, hd⟩ := h
    have e : (duquVel2diff S dx).real = qvel2diff S.real dx.w := by
      ext <;> simp [duquVel2diff, duquTwist2diff, duquVel2twist, vel2twist, Dx.pure, duquMul, qmul,
        qvel2diff, qmulVQ, mkq, vdot, Quat.vec] <;> ring
    have hw : (duquDiff2vel S (duquVel2diff S dx)).w = dx.w := by
      show qdiff2vel S.real (duquVel2diff S dx).real = _
      rw [e, (C31_quat_inverse _ hu).1]
    have hm := den_unit_mul hu
    have hS : S.Valid := ⟨hu, hd⟩
    have et := C26_actions.2.2.2 _ hS
    have etr : S.dual.den * star S.real.den = (2⁻¹ : ℝ) • (duquTrans S).pure := by
      rw [et, smul_smul]; norm_num
    have e0 : (duquVel2diff S dx).dual.den =
        (2⁻¹ : ℝ) • ((crossA (duquTrans S) dx.w dx.v).pure * S.real.den + dx.w.pure * S.dual.den) := by
      ext <;> simp [duquVel2diff, duquTwist2diff, duquVel2twist, vel2twist, Dx.pure, duquMul, qmul,
        qmulA, mkq, crossA] <;> ring
    have key : (2 : ℝ) • ((duquVel2diff S dx).dual.den * star S.real.den +
        S.dual.den * star (duquVel2diff S dx).real.den) = dx.v.pure := by
      have es : star dx.w.pure = -dx.w.pure := by ext <;> simp
      rw [e0, e, qvel2diff_den, Quaternion.star_smul, star_mul, es, smul_mul_assoc, add_mul, mul_assoc, hm.1, mul_one,
        mul_assoc, etr, mul_smul_comm, mul_smul_comm, mul_neg, mul_neg, ← mul_assoc, etr]
      have ec : (crossA (duquTrans S) dx.w dx.v).pure = dx.v.pure + (2⁻¹ : ℝ) • ((duquTrans S).pure *
            dx.w.pure - dx.w.pure * (duquTrans S).pure) := by
        rw [← cross_pure]; ext <;> simp [crossA, cross] <;> ring
      rw [ec, smul_mul_assoc]
      module
    have hv : (duquDiff2vel S (duquVel2diff S dx)).v = dx.v := by
      apply V3.pure_inj
      rw [← key]
      have hre := congrArg QuaternionAlgebra.re key
      ext
      · rw [hre]; simp
      all_goals simp [duquDiff2vel, qmulcV]; ring
    exact Dx.ext hv hw

/-- a non-trivial path meeting the hypotheses: the unit quaternions of a turn about z. -/
example (s : ℝ) : Unit (angle2quat .Z s) := (C30_axis_angle .Z s).2.1

end Verif.Tf
