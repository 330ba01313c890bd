import Verif.Model.Vec
import Verif.Prop.Quat

/-!
# C22: the vectorized kernels compute the scalar definitions
-/

namespace Verif.Vec

open Verif.Tf Quaternion

/-- C22: cross product, conjugate, product, rotation, matrix transform product and dual quaternion
product, whatever the unset lanes hold. -/
theorem C22_kernels_partial (g0 g1 g2 g3 : ℝ) :
    (∀ a b, mcross g0 g1 a b = cross a b) ∧
    (∀ q, mqconj q = qconj q) ∧
    (∀ a b, mqmul a b = qmul a b) ∧
    (∀ q v, mqrot g0 q v = qrot q v) ∧
    (∀ A B, mtfmul g0 g1 g2 g3 A B = tfmMul A B) ∧
    (∀ A B, mduquMul A B = duquMul A B) ∧
    (∀ a b, dot4 (ld4 a) (ld4 b) = qdot a b) := by
  refine ⟨?_, ?_, ?_, ?_, ?_, ?_, ?_⟩
  · intro a b
    ext <;> simp [mcross, st3, vcross, shuffle, ld3, cross]
  · intro q
    ext <;> simp [mqconj, st4, vqconj, setLane, ld4, qconj]
  · intro a b
    ext <;> simp [mqmul, st4, vqmul, shuffle, setLane, ld4, qmul]
  · intro q v
    ext <;> simp [mqrot, st3, vqrot, vcross, shuffle, ld3, ld4, qrot] <;> ring
  · intro A B
    ext <;> simp [mtfmul, tfmMul, mul9, tfmTf] <;> ring
  · intro A B
    ext <;> simp [mduquMul, duquMul, st4, vqmul, shuffle, setLane, ld4, qmul, qmulA] <;> ring
  · intro a b
    simp [dot4, ld4, qdot]; ring

/-- C22: in terms of the specification rather than of the scalar code. -/
theorem C22_spec (g0 g1 : ℝ) (a b : V3) (p q : Quat) :
    (mcross g0 g1 a b).den = crossProduct a.den b.den ∧
    (mqmul p q).den = p.den * q.den ∧
    (Unit q → (mqrot g0 q a).pure = q.den * a.pure * star q.den) := by
  obtain ⟨h1, _, h3, h4, _⟩ := C22_kernels_partial g0 g1 0 0
  refine ⟨?_, ?_, ?_⟩
  · rw [h1, cross_eq]
  · rw [h3, C21_qmul]
  · intro h; rw [h4, (C23_qrot q a h).1]

/-- C22: the vector part of `aa_vec_vqmul` is right for every input. -/
theorem C22_vqmul_vector_partial (g : ℝ) (v : V3) (q : Quat) :
    (st4 (vvqmul (ld3 g v) (ld4 q))).vec = (qmulVQ v q).vec := by
  simp only [Quat.vec, V3.mk.injEq]
  refine ⟨?_, ?_, ?_⟩ <;> simp [st4, vvqmul, shuffle, setLane, ld3, ld4, qmulVQ] <;> ring

/-- C22 fails for the scalar part of `aa_vec_vqmul`: its lane 3 multiplies `v_y` by `q_z`. -/
theorem C22_violates_vqmul : ∃ (v : V3) (q : Quat), ∀ g,
    st4 (vvqmul (ld3 g v) (ld4 q)) ≠ qmulVQ v q := by
  refine ⟨⟨0, 1, 0⟩, ⟨0, 1, 0, 0⟩, ?_⟩
  intro g h
  have := congrArg Quat.w h
  simp [st4, vvqmul, shuffle, setLane, ld3, ld4, qmulVQ, vdot, Quat.vec] at this

/-- C22: the two upper rows of `aa_vecm_tfmul_2d` are right for every input. -/
theorem C22_tfmul_2d_upper_partial (A B : Tfm) :
    (mtfmul2d A B).R.m0 = (tfmMul A B).R.m0 ∧ (mtfmul2d A B).R.m1 = (tfmMul A B).R.m1 ∧
    (mtfmul2d A B).R.m3 = (tfmMul A B).R.m3 ∧ (mtfmul2d A B).R.m4 = (tfmMul A B).R.m4 ∧
    (mtfmul2d A B).R.m6 = (tfmMul A B).R.m6 ∧ (mtfmul2d A B).R.m7 = (tfmMul A B).R.m7 ∧
    (mtfmul2d A B).v.x = (tfmMul A B).v.x ∧ (mtfmul2d A B).v.y = (tfmMul A B).v.y := by
  refine ⟨?_, ?_, ?_, ?_, ?_, ?_, ?_, ?_⟩ <;> simp [mtfmul2d, tfmMul, mul9, tfmTf] <;> ring

/-- C22 fails for `aa_vecm_tfmul_2d`: already identity times identity comes out wrong. -/
theorem C22_violates_tfmul_2d : mtfmul2d tfmident tfmident ≠ tfmMul tfmident tfmident := by
  intro h
  have := congrArg (fun T => T.R.m5) h
  simp [mtfmul2d, tfmident, m3ident, tfmMul, mul9] at this

end Verif.Vec
