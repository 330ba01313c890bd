import Verif.Model.TfVel
import Verif.Prop.Rigid
import Verif.Prop.Conv

/-!
# C72: frames built from axis directions

Specification: the result is a rotation (an element of the special orthogonal group), and the images
of the coordinate axes have the required directions.  Independence of two vectors is stated with
linear combinations.
-/

namespace Verif.Tf

/-- Two linearly independent vectors. -/
def Indep (a b : V3) : Prop :=
  ∀ s t, vadd (vscal s a) (vscal t b) = ⟨0, 0, 0⟩ → s = 0 ∧ t = 0

/-- `u` has the direction of the nonzero vector `v` and length one. -/
def Directed (u v : V3) : Prop := vnorm u = 1 ∧ ∃ n > 0, u = vscal n v

/-! ## Helpers -/

theorem vnorm_ne {v : V3} (h : v ≠ ⟨0, 0, 0⟩) : 0 < vnorm v := by
  rw [vnorm, Real.sqrt_pos]
  by_contra hc
  push Not at hc
  apply h
  obtain ⟨x, y, z⟩ := v
  simp only [vdot] at hc
  have hx := mul_self_nonneg x
  have hy := mul_self_nonneg y
  have hz := mul_self_nonneg z
  rw [V3.mk.injEq]
  exact ⟨mul_self_eq_zero.1 (by linarith), mul_self_eq_zero.1 (by linarith),
    mul_self_eq_zero.1 (by linarith)⟩

theorem vnormalize_eq (v : V3) : vnormalize v = vscal (1 / vnorm v) v := by
  simp only [vnormalize, vscal, vnorm]
  congr 1 <;> ring

theorem vnormalize_directed {v : V3} (h : v ≠ ⟨0, 0, 0⟩) : Directed (vnormalize v) v := by
  have hp := vnorm_ne h
  rw [vnormalize_eq]
  refine ⟨?_, 1 / vnorm v, by positivity, rfl⟩
  rw [vnorm_vscal, abs_of_pos (by positivity), one_div, inv_mul_cancel₀ hp.ne']

theorem Directed.dot {u v : V3} (h : Directed u v) : vdot u u = 1 := by
  rw [← vnorm_sq, h.1, one_mul]

/-- There is only one unit vector of a direction. -/
theorem Directed.unique {u u' v : V3} (h : Directed u v) (h' : Directed u' v) : u = u' := by
  obtain ⟨h1, n, hn, rfl⟩ := h
  obtain ⟨h2, m, hm, rfl⟩ := h'
  rw [vnorm_vscal, abs_of_pos hn] at h1
  rw [vnorm_vscal, abs_of_pos hm] at h2
  have hv : vnorm v ≠ 0 := by rintro h; rw [h, mul_zero] at h1; norm_num at h1
  have : n = m := mul_right_cancel₀ hv (h1.trans h2.symm)
  rw [this]

theorem Indep.cross_ne {a b : V3} (h : Indep a b) : cross a b ≠ ⟨0, 0, 0⟩ := by
  intro hc
  obtain ⟨a0, a1, a2⟩ := a
  obtain ⟨b0, b1, b2⟩ := b
  simp only [cross, V3.mk.injEq] at hc
  obtain ⟨c0, c1, c2⟩ := hc
  have hb := (h (b0 * b0 + b1 * b1 + b2 * b2) (-(a0 * b0 + a1 * b1 + a2 * b2)) (by
    simp only [vadd, vscal, V3.mk.injEq]
    refine ⟨?_, ?_, ?_⟩
    · linear_combination b1 * c2 - b2 * c1
    · linear_combination b2 * c0 - b0 * c2
    · linear_combination b0 * c1 - b1 * c0)).1
  have z0 : b0 = 0 := by nlinarith [mul_self_nonneg b0, mul_self_nonneg b1, mul_self_nonneg b2]
  have z1 : b1 = 0 := by nlinarith [mul_self_nonneg b0, mul_self_nonneg b1, mul_self_nonneg b2]
  have z2 : b2 = 0 := by nlinarith [mul_self_nonneg b0, mul_self_nonneg b1, mul_self_nonneg b2]
  have := (h 0 1 (by simp [vadd, vscal, z0, z1, z2])).2
  norm_num at this

theorem Indep.left {a b : V3} (h : Indep a b) : a ≠ ⟨0, 0, 0⟩ := by
  rintro rfl
  have := (h 1 0 (by simp [vadd, vscal])).1
  norm_num at this

theorem Indep.right {a b : V3} (h : Indep a b) : b ≠ ⟨0, 0, 0⟩ := by
  rintro rfl
  have := (h 0 1 (by simp [vadd, vscal])).2
  norm_num at this

/-- Two orthonormal vectors and their cross product form a rotation matrix. -/
theorem isRot_cols {a b : V3} (ha : vdot a a = 1) (hb : vdot b b = 1) (hab : vdot a b = 0) :
    IsRot (ofCols a b (cross a b)) := by
  obtain ⟨a0, a1, a2⟩ := a
  obtain ⟨b0, b1, b2⟩ := b
  simp only [vdot] at ha hb hab
  have hd : (a0 * b1 - b0 * a1) * (a0 * b1 - b0 * a1) + (a0 * b2 - b0 * a2) * (a0 * b2 - b0 * a2) +
      (a1 * b2 - b1 * a2) * (a1 * b2 - b1 * a2) = 1 := by
    linear_combination (b0 * b0 + b1 * b1 + b2 * b2) * ha + hb -
      (a0 * b0 + a1 * b1 + a2 * b2) * hab
  rw [IsRot, Matrix.mem_specialOrthogonalGroup_iff, Matrix.mem_orthogonalGroup_iff']
  constructor
  · ext i j
    fin_cases i <;> fin_cases j <;>
      simp [M3.den, ofCols, cross, Matrix.mul_apply, Fin.sum_univ_three] <;>
      first | linear_combination ha | linear_combination hb | linear_combination hab |
        linear_combination hd | ring
  · rw [Matrix.det_fin_three]
    simp [M3.den, ofCols, cross]
    linear_combination hd

theorem cross_cross_left {a b : V3} (ha : vdot a a = 1) (hab : vdot a b = 0) :
    cross (cross a b) a = b := by
  obtain ⟨a0, a1, a2⟩ := a
  obtain ⟨b0, b1, b2⟩ := b
  simp only [vdot, cross, V3.mk.injEq] at *
  refine ⟨?_, ?_, ?_⟩
  · linear_combination b0 * ha - a0 * hab
  · linear_combination b1 * ha - a1 * hab
  · linear_combination b2 * ha - a2 * hab

theorem cross_dot_self {a b : V3} (ha : vdot a a = 1) (hb : vdot b b = 1) (hab : vdot a b = 0) :
    vdot (cross a b) (cross a b) = 1 := by
  simp only [vdot, cross] at *
  linear_combination (b.x * b.x + b.y * b.y + b.z * b.z) * ha + hb -
    (a.x * b.x + a.y * b.y + a.z * b.z) * hab

theorem cross_perp (a b : V3) : vdot (cross a b) a = 0 ∧ vdot (cross a b) b = 0 := by
  simp only [vdot, cross]; constructor <;> ring

theorem normalized_perp {x y : V3} (h : vdot x y = 0) : vdot (vnormalize x) (vnormalize y) = 0 := by
  rw [vnormalize_eq, vnormalize_eq]
  simp only [vdot, vscal] at *
  linear_combination (1 / vnorm x) * (1 / vnorm y) * h

/-! ## The property -/

/-- **C72**, `aa_tf_rotmat_xy`: for perpendicular nonzero axes the result is the rotation that takes
the first two coordinate axes to the given directions. -/
theorem C72_rotmat_xy (x y : V3) (hx : x ≠ ⟨0, 0, 0⟩) (hy : y ≠ ⟨0, 0, 0⟩) (h : vdot x y = 0) :
    IsRot (rotmatXY x y) ∧ Directed (rot9 (rotmatXY x y) ⟨1, 0, 0⟩) x ∧
      Directed (rot9 (rotmatXY x y) ⟨0, 1, 0⟩) y := by
  have dx := vnormalize_directed hx
  have dy := vnormalize_directed hy
  refine ⟨isRot_cols dx.dot dy.dot (normalized_perp h), ?_, ?_⟩
  · simpa [rot9, rotmatXY, ofCols] using dx
  · simpa [rot9, rotmatXY, ofCols] using dy

/-- **C72**, `aa_tf_rotmat_yz`. -/
theorem C72_rotmat_yz (y z : V3) (hy : y ≠ ⟨0, 0, 0⟩) (hz : z ≠ ⟨0, 0, 0⟩) (h : vdot y z = 0) :
    IsRot (rotmatYZ y z) ∧ Directed (rot9 (rotmatYZ y z) ⟨0, 1, 0⟩) y ∧
      Directed (rot9 (rotmatYZ y z) ⟨0, 0, 1⟩) z := by
  have dy := vnormalize_directed hy
  have dz := vnormalize_directed hz
  have hp := normalized_perp h
  refine ⟨?_, ?_, ?_⟩
  · have := isRot_cols (cross_dot_self dy.dot dz.dot hp) dy.dot (cross_perp _ _).1
    rwa [cross_cross_left dy.dot hp] at this
  · simpa [rot9, rotmatYZ, ofCols] using dy
  · simpa [rot9, rotmatYZ, ofCols] using dz

/-- **C72**, `aa_tf_rotmat_zx`. -/
theorem C72_rotmat_zx (z x : V3) (hz : z ≠ ⟨0, 0, 0⟩) (hx : x ≠ ⟨0, 0, 0⟩) (h : vdot z x = 0) :
    IsRot (rotmatZX z x) ∧ Directed (rot9 (rotmatZX z x) ⟨0, 0, 1⟩) z ∧
      Directed (rot9 (rotmatZX z x) ⟨1, 0, 0⟩) x := by
  have dz := vnormalize_directed hz
  have dx := vnormalize_directed hx
  have hp := normalized_perp h
  refine ⟨?_, ?_, ?_⟩
  · have e : cross (vnormalize x) (cross (vnormalize z) (vnormalize x)) = vnormalize z := by
      have h1 := dx.dot
      generalize vnormalize x = a at *
      generalize vnormalize z = b at *
      obtain ⟨a0, a1, a2⟩ := a
      obtain ⟨b0, b1, b2⟩ := b
      simp only [vdot, cross, V3.mk.injEq] at *
      refine ⟨?_, ?_, ?_⟩
      · linear_combination b0 * h1 - a0 * hp
      · linear_combination b1 * h1 - a1 * hp
      · linear_combination b2 * h1 - a2 * hp
    have hq : vdot (vnormalize x) (cross (vnormalize z) (vnormalize x)) = 0 := by
      rw [← (cross_perp (vnormalize z) (vnormalize x)).2]; simp only [vdot]; ring
    have := isRot_cols dx.dot (cross_dot_self dz.dot dx.dot hp) hq
    rwa [e] at this
  · simpa [rot9, rotmatZX, ofCols] using dz
  · simpa [rot9, rotmatZX, ofCols] using dx

/-- The axes have to be perpendicular: the code does not make them so. -/
theorem C72_needs_perpendicular : ¬ IsRot (rotmatXY ⟨1, 0, 0⟩ ⟨3, 4, 0⟩) := by
  intro h
  have := h.eqs.c01
  have h1 : Real.sqrt 25 = 5 := by rw [Real.sqrt_eq_iff_mul_self_eq] <;> norm_num
  norm_num [rotmatXY, ofCols, vnormalize, vdot, h1] at this

theorem vnorm_cross {z x : V3} (h : vdot z x = 0) : vnorm (cross z x) = vnorm z * vnorm x := by
  have e : vdot (cross z x) (cross z x) = vdot z z * vdot x x := by
    simp only [vdot, cross] at *
    linear_combination -(z.x * x.x + z.y * x.y + z.z * x.z) * h
  rw [vnorm, e, Real.sqrt_mul (vdot_nonneg z)]; rfl

theorem vnormalize_cross {z x : V3} (h : vdot z x = 0) :
    vnormalize (cross z x) = cross (vnormalize z) (vnormalize x) := by
  rw [vnormalize_eq, vnormalize_eq, vnormalize_eq, vnorm_cross h]
  simp only [vscal, cross, V3.mk.injEq]
  refine ⟨?_, ?_, ?_⟩ <;> ring

theorem vnormalize_unit {v : V3} (h : vdot v v = 1) : vnormalize v = v := by
  rw [vnormalize_eq, vnorm, h]; simp [vscal]

/-- `aa_tf_rotmat_normalize` amounts to `aa_tf_rotmat_zx` of the normal and the first column. -/
theorem rotmatNormalize_eq (R : M3) (h : Indep ⟨R.m0, R.m1, R.m2⟩ ⟨R.m3, R.m4, R.m5⟩) :
    rotmatNormalize R = rotmatZX (cross ⟨R.m0, R.m1, R.m2⟩ ⟨R.m3, R.m4, R.m5⟩) ⟨R.m0, R.m1, R.m2⟩ := by
  simp only [rotmatNormalize, rotmatZX]
  have hx := (vnormalize_directed h.left).dot
  have hz := (vnormalize_directed h.cross_ne).dot
  have hp := (cross_perp ⟨R.m0, R.m1, R.m2⟩ ⟨R.m3, R.m4, R.m5⟩).1
  generalize cross ⟨R.m0, R.m1, R.m2⟩ ⟨R.m3, R.m4, R.m5⟩ = c at *
  generalize (⟨R.m0, R.m1, R.m2⟩ : V3) = a at *
  have hp' := normalized_perp hp
  have hq : vdot (vnormalize c) a = 0 := by
    rw [vnormalize_eq]; simp only [vdot, vscal] at *; linear_combination (1 / vnorm c) * hp
  rw [vnormalize_cross hq, vnormalize_unit hz, cross_cross_left hz hp', vnormalize_unit hx]

/-- **C72**, `aa_tf_rotmat_normalize`: if the first two columns are independent the result is a
rotation, whose first axis has the direction of the first column and whose second axis lies in the
half plane spanned by the second column; a rotation stays as it is. -/
theorem C72_rotmat_normalize (R : M3) (h : Indep ⟨R.m0, R.m1, R.m2⟩ ⟨R.m3, R.m4, R.m5⟩) :
    IsRot (rotmatNormalize R) ∧
      Directed (rot9 (rotmatNormalize R) ⟨1, 0, 0⟩) ⟨R.m0, R.m1, R.m2⟩ ∧
      (∃ s t, 0 < s ∧ rot9 (rotmatNormalize R) ⟨0, 1, 0⟩ =
        vadd (vscal s ⟨R.m3, R.m4, R.m5⟩) (vscal t ⟨R.m0, R.m1, R.m2⟩)) ∧
      (IsRot R → rotmatNormalize R = R) := by
  have e := rotmatNormalize_eq R h
  have hc := h.cross_ne
  have hp := (cross_perp ⟨R.m0, R.m1, R.m2⟩ ⟨R.m3, R.m4, R.m5⟩).1
  obtain ⟨z1, -, z3⟩ := C72_rotmat_zx _ _ hc h.left hp
  rw [e]
  refine ⟨z1, z3, ?_, ?_⟩
  · obtain ⟨-, n, hn, en⟩ := vnormalize_directed hc
    obtain ⟨-, m, hm, em⟩ := vnormalize_directed h.left
    have ha : 0 < R.m0 * R.m0 + R.m1 * R.m1 + R.m2 * R.m2 := by
      have := vnorm_ne h.left
      have := mul_pos this this
      rw [vnorm_sq] at this
      exact this
    refine ⟨n * m * (R.m0 * R.m0 + R.m1 * R.m1 + R.m2 * R.m2),
      -(n * m * (R.m0 * R.m3 + R.m1 * R.m4 + R.m2 * R.m5)), by positivity, ?_⟩
    simp only [rotmatZX, en, em]
    simp only [rot9, ofCols, vscal, cross, vadd, V3.mk.injEq]
    refine ⟨?_, ?_, ?_⟩ <;> ring
  · intro hR
    have q := hR.eqs
    have hx : vdot (⟨R.m0, R.m1, R.m2⟩ : V3) ⟨R.m0, R.m1, R.m2⟩ = 1 := q.c00
    have hz : cross ⟨R.m0, R.m1, R.m2⟩ ⟨R.m3, R.m4, R.m5⟩ = ⟨R.m6, R.m7, R.m8⟩ := by
      simp only [cross, V3.mk.injEq]
      refine ⟨?_, ?_, ?_⟩
      · linear_combination q.k6
      · linear_combination q.k7
      · linear_combination q.k8
    have hzz : vdot (⟨R.m6, R.m7, R.m8⟩ : V3) ⟨R.m6, R.m7, R.m8⟩ = 1 := q.c22
    have hy : cross ⟨R.m6, R.m7, R.m8⟩ ⟨R.m0, R.m1, R.m2⟩ = ⟨R.m3, R.m4, R.m5⟩ := by
      simp only [cross, V3.mk.injEq]
      refine ⟨?_, ?_, ?_⟩
      · linear_combination q.k3
      · linear_combination q.k4
      · linear_combination q.k5
    rw [hz, rotmatZX, vnormalize_unit hx, vnormalize_unit hzz, hy]
    rfl

/-- A rotation has independent columns, so normalizing twice is normalizing once. -/
theorem C72_normalize_idempotent (R : M3) (h : Indep ⟨R.m0, R.m1, R.m2⟩ ⟨R.m3, R.m4, R.m5⟩) :
    rotmatNormalize (rotmatNormalize R) = rotmatNormalize R := by
  obtain ⟨hr, -⟩ := C72_rotmat_normalize R h
  refine (C72_rotmat_normalize _ ?_).2.2.2 hr
  have q := hr.eqs
  intro s t hst
  simp only [vadd, vscal, V3.mk.injEq] at hst
  obtain ⟨e0, e1, e2⟩ := hst
  constructor
  · linear_combination (-s) * q.c00 - t * q.c01 + (rotmatNormalize R).m0 * e0 +
      (rotmatNormalize R).m1 * e1 + (rotmatNormalize R).m2 * e2
  · linear_combination (-t) * q.c11 - s * q.c01 + (rotmatNormalize R).m3 * e0 +
      (rotmatNormalize R).m4 * e1 + (rotmatNormalize R).m5 * e2

/-- The vector from the target to the eye. -/
def toEye (eye target : V3) : V3 := ⟨eye.x - target.x, eye.y - target.y, eye.z - target.z⟩

theorem mzlook_eq (eye target up : V3) : rotmatMzlook eye target up =
    rotmatZX (toEye eye target) (cross up (toEye eye target)) := by
  have e : (⟨-target.x + eye.x, -target.y + eye.y, -target.z + eye.z⟩ : V3) = toEye eye target := by
    simp only [toEye, V3.mk.injEq]; refine ⟨?_, ?_, ?_⟩ <;> ring
  have hp : vdot (toEye eye target) (cross up (toEye eye target)) = 0 := by
    simp only [vdot, cross]; ring
  simp only [rotmatMzlook, e, rotmatZX, vnormalize_cross hp]

/-- **C72**, the camera frame: the result is a rotation whose z axis points from the target to the
eye, whose x axis is perpendicular to the up vector and whose y axis is on its side; the frame has its
origin in the eye and sees the target on its negative z axis.  The quaternion forms describe the same
frame. -/
theorem C72_mzlook (eye target up : V3) (h : Indep up (toEye eye target)) :
    IsRot (rotmatMzlook eye target up) ∧
      Directed (rot9 (rotmatMzlook eye target up) ⟨0, 0, 1⟩) (toEye eye target) ∧
      vdot (rot9 (rotmatMzlook eye target up) ⟨1, 0, 0⟩) up = 0 ∧
      0 < vdot (rot9 (rotmatMzlook eye target up) ⟨0, 1, 0⟩) up ∧
      tfmTf (tfmatMzlook eye target up) ⟨0, 0, 0⟩ = eye ∧
      tfmTf (tfmatMzlook eye target up) ⟨0, 0, -vnorm (toEye eye target)⟩ = target ∧
      Unit (qmzlook eye target up) ∧ (qutrMzlook eye target up).Valid ∧
      qutrTf (qutrMzlook eye target up) = tfmTf (tfmatMzlook eye target up) := by
  have hc := h.cross_ne
  have hz := h.right
  have hp : vdot (toEye eye target) (cross up (toEye eye target)) = 0 := by
    simp only [vdot, cross]; ring
  obtain ⟨z1, z2, -⟩ := C72_rotmat_zx _ _ hz hc hp
  have hn := vnorm_ne hz
  have hd : vdot (rot9 (rotmatMzlook eye target up) ⟨1, 0, 0⟩) up = 0 ∧
      0 < vdot (rot9 (rotmatMzlook eye target up) ⟨0, 1, 0⟩) up := by
    rw [mzlook_eq]
    obtain ⟨-, n, hn, en⟩ := vnormalize_directed hc
    obtain ⟨-, m, hm, em⟩ := vnormalize_directed hz
    have hq : 0 < vdot (cross up (toEye eye target)) (cross up (toEye eye target)) := by
      rw [← vnorm_sq]; exact mul_pos (vnorm_ne hc) (vnorm_ne hc)
    simp only [rotmatZX, en, em]
    constructor
    · simp only [rot9, ofCols, vscal, cross, vdot]; ring
    · have : vdot (rot9 (ofCols (vscal n (cross up (toEye eye target)))
          (cross (vscal m (toEye eye target)) (vscal n (cross up (toEye eye target))))
          (vscal m (toEye eye target))) ⟨0, 1, 0⟩) up =
          m * n * vdot (cross up (toEye eye target)) (cross up (toEye eye target)) := by
        simp only [rot9, ofCols, vscal, cross, vdot]; ring
      rw [this]; positivity
  have hu := C25_rotmat2quat _ z1
  refine ⟨by rw [mzlook_eq]; exact z1, by rw [mzlook_eq]; exact z2, hd.1, hd.2, ?_, ?_, ?_, ?_, ?_⟩
  · simp [tfmTf, tfmatMzlook]
  · simp only [tfmTf, tfmatMzlook, mzlook_eq, rotmatZX, ofCols]
    have e := vnormalize_eq (toEye eye target)
    rw [e]
    generalize hN : vnorm (toEye eye target) = N at *
    simp only [toEye, vscal]
    ext <;> simp only [mul_zero, add_zero] <;> field_simp <;> ring
  · rw [qmzlook, mzlook_eq]; exact hu.1
  · rw [Qutr.Valid, qutrMzlook, qmzlook, mzlook_eq]; exact hu.1
  · funext p
    rw [← C26_point.1, qutr2tfmat, qutrMzlook, qmzlook, tfmatMzlook, mzlook_eq, hu.2.1]

/-! The hypotheses hold: looking from (1, 0, 0) at the origin with z up. -/

example : Indep ⟨0, 0, 1⟩ (toEye ⟨1, 0, 0⟩ ⟨0, 0, 0⟩) := by
  intro s t h
  simp [vadd, vscal, toEye] at h
  exact ⟨h.2, h.1⟩

example : Indep ⟨2, 0, 0⟩ ⟨1, 3, 0⟩ := by
  intro s t h
  simp [vadd, vscal] at h
  obtain ⟨h1, h2⟩ := h
  subst h2
  simpa using h1

example : (⟨1, 2, 0⟩ : V3) ≠ ⟨0, 0, 0⟩ ∧ vdot ⟨1, 2, 0⟩ ⟨-2, 1, 5⟩ = 0 := by
  norm_num [vdot]

end Verif.Tf
