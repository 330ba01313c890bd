import Verif.Model.TfCheck
import Verif.Prop.Conv
import Verif.Prop.Frames
import Verif.Prop.Rigid

/-!
# C112, C113, C114, C115: rotation test, nearest rotation vectors, projections, random poses
-/

namespace Verif.Tf

open Matrix Quaternion

/-! ## C112: the test for rotation matrices -/

theorem veq_arr (A B : M3) (t : ℝ) : veq t A.arr B.arr = true ↔
    |A.m0 - B.m0| ≤ t ∧ |A.m1 - B.m1| ≤ t ∧ |A.m2 - B.m2| ≤ t ∧ |A.m3 - B.m3| ≤ t ∧ |A.m4 - B.m4| ≤ t ∧
    |A.m5 - B.m5| ≤ t ∧ |A.m6 - B.m6| ≤ t ∧ |A.m7 - B.m7| ≤ t ∧ |A.m8 - B.m8| ≤ t := by
  have st : ∀ a b as bs, veq t (a :: as) (b :: bs) = true ↔ |a - b| ≤ t ∧ veq t as bs = true := by
    intro a b as bs
    simp only [veq, feq]
    by_cases h : |a - b| ≤ t <;> simp [h]
  simp only [M3.arr, st]
  simp [veq]

theorem det3x3_eq (R : M3) : det3x3 R = R.den.det := by
  rw [Matrix.det_fin_three]; simp [det3x3, M3.den]; ring

/-- Contract of the inverse: it inverts every invertible matrix. Nothing is known about others. -/
def Inverts (inv : M3 → M3) : Prop := ∀ R : M3, R.den.det ≠ 0 → R.den * (inv R).den = 1

/-- **C112 (complete).** Every rotation matrix passes. -/
theorem C112_accepts (inv : M3 → M3) (hi : Inverts inv) (R : M3) (h : IsRot R) : isrotmat inv R = true := by
  obtain ⟨ho, hd⟩ := Matrix.mem_specialOrthogonalGroup_iff.1 h
  have h1 := hi R (by rw [hd]; norm_num)
  have ho1 : R.den * R.denᵀ = 1 := (Matrix.mem_orthogonalGroup_iff _ _).1 ho
  have ho2 : R.denᵀ * R.den = 1 := mul_eq_one_comm.1 ho1
  have e : (inv R).den = R.denᵀ := by
    calc (inv R).den = (R.denᵀ * R.den) * (inv R).den := by rw [ho2, one_mul]
      _ = R.denᵀ := by rw [mul_assoc, h1, mul_one]
  have e' : ∀ i j, (inv R).den i j = R.den j i := fun i j => by rw [e]; rfl
  have a00 := e' 0 0; have a01 := e' 0 1; have a02 := e' 0 2
  have a10 := e' 1 0; have a11 := e' 1 1; have a12 := e' 1 2
  have a20 := e' 2 0; have a21 := e' 2 1; have a22 := e' 2 2
  simp [M3.den] at a00 a01 a02 a10 a11 a12 a20 a21 a22
  rw [isrotmat, Bool.and_eq_true, veq_arr, feq, det3x3_eq, hd]
  norm_num [transp, a00, a01, a02, a10, a11, a12, a20, a21, a22]

theorem row_bound {a b c e f g : ℝ} (t : ℝ) (h0 : 0 ≤ t) (ht : t ≤ 0.0001) (he : |e| ≤ t) (hf : |f| ≤ t) (hg : |g| ≤ t)
    (h : a * a + b * b + c * c ≤ 1.0003) : |a * e + b * f + c * g| ≤ 0.0002 := by
  have h1 : |a * e + b * f + c * g| ≤ |a| * t + |b| * t + |c| * t := by
    refine (abs_add_three _ _ _).trans ?_
    rw [abs_mul, abs_mul, abs_mul]
    gcongr
  have h2 : |a| + |b| + |c| ≤ 1.8 := by
    nlinarith [abs_mul_abs_self a, abs_mul_abs_self b, abs_mul_abs_self c, sq_nonneg (|a| - |b|), sq_nonneg (|b| - |c|),
      sq_nonneg (|a| - |c|), abs_nonneg a, abs_nonneg b, abs_nonneg c]
  nlinarith [abs_nonneg a, abs_nonneg b, abs_nonneg c]

theorem row_norm {a b c e f g : ℝ} (he : |e| ≤ 0.0001) (hf : |f| ≤ 0.0001) (hg : |g| ≤ 0.0001)
    (h : a * a + b * b + c * c = 1 + (a * e + b * f + c * g)) : a * a + b * b + c * c ≤ 1.0003 := by
  have h1 : a * e + b * f + c * g ≤ |a| * 0.0001 + |b| * 0.0001 + |c| * 0.0001 := by
    refine (le_abs_self _).trans ((abs_add_three _ _ _).trans ?_)
    rw [abs_mul, abs_mul, abs_mul]
    gcongr
  have h2 : ∀ x : ℝ, |x| * 0.0001 ≤ 0.00005 * (x * x) + 0.00005 := fun x => by
    nlinarith [sq_nonneg (|x| - 1), abs_mul_abs_self x]
  nlinarith [h2 a, h2 b, h2 c]

theorem near_orth (A B : Matrix (Fin 3) (Fin 3) ℝ) (h : A * B = 1) (he : ∀ i j, |A j i - B i j| ≤ 0.0001) :
    ∀ i j, |(A * Aᵀ - 1) i j| ≤ 0.0002 := by
  have e : ∀ i j, (A * Aᵀ - 1) i j = A i 0 * (A j 0 - B 0 j) + A i 1 * (A j 1 - B 1 j) + A i 2 * (A j 2 - B 2 j) := by
    intro i j
    rw [← h, Matrix.sub_apply, Matrix.mul_apply, Matrix.mul_apply, Fin.sum_univ_three, Fin.sum_univ_three]
    simp only [Matrix.transpose_apply]
    ring
  have n : ∀ i, A i 0 * A i 0 + A i 1 * A i 1 + A i 2 * A i 2 ≤ 1.0003 := by
    intro i
    refine row_norm (he 0 i) (he 1 i) (he 2 i) ?_
    rw [← e i i, Matrix.sub_apply, Matrix.one_apply_eq, Matrix.mul_apply, Fin.sum_univ_three]
    simp only [Matrix.transpose_apply]
    ring
  intro i j
  rw [e]
  exact row_bound 0.0001 (by norm_num) le_rfl (he 0 j) (he 1 j) (he 2 j) (n i)

theorem quad_bound {a b c d e f x y z : ℝ} (ha : |a| ≤ 0.0002) (hb : |b| ≤ 0.0002) (hc : |c| ≤ 0.0002)
    (hd : |d| ≤ 0.0002) (he : |e| ≤ 0.0002) (hf : |f| ≤ 0.0002) :
    |a * (x * x) + b * (y * y) + c * (z * z) + d * (2 * (x * y)) + e * (2 * (x * z)) + f * (2 * (y * z))| ≤
      0.0006 * (x * x + y * y + z * z) := by
  have k : ∀ a y : ℝ, |a| ≤ 0.0002 → |a * y| ≤ 0.0002 * |y| := fun a y ha => by
    rw [abs_mul]; gcongr
  have cr : ∀ y z : ℝ, |2 * (y * z)| ≤ y * y + z * z := fun y z =>
    abs_le.2 ⟨by nlinarith [sq_nonneg (y + z)], by nlinarith [sq_nonneg (y - z)]⟩
  have s1 := abs_le.1 (k a (x * x) ha); have s2 := abs_le.1 (k b (y * y) hb); have s3 := abs_le.1 (k c (z * z) hc)
  have s4 := abs_le.1 (k d (2 * (x * y)) hd); have s5 := abs_le.1 (k e (2 * (x * z)) he)
  have s6 := abs_le.1 (k f (2 * (y * z)) hf)
  rw [abs_mul_self] at s1 s2 s3
  have u1 := cr x y
  have u2 := cr x z
  have u3 := cr y z
  exact abs_le.2 ⟨by linarith [s1.1, s2.1, s3.1, s4.1, s5.1, s6.1], by linarith [s1.2, s2.2, s3.2, s4.2, s5.2, s6.2]⟩

/-- **C112 (sound).** A matrix that passes has determinant within `0.0001` of one, rows and columns that are
orthonormal within `0.0002`, and changes the square of no length by more than 0.06 percent. -/
theorem C112_sound (inv : M3 → M3) (hi : Inverts inv) (R : M3) (h : isrotmat inv R = true) :
    |R.den.det - 1| ≤ 0.0001 ∧ (∀ i j, |(R.den * R.denᵀ - 1) i j| ≤ 0.0002) ∧
    (∀ i j, |(R.denᵀ * R.den - 1) i j| ≤ 0.0002) ∧
    ∀ x : V3, |vdot (rot9 R x) (rot9 R x) - vdot x x| ≤ 0.0006 * vdot x x := by
  rw [isrotmat, Bool.and_eq_true, veq_arr, feq, det3x3_eq, decide_eq_true_iff] at h
  obtain ⟨⟨a0, a1, a2, a3, a4, a5, a6, a7, a8⟩, hd⟩ := h
  simp only [transp] at a0 a1 a2 a3 a4 a5 a6 a7 a8
  have hd0 : R.den.det ≠ 0 := by
    intro h0; rw [h0] at hd; norm_num at hd
  have h1 := hi R hd0
  have h2 : (inv R).den * R.den = 1 := mul_eq_one_comm.1 h1
  have he : ∀ i j, |R.den j i - (inv R).den i j| ≤ 0.0001 := by
    intro i j
    fin_cases i <;> fin_cases j <;> simpa [M3.den]
  have h3 : R.denᵀ * (inv R).denᵀ = 1 := by rw [← Matrix.transpose_mul, h2, Matrix.transpose_one]
  have hc := near_orth R.denᵀ (inv R).denᵀ h3 (fun i j => he j i)
  rw [Matrix.transpose_transpose] at hc
  refine ⟨hd, near_orth _ _ h1 he, hc, fun x => ?_⟩
  have g := fun i j => abs_le.1 (hc i j)
  simp only [Matrix.sub_apply, Matrix.mul_apply, Fin.sum_univ_three, Matrix.transpose_apply] at g
  have g00 := g 0 0; have g01 := g 0 1; have g02 := g 0 2; have g11 := g 1 1; have g12 := g 1 2; have g22 := g 2 2
  simp [M3.den] at g00 g01 g02 g11 g12 g22
  have e : vdot (rot9 R x) (rot9 R x) - vdot x x =
      (R.m0 * R.m0 + R.m1 * R.m1 + R.m2 * R.m2 - 1) * (x.x * x.x) +
      (R.m3 * R.m3 + R.m4 * R.m4 + R.m5 * R.m5 - 1) * (x.y * x.y) +
      (R.m6 * R.m6 + R.m7 * R.m7 + R.m8 * R.m8 - 1) * (x.z * x.z) +
      (R.m0 * R.m3 + R.m1 * R.m4 + R.m2 * R.m5) * (2 * (x.x * x.y)) +
      (R.m0 * R.m6 + R.m1 * R.m7 + R.m2 * R.m8) * (2 * (x.x * x.z)) +
      (R.m3 * R.m6 + R.m4 * R.m7 + R.m5 * R.m8) * (2 * (x.y * x.z)) := by
    simp only [vdot, rot9]; ring
  rw [e, vdot]
  exact quad_bound (abs_le.2 ⟨by linarith [g00.1], by linarith [g00.2]⟩) (abs_le.2 ⟨by linarith [g11.1], by linarith [g11.2]⟩)
    (abs_le.2 ⟨by linarith [g22.1], by linarith [g22.2]⟩) (abs_le.2 ⟨by linarith [g01.1], by linarith [g01.2]⟩)
    (abs_le.2 ⟨by linarith [g02.1], by linarith [g02.2]⟩) (abs_le.2 ⟨by linarith [g12.1], by linarith [g12.2]⟩)

/-- an inverse as the contract wants it, and matrices that pass and do not pass. -/
noncomputable def invAdj (R : M3) : M3 :=
  let d := det3x3 R
  ⟨(R.m4 * R.m8 - R.m7 * R.m5) / d, (R.m7 * R.m2 - R.m1 * R.m8) / d, (R.m1 * R.m5 - R.m4 * R.m2) / d,
   (R.m6 * R.m5 - R.m3 * R.m8) / d, (R.m0 * R.m8 - R.m6 * R.m2) / d, (R.m3 * R.m2 - R.m0 * R.m5) / d,
   (R.m3 * R.m7 - R.m6 * R.m4) / d, (R.m6 * R.m1 - R.m0 * R.m7) / d, (R.m0 * R.m4 - R.m3 * R.m1) / d⟩

theorem invAdj_inverts : Inverts invAdj := by
  intro R h
  rw [← det3x3_eq] at h
  ext i j
  rw [Matrix.mul_apply, Fin.sum_univ_three]
  fin_cases i <;> fin_cases j <;> simp [M3.den, invAdj] <;> field_simp <;> simp only [det3x3] <;> ring

example : isrotmat invAdj ⟨0, 1, 0, -1, 0, 0, 0, 0, 1⟩ = true ∧ isrotmat invAdj ⟨0, 1, 0, 1, 0, 0, 0, 0, 1⟩ = false ∧
    isrotmat invAdj ⟨2, 0, 0, 0, 1 / 2, 0, 0, 0, 1⟩ = false := by
  refine ⟨?_, ?_, ?_⟩
  · rw [isrotmat, Bool.and_eq_true, veq_arr, feq]; norm_num [invAdj, det3x3, transp]
  · rw [← Bool.not_eq_true, isrotmat, Bool.and_eq_true, veq_arr, feq]; norm_num [invAdj, det3x3, transp]
  · rw [← Bool.not_eq_true, isrotmat, Bool.and_eq_true, veq_arr, feq]; norm_num [invAdj, det3x3, transp]

/-- a matrix that is not a rotation passes: the test is not exact. -/
example : isrotmat invAdj ⟨1, 0, 0, 0, 1, 0, 0, 0, 1.00001⟩ = true ∧ ¬ IsRot ⟨1, 0, 0, 0, 1, 0, 0, 0, 1.00001⟩ := by
  refine ⟨?_, fun h => ?_⟩
  · rw [isrotmat, Bool.and_eq_true, veq_arr, feq]
    norm_num [invAdj, det3x3, transp, abs_le]
  · have := h.eqs.r22; norm_num at this

/-! ## C113: nearest rotation vectors -/

/-- the two rotation vectors stand for the same rotation: equal quaternions up to sign. -/
def SameRot (r s : V3) : Prop := s.rotvecDen = r.rotvecDen ∨ s.rotvecDen = -r.rotvecDen

/-- `s` is a rotation vector of the rotation of `q`. -/
def RotvecOf (q : Quat) (s : V3) : Prop := s.rotvecDen = q.den ∨ s.rotvecDen = -q.den

theorem rotvecDen_axis (t : ℝ) {u : V3} (hu : vnorm u = 1) :
    (vscal t u).rotvecDen = ⟨Real.cos (t / 2), Real.sin (t / 2) * u.x, Real.sin (t / 2) * u.y, Real.sin (t / 2) * u.z⟩ := by
  have e : (1 / 2 : ℝ) • (vscal t u).pure = (t / 2) • u.pure := by
    rw [vscal_pure, smul_smul]; congr 1; ring
  rw [V3.rotvecDen, e, exp_axis _ hu]
  ext
  · show Real.cos (t / 2) + Real.sin (t / 2) * 0 = _; ring
  · show 0 + Real.sin (t / 2) * u.x = _; ring
  · show 0 + Real.sin (t / 2) * u.y = _; ring
  · show 0 + Real.sin (t / 2) * u.z = _; ring

theorem unit_dot {u : V3} (hu : vnorm u = 1) : u.x * u.x + u.y * u.y + u.z * u.z = 1 := by
  have := vnorm_sq u; rw [hu] at this; simp only [vdot] at this; linarith

theorem same_rot_axis {t : ℝ} {u r : V3} (hu : vnorm u = 1) (ht : Real.sin (t / 2) ≠ 0)
    (h : SameRot (vscal t u) r) : ∃ k : ℤ, r = vscal (t + k * 2 * Real.pi) u := by
  obtain ⟨ε, hε, h⟩ : ∃ ε : ℝ, ε * ε = 1 ∧ r.rotvecDen = ε • (vscal t u).rotvecDen := by
    rcases h with h | h
    · exact ⟨1, by norm_num, by rw [h, one_smul]⟩
    · exact ⟨-1, by norm_num, by rw [h, neg_one_smul]⟩
  have huu := unit_dot hu
  by_cases hr : vnorm r = 0
  · exfalso
    have h0 : r = vscal 0 u := by
      have h1 := vnorm_sq r
      rw [hr, zero_mul] at h1
      simp only [vdot] at h1
      ext <;> simp only [vscal] <;> nlinarith [sq_nonneg r.x, sq_nonneg r.y, sq_nonneg r.z]
    rw [h0, rotvecDen_axis _ hu, rotvecDen_axis _ hu] at h
    have e1 : Real.sin (0 / 2) * u.x = ε * (Real.sin (t / 2) * u.x) := congrArg (fun q : ℍ[ℝ] => q.imI) h
    have e2 : Real.sin (0 / 2) * u.y = ε * (Real.sin (t / 2) * u.y) := congrArg (fun q : ℍ[ℝ] => q.imJ) h
    have e3 : Real.sin (0 / 2) * u.z = ε * (Real.sin (t / 2) * u.z) := congrArg (fun q : ℍ[ℝ] => q.imK) h
    rw [zero_div, Real.sin_zero, zero_mul] at e1 e2 e3
    apply ht
    have : Real.sin (t / 2) * (ε * ε) * (u.x * u.x + u.y * u.y + u.z * u.z) = 0 := by
      linear_combination -ε * u.x * e1 - ε * u.y * e2 - ε * u.z * e3
    rwa [hε, huu, mul_one, mul_one] at this
  · obtain ⟨n, w, hw, hrw⟩ : ∃ n w, vnorm w = 1 ∧ r = vscal n w := by
      refine ⟨vnorm r, vscal (1 / vnorm r) r, ?_, ?_⟩
      · rw [vnorm_vscal, abs_of_nonneg (by have := vnorm_nonneg r; positivity)]; field_simp
      · ext <;> simp [vscal] <;> field_simp
    have hww := unit_dot hw
    rw [hrw, rotvecDen_axis _ hw, rotvecDen_axis _ hu] at h
    have e0 : Real.cos (n / 2) = ε * Real.cos (t / 2) := congrArg (fun q : ℍ[ℝ] => q.re) h
    have e1 : Real.sin (n / 2) * w.x = ε * (Real.sin (t / 2) * u.x) := congrArg (fun q : ℍ[ℝ] => q.imI) h
    have e2 : Real.sin (n / 2) * w.y = ε * (Real.sin (t / 2) * u.y) := congrArg (fun q : ℍ[ℝ] => q.imJ) h
    have e3 : Real.sin (n / 2) * w.z = ε * (Real.sin (t / 2) * u.z) := congrArg (fun q : ℍ[ℝ] => q.imK) h
    have hs : Real.sin (n / 2) * Real.sin (n / 2) = Real.sin (t / 2) * Real.sin (t / 2) := by
      have h1 := Real.sin_sq_add_cos_sq (n / 2)
      have h2 := Real.sin_sq_add_cos_sq (t / 2)
      rw [e0] at h1
      linear_combination h1 - h2 - Real.cos (t / 2) ^ 2 * hε
    -- the axes are parallel
    obtain ⟨σ, hσ, hwu⟩ : ∃ σ : ℝ, σ * σ = 1 ∧ w = vscal σ u ∧ σ * Real.sin (n / 2) = ε * Real.sin (t / 2) := by
      rcases mul_self_eq_mul_self_iff.1 hs with hs | hs
      · rw [hs] at e1 e2 e3
        refine ⟨ε, hε, ?_, by rw [hs]⟩
        ext <;> simp only [vscal] <;> apply mul_left_cancel₀ ht <;> linarith
      · rw [hs] at e1 e2 e3
        refine ⟨-ε, by linarith, ?_, by rw [hs]; ring⟩
        ext <;> simp only [vscal] <;> apply mul_left_cancel₀ ht <;> linarith
    obtain ⟨hwu, hsin⟩ := hwu
    have hc : Real.cos (σ * n / 2) = ε * Real.cos (t / 2) ∧ Real.sin (σ * n / 2) = ε * Real.sin (t / 2) := by
      rw [← e0, ← hsin]
      rcases mul_self_eq_one_iff.1 hσ with h | h <;> rw [h]
      · simp
      · rw [show -1 * n / 2 = -(n / 2) by ring, Real.cos_neg, Real.sin_neg]; simp
    have hz : Real.sin (σ * n / 2 - t / 2) = 0 := by
      rw [Real.sin_sub, hc.1, hc.2]; ring
    obtain ⟨k, hk⟩ := Real.sin_eq_zero_iff.1 hz
    refine ⟨k, ?_⟩
    have : n * σ = t + k * 2 * Real.pi := by linarith
    rw [hrw, hwu, ← this]
    ext <;> simp only [vscal] <;> ring

theorem rotvecPermute_axis (r : V3) (k : ℤ) (h : 0.0001 ≤ vnorm r) :
    rotvecPermute r k = vscal (vnorm r + k * 2 * Real.pi) (vscal (1 / vnorm r) r) := by
  have hb : ¬ vdot r r < 0.0001 * 0.0001 := by
    rw [← vnorm_sq]; push Not
    exact mul_le_mul h h (by norm_num) (vnorm_nonneg _)
  simp only [rotvecPermute, rotvec2axang, if_neg hb, axangPermute, axang2rotvec]
  ext <;> simp only [vscal, vnorm] <;> ring

theorem ssd3_axis (near : V3) (t : ℝ) {u : V3} (hu : vnorm u = 1) :
    ssd3 near (vscal t u) = (t - vdot near u) ^ 2 + (vdot near near - vdot near u ^ 2) := by
  have := unit_dot hu
  simp only [ssd3, vscal, vdot]
  linear_combination t ^ 2 * this

/-- **C113 (partial).** If the given vector is at least `0.0001` long, does not stand for the identity and lies
within three and a half turns of the reference, `aa_tf_rotvec_near` returns a vector of the same rotation, and no
other vector of that rotation is closer to the reference. -/
theorem C113_rotvec_near_partial (r near : V3) (h : 0.0001 ≤ vnorm r) (hi : Real.sin (vnorm r / 2) ≠ 0)
    (hn : ssd3 near r ≤ (7 * Real.pi) ^ 2) :
    SameRot r (rotvecNear r near) ∧ ∀ s, SameRot r s → ssd3 near (rotvecNear r near) ≤ ssd3 near s := by
  obtain ⟨h1, h2, h3⟩ := C30_rotvec_near r near
  refine ⟨h1 h, fun s hs => ?_⟩
  have hp : 0 < vnorm r := lt_of_lt_of_le (by norm_num) h
  set u := vscal (1 / vnorm r) r with hu'
  have hu : vnorm u = 1 := by
    rw [hu', vnorm_vscal, abs_of_pos (by positivity)]; field_simp
  have hr : r = vscal (vnorm r) u := by
    ext <;> simp [hu', vscal] <;> field_simp
  obtain ⟨k, hk⟩ := same_rot_axis hu hi (by rw [← hr]; exact hs)
  -- every candidate
  have cand : ∀ j : ℤ, |j| ≤ 3 → ssd3 near (rotvecNear r near) ≤ ssd3 near (vscal (vnorm r + j * 2 * Real.pi) u) := by
    intro j hj
    by_cases h0 : j = 0
    · subst h0; simpa [← hr] using h2
    · rw [hu', ← rotvecPermute_axis r j h]
      exact h3 j (Int.one_le_abs h0) hj
  have hc : |vnorm r - vdot near u| ≤ 7 * Real.pi := by
    apply abs_le_of_sq_le_sq _ (by positivity)
    rw [hr, ssd3_axis _ _ hu] at hn
    have : vdot near u ^ 2 ≤ vdot near near := by
      have e := ssd3_axis near (vdot near u) hu
      rw [sub_self] at e
      have : 0 ≤ ssd3 near (vscal (vdot near u) u) := by simp only [ssd3]; positivity
      linarith
    linarith
  have hpi := Real.pi_pos
  obtain ⟨c1, c2⟩ := abs_le.1 hc
  rw [hk]
  by_cases k3 : |k| ≤ 3
  · exact cand k k3
  · rcases abs_cases k with ⟨ek, -⟩ | ⟨ek, -⟩
    · refine (cand 3 (by norm_num)).trans ?_
      have k4 : (4 : ℝ) ≤ k := by exact_mod_cast (by omega : (4 : ℤ) ≤ k)
      rw [ssd3_axis _ _ hu, ssd3_axis _ _ hu]
      have : (vnorm r + ((3 : ℤ) : ℝ) * 2 * Real.pi - vdot near u) ^ 2 ≤ (vnorm r + k * 2 * Real.pi - vdot near u) ^ 2 := by
        apply sq_le_sq'
        · push_cast; nlinarith
        · push_cast; nlinarith
      linarith
    · refine (cand (-3) (by norm_num)).trans ?_
      have k4 : (k : ℝ) ≤ -4 := by exact_mod_cast (by omega : k ≤ (-4 : ℤ))
      rw [ssd3_axis _ _ hu, ssd3_axis _ _ hu]
      have : (vnorm r + ((-3 : ℤ) : ℝ) * 2 * Real.pi - vdot near u) ^ 2 ≤ (vnorm r + k * 2 * Real.pi - vdot near u) ^ 2 := by
        rw [← neg_sq (vnorm r + k * 2 * Real.pi - vdot near u)]
        apply sq_le_sq'
        · push_cast; nlinarith
        · push_cast; nlinarith
      linarith

/-- **C113 (partial).** For a unit quaternion that turns by at least `0.0001` and a reference within two and a half turns
of zero `aa_tf_quat2rotvec_near` returns a rotation vector of it, and none is closer to the reference. -/
theorem C113_quat_near_partial (q : Quat) (near : V3) (hq : Unit q) (hv : vnorm q.vec ≠ 0)
    (ha : 0.0001 ≤ (quat2axang q).angle) (hn : vnorm near ≤ 5 * Real.pi) :
    RotvecOf q (quat2rotvecNear q near) ∧
    ∀ s, RotvecOf q s → ssd3 near (quat2rotvecNear q near) ≤ ssd3 near s := by
  have hq1 : qnorm q = 1 := by
    rw [qnorm, show qdot q q = 1 by simp only [Unit] at hq; simp only [qdot]; linarith, Real.sqrt_one]
  have hq0 : qnorm q ≠ 0 := by rw [hq1]; norm_num
  obtain ⟨-, h1, h2, h3⟩ := C30_quat2axang q hq0
  obtain ⟨hk, hd⟩ := h1 hv
  have hqn : qnormalize q = q := by
    simp [qnormalize, hq1]
  rw [hqn] at hd
  have hr := axang_rotvec_den (quat2axang q)
  rw [hd] at hr
  have hl : vnorm (axang2rotvec (quat2axang q)) = (quat2axang q).angle := by
    rw [axang2rotvec, vnorm_vscal, hk, mul_one, abs_of_nonneg h2]
  have e : ∀ s, RotvecOf q s ↔ SameRot (axang2rotvec (quat2axang q)) s := by
    intro s; rw [RotvecOf, SameRot, hr]
  simp only [e]
  refine C113_rotvec_near_partial _ near (by rw [hl]; exact ha) ?_ ?_
  · rw [hl]
    intro h0
    have e2 := rotvecDen_axis (quat2axang q).angle hk
    rw [h0] at e2
    rw [axang2rotvec, e2] at hr
    have x0 : (0 : ℝ) * (quat2axang q).axis.x = q.x := congrArg (fun q : ℍ[ℝ] => q.imI) hr
    have y0 : (0 : ℝ) * (quat2axang q).axis.y = q.y := congrArg (fun q : ℍ[ℝ] => q.imJ) hr
    have z0 : (0 : ℝ) * (quat2axang q).axis.z = q.z := congrArg (fun q : ℍ[ℝ] => q.imK) hr
    apply hv
    rw [vnorm, vdot, Quat.vec, ← x0, ← y0, ← z0]
    simp
  · rw [axang2rotvec, ssd3_axis _ _ hk]
    have hs : vdot near (quat2axang q).axis ^ 2 ≤ vdot near near := by
      have e := ssd3_axis near (vdot near (quat2axang q).axis) hk
      rw [sub_self] at e
      have : 0 ≤ ssd3 near (vscal (vdot near (quat2axang q).axis) (quat2axang q).axis) := by simp only [ssd3]; positivity
      linarith
    have hpi := Real.pi_pos
    have hnn := vnorm_sq near
    have hn0 := vnorm_nonneg near
    have hd : |vdot near (quat2axang q).axis| ≤ vnorm near := by
      apply abs_le_of_sq_le_sq _ hn0
      rw [← hnn] at hs; linarith
    obtain ⟨d1, d2⟩ := abs_le.1 hd
    nlinarith

/-- the hypotheses of both hold for a half turn about x. -/
example : (0.0001 : ℝ) ≤ vnorm ⟨Real.pi, 0, 0⟩ ∧ Real.sin (vnorm ⟨Real.pi, 0, 0⟩ / 2) ≠ 0 ∧
    ssd3 ⟨6, 1, 0⟩ ⟨Real.pi, 0, 0⟩ ≤ (7 * Real.pi) ^ 2 := by
  have h : vnorm ⟨Real.pi, 0, 0⟩ = Real.pi := by
    rw [vnorm, vdot]; simp [Real.sqrt_mul_self Real.pi_pos.le]
  have := Real.pi_gt_three
  rw [h]
  refine ⟨by linarith, by rw [Real.sin_pi_div_two]; norm_num, ?_⟩
  simp only [ssd3]; nlinarith

example : Unit ⟨1, 0, 0, 0⟩ ∧ vnorm (Quat.vec ⟨1, 0, 0, 0⟩) ≠ 0 ∧ (0.0001 : ℝ) ≤ (quat2axang ⟨1, 0, 0, 0⟩).angle ∧
    vnorm ⟨6, 0, 0⟩ ≤ 5 * Real.pi := by
  have hu : vnorm (⟨1, 0, 0⟩ : V3) = 1 := by simp [vnorm, vdot]
  have h6 : vnorm (⟨6, 0, 0⟩ : V3) = 6 := by
    rw [vnorm, vdot, show (6 * 6 + 0 * 0 + 0 * 0 : ℝ) = 6 * 6 by norm_num, Real.sqrt_mul_self (by norm_num)]
  have := Real.pi_gt_three
  refine ⟨by norm_num [Unit], by rw [Quat.vec, hu]; norm_num, ?_, by rw [h6]; linarith⟩
  have e : atan2 1 0 = Real.pi / 2 := by
    rw [atan2, show (⟨0, 1⟩ : ℂ) = Complex.I from rfl, Complex.arg_I]
  simp only [quat2axang, Quat.vec, hu, e]
  split_ifs <;> simp only <;> linarith

/-- **C113 is violated far away**: four turns from the reference `aa_tf_rotvec_near` misses a closer vector. -/
theorem C113_violates_far : ∃ r near s : V3, SameRot r s ∧ ssd3 near s < ssd3 near (rotvecNear r near) := by
  have hpi := Real.pi_gt_three
  have hu : vnorm (⟨1, 0, 0⟩ : V3) = 1 := by simp [vnorm, vdot]
  refine ⟨⟨1, 0, 0⟩, ⟨1 + 8 * Real.pi, 0, 0⟩, ⟨1 + 8 * Real.pi, 0, 0⟩, ?_, ?_⟩
  · have h1 := C30_rotvec_permute ⟨1, 0, 0⟩ 4 (by rw [hu]; norm_num)
    rw [rotvecPermute_axis _ _ (by rw [hu]; norm_num), hu] at h1
    have e : vscal (1 + ((4 : ℤ) : ℝ) * 2 * Real.pi) (vscal (1 / 1) ⟨1, 0, 0⟩) = ⟨1 + 8 * Real.pi, 0, 0⟩ := by
      ext <;> simp [vscal]; ring
    rw [e] at h1
    exact h1
  · have hz : ssd3 ⟨1 + 8 * Real.pi, 0, 0⟩ ⟨1 + 8 * Real.pi, 0, 0⟩ = 0 := by simp [ssd3]
    rw [hz]
    have p : ∀ k : ℤ, rotvecPermute ⟨1, 0, 0⟩ k = ⟨1 + k * 2 * Real.pi, 0, 0⟩ := by
      intro k
      rw [rotvecPermute_axis _ _ (by rw [hu]; norm_num), hu]
      ext <;> simp [vscal]
    have c : ∃ k : ℤ, k ≤ 3 ∧ rotvecNear ⟨1, 0, 0⟩ ⟨1 + 8 * Real.pi, 0, 0⟩ = ⟨1 + k * 2 * Real.pi, 0, 0⟩ := by
      obtain ⟨h1, -⟩ := near_fold ⟨1 + 8 * Real.pi, 0, 0⟩ [rotvecPermute ⟨1, 0, 0⟩ 1, rotvecPermute ⟨1, 0, 0⟩ 2,
        rotvecPermute ⟨1, 0, 0⟩ 3, rotvecPermute ⟨1, 0, 0⟩ (-1), rotvecPermute ⟨1, 0, 0⟩ (-2), rotvecPermute ⟨1, 0, 0⟩ (-3)]
        ⟨1, 0, 0⟩
      rw [← rotvecNear] at h1
      rcases h1 with h1 | h1
      · exact ⟨0, by norm_num, by rw [h1]; simp⟩
      · simp only [List.mem_cons, List.not_mem_nil, or_false] at h1
        rcases h1 with h1 | h1 | h1 | h1 | h1 | h1
        · exact ⟨1, by norm_num, by rw [h1, p]⟩
        · exact ⟨2, by norm_num, by rw [h1, p]⟩
        · exact ⟨3, by norm_num, by rw [h1, p]⟩
        · exact ⟨-1, by norm_num, by rw [h1, p]⟩
        · exact ⟨-2, by norm_num, by rw [h1, p]⟩
        · exact ⟨-3, by norm_num, by rw [h1, p]⟩
    obtain ⟨k, hk, e⟩ := c
    rw [e]
    have hk' : (k : ℝ) ≤ 3 := by exact_mod_cast hk
    have : 0 < 1 + 8 * Real.pi - (1 + k * 2 * Real.pi) := by nlinarith
    simp only [ssd3]
    positivity

/-- **C113 is violated for the identity**: the reference is a vector of the identity one turn away, yet
`aa_tf_quat2rotvec_near` returns the zero vector. -/
theorem C113_violates_identity : ∃ near : V3, RotvecOf qident near ∧
    quat2rotvecNear qident near = ⟨0, 0, 0⟩ ∧ 0 < ssd3 near (quat2rotvecNear qident near) := by
  have hu : vnorm (⟨1, 0, 0⟩ : V3) = 1 := by simp [vnorm, vdot]
  have hz : vnorm (⟨0, 0, 0⟩ : V3) = 0 := by simp [vnorm, vdot]
  refine ⟨⟨2 * Real.pi, 0, 0⟩, Or.inr ?_, ?_⟩
  · have e : (⟨2 * Real.pi, 0, 0⟩ : V3) = vscal (2 * Real.pi) ⟨1, 0, 0⟩ := by ext <;> simp [vscal]
    rw [e, rotvecDen_axis _ hu, show 2 * Real.pi / 2 = Real.pi by ring, Real.cos_pi, Real.sin_pi]
    ext
    · show (-1 : ℝ) = -1; rfl
    · show (0 : ℝ) * 1 = -0; norm_num
    · show (0 : ℝ) * 0 = -0; norm_num
    · show (0 : ℝ) * 0 = -0; norm_num
  · have e0 : axang2rotvec (quat2axang qident) = ⟨0, 0, 0⟩ := by
      simp [quat2axang, qident, Quat.vec, hz, axang2rotvec, vscal]
    have p : ∀ k : ℤ, rotvecPermute ⟨0, 0, 0⟩ k = ⟨0, 0, 0⟩ := by
      intro k
      have h1 : rotvec2axang ⟨0, 0, 0⟩ = quat2axang (rotvec2quat ⟨0, 0, 0⟩) := by
        rw [rotvec2axang]; norm_num [vdot]
      have h2 : (rotvec2quat ⟨0, 0, 0⟩).vec = ⟨0, 0, 0⟩ := by
        simp [rotvec2quat, Quat.vec]
      simp only [rotvecPermute, axang2rotvec, axangPermute, h1, quat2axang, h2, hz, lt_irrefl, if_false]
      simp [vscal]
    have e1 : quat2rotvecNear qident ⟨2 * Real.pi, 0, 0⟩ = ⟨0, 0, 0⟩ := by
      rw [quat2rotvecNear, e0, rotvecNear]
      simp only [p, List.foldl_cons, List.foldl_nil, lt_irrefl, if_false]
    rw [e1]
    refine ⟨rfl, ?_⟩
    simp only [ssd3]
    nlinarith [Real.pi_gt_three]

/-! ## C114: projections -/

/-- **C114.** `aa_tf_proj` fails exactly if the second vector is zero. Otherwise the result is on the line of
that vector, the rest of `aa_tf_proj_orth` is perpendicular to it, both add up to the first vector, and no point
on the line is closer to the first vector. -/
theorem C114_proj (a b : V3) :
    (proj a b = none ↔ b = ⟨0, 0, 0⟩) ∧ (projOrth a b = none ↔ b = ⟨0, 0, 0⟩) ∧
    ∀ p o, proj a b = some p → projOrth a b = some o →
      (∃ k, p = vscal k b) ∧ vdot o b = 0 ∧ vadd p o = a ∧
      (∀ k, vdot o o ≤ vdot (vadd a (vneg (vscal k b))) (vadd a (vneg (vscal k b)))) ∧
      (∀ c, vdot c b = 0 → vdot p p ≤ vdot (vadd a (vneg c)) (vadd a (vneg c))) := by
  have h0 : proj a b = none ↔ b = ⟨0, 0, 0⟩ := by
    rw [proj]
    constructor
    · intro h
      have hb : vdot b b = 0 := by
        by_contra hn; simp [hn] at h
      simp only [vdot] at hb
      ext <;> simp only <;> nlinarith [sq_nonneg b.x, sq_nonneg b.y, sq_nonneg b.z]
    · rintro rfl; simp [vdot]
  refine ⟨h0, by rw [projOrth, Option.map_eq_none_iff, h0], fun p o hp ho => ?_⟩
  have hb : vdot b b ≠ 0 := by
    intro hn; simp [proj, hn] at hp
  have hbp : 0 < vdot b b := lt_of_le_of_ne (vdot_nonneg b) (Ne.symm hb)
  simp only [proj, if_neg hb, Option.some.injEq] at hp
  rw [projOrth, proj] at ho
  simp only [if_neg hb, Option.map_some, Option.some.injEq] at ho
  have hk : vdot a b / vdot b b * vdot b b = vdot a b := div_mul_cancel₀ _ hb
  generalize vdot a b / vdot b b = k at *
  subst hp; subst ho
  refine ⟨⟨k, rfl⟩, ?_, ?_, fun l => ?_, fun c hc => ?_⟩
  · simp only [vdot] at hk ⊢; linarith
  · ext <;> simp [vadd]
  · simp only [vdot, vadd, vneg, vscal] at *
    rw [← sub_nonneg]
    refine le_of_le_of_eq (mul_nonneg (sq_nonneg (k - l)) hbp.le) ?_
    linear_combination (2 * k - 2 * l) * hk
  · simp only [vdot, vadd, vneg] at *
    rw [← sub_nonneg]
    refine le_of_le_of_eq (add_nonneg (add_nonneg (sq_nonneg (a.x - c.x - k * b.x)) (sq_nonneg (a.y - c.y - k * b.y)))
      (sq_nonneg (a.z - c.z - k * b.z))) ?_
    linear_combination 2 * k * hk + 2 * k * hc

example : proj ⟨3, 4, 5⟩ ⟨2, 0, 0⟩ = some ⟨3, 0, 0⟩ ∧ projOrth ⟨3, 4, 5⟩ ⟨2, 0, 0⟩ = some ⟨0, 4, 5⟩ := by
  norm_num [proj, projOrth, vdot]

/-! ## C115: random poses and orthonormalization -/

/-- **C115 (random).** If `RAND_MAX` is odd, as it is with every C library where it is one less than a power of
two, `aa_tf_qurand` and `aa_tf_qutr_rand` never divide by zero whatever numbers `rand()` returns, the quaternion is a
unit quaternion and the coordinates of the translation are at most one half in magnitude. -/
theorem C115_random (M : Nat) (hM : M % 2 = 1) (r : Nat → Nat) (hr : ∀ i, r i ≤ M) :
    (∃ q, qurand M r = some q ∧ Unit q) ∧
    ∃ E, qutrRand M r = some E ∧ E.Valid ∧ |E.v.x| ≤ 1 / 2 ∧ |E.v.y| ≤ 1 / 2 ∧ |E.v.z| ≤ 1 / 2 := by
  have hM0 : (0 : ℝ) < M := by exact_mod_cast (by omega : 0 < M)
  have hx : ∀ i, |frand M (r i) - 0.5| ≤ 1 / 2 := by
    intro i
    have h1 : frand M (r i) ≤ 1 := by
      rw [frand, div_le_one hM0]; exact_mod_cast hr i
    have h0 : 0 ≤ frand M (r i) := by rw [frand]; positivity
    rw [abs_le]; constructor <;> norm_num <;> linarith
  have hn : ∀ q : Quat, q.x = frand M (r 0) - 0.5 → qnorm q ≠ 0 := by
    intro q hq h
    have h1 : qdot q q = 0 := by
      have := (Real.sqrt_eq_zero (by simp only [qdot]; nlinarith [sq_nonneg q.x, sq_nonneg q.y, sq_nonneg q.z, sq_nonneg q.w])).1 h
      exact this
    have h2 : q.x = 0 := by
      simp only [qdot] at h1; nlinarith [sq_nonneg q.x, sq_nonneg q.y, sq_nonneg q.z, sq_nonneg q.w]
    rw [hq, frand, sub_eq_zero, div_eq_iff hM0.ne'] at h2
    have h3 : (2 * r 0 : ℝ) = M := by rw [h2]; norm_num; ring
    have h4 : 2 * r 0 = M := by exact_mod_cast h3
    omega
  refine ⟨⟨_, by rw [qurand, if_neg (hn _ rfl)], (C21_qnormalize _ (hn _ rfl)).1⟩, ?_⟩
  have e := hn ⟨frand M (r 0) - 0.5, frand M (r 1) - 0.5, frand M (r 2) - 0.5, frand M (r 3) - 0.5⟩ rfl
  exact ⟨⟨qnormalize ⟨frand M (r 0) - 0.5, frand M (r 1) - 0.5, frand M (r 2) - 0.5, frand M (r 3) - 0.5⟩,
    ⟨frand M (r 4) - 0.5, frand M (r 5) - 0.5, frand M (r 6) - 0.5⟩⟩,
    by rw [qutrRand]; simp only; rw [if_neg e], (C21_qnormalize _ e).1, hx 4, hx 5, hx 6⟩

/-- with an even `RAND_MAX` the quaternion can fail. -/
example : qurand 2 (fun _ => 1) = none := by
  rw [qurand, if_pos]; norm_num [frand, qnorm, qdot]

example : (2147483647 : Nat) % 2 = 1 := rfl

/-- **C115 (normalize).** `aa_tf_tfmat_normalize` keeps the translation and makes a valid transform of one whose
first two axes are independent; valid transforms stay as they are. -/
theorem C115_normalize (T : Tfm) (h : Indep ⟨T.R.m0, T.R.m1, T.R.m2⟩ ⟨T.R.m3, T.R.m4, T.R.m5⟩) :
    (tfmatNormalize T).Valid ∧ (tfmatNormalize T).v = T.v ∧ (T.Valid → tfmatNormalize T = T) := by
  obtain ⟨h1, -, -, h2⟩ := C72_rotmat_normalize T.R h
  refine ⟨h1, rfl, fun hv => ?_⟩
  rw [tfmatNormalize, h2 hv]

example : Indep ⟨2, 0, 0⟩ ⟨1, 3, 0⟩ := by
  intro s t h
  have h1 := congrArg V3.x h
  have h2 := congrArg V3.y h
  simp only [vadd, vscal] at h1 h2
  constructor <;> linarith

end Verif.Tf
