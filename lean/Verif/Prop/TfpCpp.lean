import Verif.Model.TfpCpp
import Verif.Prop.Tfp

/-!
# The planar pose classes of C++ (C103)

What an object stands for is a map of the plane `ℂ`, given by Mathlib's complex numbers and matrices.
-/

namespace Verif.Tfp.Cpp

open Matrix

def Val.ty : Val → Ty
  | .ang _ => .ang
  | .cmplx _ => .cmplx
  | .rotmat _ => .rotmat
  | .cv _ _ => .cv
  | .tfm _ => .tfm

/-- The plane as columns of two numbers. -/
def col (z : ℂ) : Fin 2 → ℝ := ![z.re, z.im]

/-- The value is a proper one and `f` is the map of the plane that it stands for. -/
def Val.Means : Val → (ℂ → ℂ) → Prop
  | .ang t, f => ∀ p, f p = Complex.exp (t * Complex.I) * p
  | .cmplx c, f => ‖c.den‖ = 1 ∧ ∀ p, f p = c.den * p
  | .rotmat R, f => (R.den.transpose * R.den = 1 ∧ R.den.det = 1) ∧ ∀ p, col (f p) = R.den *ᵥ col p
  | .cv c v, f => ‖c.den‖ = 1 ∧ ∀ p, f p = c.den * p + v.den
  | .tfm T, f => (T.R.den.transpose * T.R.den = 1 ∧ T.R.den.det = 1) ∧
      ∀ p, col (f p) = T.R.den *ᵥ col p + col T.v.den

theorem col_inj {a b : ℂ} (h : col a = col b) : a = b :=
  Complex.ext (by simpa [col] using congrFun h 0) (by simpa [col] using congrFun h 1)

theorem means_rotmat {R : R2} {f : ℂ → ℂ} :
    (Val.rotmat R).Means f ↔ ∃ c : Cx, c.Unit ∧ R = cmplx2rotmatp c ∧ ∀ p, f p = c.den * p := by
  have key : ∀ (c : Cx) (p : ℂ), (cmplx2rotmatp c).den *ᵥ col p = col (c.den * p) := by
    intro c p
    ext i; fin_cases i <;>
      simp [cmplx2rotmatp, R2.den, col, Cx.den, Matrix.mulVec, dotProduct, Fin.sum_univ_two] <;> ring
  constructor
  · rintro ⟨h1, h2⟩
    obtain ⟨c, hc, rfl⟩ := (R2.rot_iff R).1 h1
    exact ⟨c, hc, rfl, fun p => col_inj ((h2 p).trans (key c p))⟩
  · rintro ⟨c, hc, rfl, h⟩
    exact ⟨(R2.rot_iff _).2 ⟨c, hc, rfl⟩, fun p => by rw [h p, key]⟩

theorem means_tfm {T : T2} {f : ℂ → ℂ} : (Val.tfm T).Means f ↔
    ∃ c : Cx, c.Unit ∧ T.R = cmplx2rotmatp c ∧ ∀ p, f p = c.den * p + T.v.den := by
  have hs : ∀ p : ℂ, col p = col (p - T.v.den) + col T.v.den := by
    intro p; ext i; fin_cases i <;> simp [col]
  have h : (Val.tfm T).Means f ↔ (Val.rotmat T.R).Means (fun p => f p - T.v.den) := by
    refine and_congr_right fun _ => forall_congr' fun p => ?_
    rw [hs (f p)]
    exact add_left_inj _
  rw [h, means_rotmat]
  simp only [sub_eq_iff_eq_add]

theorem means_ang {t : ℝ} {f : ℂ → ℂ} : (Val.ang t).Means f ↔ ∀ p, f p = (cpexp t).den * p := by
  rw [(C65_angle t ⟨0, 0⟩).1]; rfl

theorem den_prod (a b : Cx) : (cprod a b).den = a.den * b.den := by
  apply Complex.ext <;> simp [cprod, Cx.den]

/-! ## C103 -/

/-- **C103 (conversions).** -/
theorem C103_convert (ty : Ty) (v w : Val) (h : Conv ty v w) (f : ℂ → ℂ) (hf : v.Means f) :
    w.ty = ty ∧ w.Means f := by
  have hl := C65_log_exp
  have rt := fun c => (C65_roundtrip c ⟨0, 0⟩ ⟨⟨0, 0, 0, 0⟩, ⟨0, 0⟩⟩).1
  cases h with
  | angAng t => exact ⟨rfl, hf⟩
  | angCmplx c =>
    refine ⟨rfl, means_ang.2 ?_⟩
    rw [((hl 0 c ⟨0, 0, 0, 0⟩).2.1 hf.1).1]; exact hf.2
  | angRotmat R =>
    obtain ⟨c, hc, rfl, h⟩ := means_rotmat.1 hf
    refine ⟨rfl, means_ang.2 ?_⟩
    rw [rotmatp2angle, rt, ((hl 0 c ⟨0, 0, 0, 0⟩).2.1 hc).1]; exact h
  | cmplxCmplx c => exact ⟨rfl, hf⟩
  | cmplxRotmat R =>
    obtain ⟨c, hc, rfl, h⟩ := means_rotmat.1 hf
    exact ⟨rfl, by rw [rt]; exact ⟨hc, h⟩⟩
  | cmplxAng t => exact ⟨rfl, (C65_angle t ⟨0, 0⟩).2.1, means_ang.1 hf⟩
  | rotmatRotmat R => exact ⟨rfl, hf⟩
  | rotmatCmplx c => exact ⟨rfl, means_rotmat.2 ⟨c, hf.1, rfl, hf.2⟩⟩
  | rotmatAng t =>
    exact ⟨rfl, means_rotmat.2 ⟨_, (C65_angle t ⟨0, 0⟩).2.1, rfl, means_ang.1 hf⟩⟩
  | cvCv c v => exact ⟨rfl, hf⟩
  | cvTfm T =>
    obtain ⟨c, hc, h1, h⟩ := means_tfm.1 hf
    refine ⟨rfl, ?_⟩
    rw [tfmatp2cv, h1, rt]; exact ⟨hc, h⟩
  | tfmTfm T => exact ⟨rfl, hf⟩
  | tfmCv c v => exact ⟨rfl, means_tfm.2 ⟨c, hf.1, rfl, hf.2⟩⟩

/-- **C103 (rotation and translation).** -/
theorem C103_pair (ty : Ty) (r w : Val) (v : Cx) (h : Pair ty r v w) (f : ℂ → ℂ) (hf : r.Means f) :
    w.ty = ty ∧ w.Means fun p => f p + v.den := by
  have rt := fun c => (C65_roundtrip c ⟨0, 0⟩ ⟨⟨0, 0, 0, 0⟩, ⟨0, 0⟩⟩).1
  cases h with
  | cvCmplx c => exact ⟨rfl, hf.1, fun p => by show f p + _ = _; rw [hf.2]⟩
  | cvAng t => exact ⟨rfl, (C65_angle t ⟨0, 0⟩).2.1, fun p => by show f p + _ = _; rw [means_ang.1 hf]⟩
  | cvRotmat R =>
    obtain ⟨c, hc, rfl, h⟩ := means_rotmat.1 hf
    exact ⟨rfl, by rw [rt]; exact ⟨hc, fun p => by show f p + _ = _; rw [h]⟩⟩
  | tfmRotmat R =>
    obtain ⟨c, hc, h1, h⟩ := means_rotmat.1 hf
    exact ⟨rfl, means_tfm.2 ⟨c, hc, h1, fun p => by rw [h]⟩⟩
  | tfmCmplx c => exact ⟨rfl, means_tfm.2 ⟨c, hf.1, rfl, fun p => by rw [hf.2]⟩⟩
  | tfmAng t =>
    exact ⟨rfl, means_tfm.2 ⟨_, (C65_angle t ⟨0, 0⟩).2.1, rfl, fun p => by rw [means_ang.1 hf]⟩⟩

/-- **C103 (products)** stand for one map after the other. -/
theorem C103_mul (a b c : Val) (h : Mul a b c) (f g : ℂ → ℂ) (hf : a.Means f) (hg : b.Means g) :
    c.Means (f ∘ g) := by
  have mu : ∀ a b : Cx, a.Unit → b.Unit → (cprod a b).Unit := fun a b ha hb => by
    show ‖(cprod a b).den‖ = 1
    rw [den_prod, norm_mul, show ‖a.den‖ = 1 from ha, show ‖b.den‖ = 1 from hb, one_mul]
  cases h with
  | rotmat A B =>
    obtain ⟨c, hc, rfl, h⟩ := means_rotmat.1 hf
    obtain ⟨d, hd, rfl, h'⟩ := means_rotmat.1 hg
    refine means_rotmat.2 ⟨cprod c d, mu c d hc hd, ?_, fun p => ?_⟩
    · exact ((C65_convert c c d d c).2.2.1).symm
    · rw [Function.comp, h, h', den_prod, mul_assoc]
  | tfm A B =>
    obtain ⟨R, v⟩ := A
    obtain ⟨R', v'⟩ := B
    obtain ⟨c, hc, h1, h⟩ := means_tfm.1 hf
    obtain ⟨d, hd, h1', h'⟩ := means_tfm.1 hg
    simp only at h1 h1' h h'
    subst h1 h1'
    refine means_tfm.2 ⟨cprod c d, mu c d hc hd, ((C65_convert c c d d c).2.2.1).symm, fun p => ?_⟩
    have e : (tfmatpMul ⟨cmplx2rotmatp c, v⟩ ⟨cmplx2rotmatp d, v'⟩).v.den = c.den * v'.den + v.den := by
      show (tfmatpTf (cv2tfmatp c v) v').den = _
      rw [(C65_convert c v d d v').2.1, (C65_apply_complex c v v').2]; rfl
    rw [Function.comp, h, h', e, den_prod]; ring
  | cv c v d w =>
    refine ⟨mu c d hf.1 hg.1, fun p => ?_⟩
    have e : (cvMul c v d w).2.den = c.den * w.den + v.den := (C65_apply_complex c v w).2
    rw [Function.comp, hf.2, hg.2, e]
    show _ = (cprod c d).den * p + _
    rw [den_prod]; ring

/-- **C103 (points).** The product with a vector is the moved point. -/
theorem C103_apply (a : Val) (p q : Cx) (h : Apply a p q) (f : ℂ → ℂ) (hf : a.Means f) :
    q.den = f p.den := by
  cases h with
  | cmplx c => rw [hf.2, (C65_apply_complex c p p).1, motion, add_zero]
  | rotmat R =>
    obtain ⟨c, hc, rfl, h⟩ := means_rotmat.1 hf
    rw [h, (C65_convert c c c c p).1, (C65_apply_complex c p p).1, motion, add_zero]
  | tfm T =>
    obtain ⟨R, v⟩ := T
    obtain ⟨c, hc, h1, h⟩ := means_tfm.1 hf
    simp only at h1 h
    subst h1
    show (tfmatpTf (cv2tfmatp c v) p).den = _
    rw [h, (C65_convert c v c c p).2.1, (C65_apply_complex c v p).2, motion]
  | cv c v => rw [hf.2, (C65_apply_complex c v p).2, motion]

/-- **C103 (inverses).** -/
theorem C103_inverse (a b : Val) (h : Inv a b) (f : ℂ → ℂ) (hf : a.Means f) :
    b.ty = a.ty ∧ ∃ g, b.Means g ∧ (∀ p, g (f p) = p) ∧ ∀ p, f (g p) = p := by
  have hc1 : ∀ c : Cx, c.Unit → (cconj c).den * c.den = 1 ∧ c.den * (cconj c).den = 1 ∧ (cconj c).Unit := by
    intro c hc
    have := C65_invert_complex c c hc
    have e : (⟨1, 0⟩ : Cx).den = 1 := rfl
    have h1 : (cconj c).den * c.den = 1 := by rw [← den_prod, ← e]; exact congrArg Cx.den this.1
    refine ⟨h1, by rw [mul_comm]; exact h1, ?_⟩
    have h2 := congrArg norm h1
    rw [norm_mul, show ‖c.den‖ = 1 from hc, mul_one, norm_one] at h2
    exact h2
  cases h with
  | cmplx c =>
    obtain ⟨h1, h2, h3⟩ := hc1 c hf.1
    refine ⟨rfl, fun p => (cconj c).den * p, ⟨h3, fun _ => rfl⟩, fun p => ?_, fun p => ?_⟩
    · simp only [hf.2]; rw [← mul_assoc, h1, one_mul]
    · rw [hf.2, ← mul_assoc, h2, one_mul]
  | rotmat R =>
    obtain ⟨c, hc, rfl, h⟩ := means_rotmat.1 hf
    obtain ⟨h1, h2, h3⟩ := hc1 c hc
    refine ⟨rfl, fun p => (cconj c).den * p, means_rotmat.2 ⟨_, h3, ?_, fun _ => rfl⟩,
      fun p => ?_, fun p => ?_⟩
    · exact ((C65_convert c c c c c).2.2.2.2.1).symm
    · simp only [h]; rw [← mul_assoc, h1, one_mul]
    · rw [h, ← mul_assoc, h2, one_mul]
  | cv c v =>
    obtain ⟨-, -, h3, h4, h5, -⟩ := C65_invert_complex c v hf.1
    have e := fun p => (C65_apply_complex c v p).2
    have e' := fun p => (C65_apply_complex (cvInv c v).1 (cvInv c v).2 p).2
    refine ⟨rfl, fun p => (cvInv c v).1.den * p + (cvInv c v).2.den, ⟨h3, fun _ => rfl⟩,
      fun p => ?_, fun p => ?_⟩
    · have := congrArg Cx.den (h4 ⟨p.re, p.im⟩)
      rw [e', e] at this
      rw [hf.2]; exact this
    · have := congrArg Cx.den (h5 ⟨p.re, p.im⟩)
      rw [e, e'] at this
      rw [hf.2]; exact this
  | tfm T =>
    obtain ⟨R, v⟩ := T
    obtain ⟨c, hc, h1, h⟩ := means_tfm.1 hf
    simp only at h1 h
    subst h1
    obtain ⟨-, -, h3, h4, h5, -⟩ := C65_invert_complex c v hc
    have e := fun p => (C65_apply_complex c v p).2
    have e' := fun p => (C65_apply_complex (cvInv c v).1 (cvInv c v).2 p).2
    have hi := (C65_convert c v c c c).2.2.2.2.2
    refine ⟨rfl, fun p => (cvInv c v).1.den * p + (cvInv c v).2.den, ?_, fun p => ?_, fun p => ?_⟩
    · show (Val.tfm (tfmatpInv2 (cv2tfmatp c v))).Means _
      rw [← hi]
      exact means_tfm.2 ⟨_, h3, rfl, fun _ => rfl⟩
    · have := congrArg Cx.den (h4 ⟨p.re, p.im⟩)
      rw [e', e] at this
      rw [h]; exact this
    · have := congrArg Cx.den (h5 ⟨p.re, p.im⟩)
      rw [e, e'] at this
      rw [h]; exact this

/-- **C103 (angles).** The angle of an object, as an angle, stands for the same rotation. -/
theorem C103_angle (a : Val) (t : ℝ) (h : Angle a t) (f : ℂ → ℂ) (hf : a.Means f) :
    ∀ p, f p = Complex.exp (t * Complex.I) * p := by
  cases h with
  | ang => exact hf
  | cmplx c => exact (C103_convert _ _ _ (.angCmplx c) f hf).2
  | rotmat R => exact (C103_convert _ _ _ (.angRotmat R) f hf).2

/-- **C103 (elements).** The elements of a rotation matrix are given by rows, and taking them from an array
copies it. -/
theorem C103_elements (r11 r12 r21 r22 : ℝ) (R : R2) :
    (rotmatOf r11 r12 r21 r22).den = !![r11, r12; r21, r22] ∧ rotmatFrom R = R := by
  refine ⟨?_, rfl⟩
  ext i j; fin_cases i <;> fin_cases j <;> rfl

/-- **C103 (default constructors)** make the identity, for every class but `AngleP`. -/
theorem C103_default_partial (junk : ℝ) (ty : Ty) (w : Val) (h : Default junk ty w) (ht : ty ≠ .ang) :
    w.ty = ty ∧ w.Means id ∧ (Val.cmplx cmplxIdent).Means id := by
  have hu : (⟨1, 0⟩ : Cx).Unit := by rw [Cx.unit_iff]; norm_num
  have e : (⟨1, 0⟩ : Cx).den = 1 := rfl
  have hi : (Val.cmplx cmplxIdent).Means id := ⟨hu, fun p => by rw [cmplxIdent, e, one_mul]; rfl⟩
  cases h with
  | ang => exact absurd rfl ht
  | rotmat =>
    refine ⟨rfl, means_rotmat.2 ⟨⟨1, 0⟩, hu, ?_, fun p => by rw [e, one_mul]; rfl⟩, hi⟩
    ext <;> simp [rotmatFrom, rotmatOf, cmplx2rotmatp]
  | cv =>
    refine ⟨rfl, ⟨hu, fun p => ?_⟩, hi⟩
    rw [e, show (⟨0, 0⟩ : Cx).den = 0 from rfl, one_mul, add_zero]; rfl
  | tfm =>
    refine ⟨rfl, means_tfm.2 ⟨⟨1, 0⟩, hu, ?_, fun p => ?_⟩, hi⟩
    · ext <;> simp [cmplx2rotmatp]
    · rw [e, show (⟨0, 0⟩ : Cx).den = 0 from rfl, one_mul, add_zero]; rfl

/-- **C103 fails** for the default constructor of `AngleP`, documented as the zero rotation: the angle is
what the memory happens to contain, so that any rotation can come of it. -/
theorem C103_violates_default (t : ℝ) :
    ∃ junk w, Default junk .ang w ∧ ∀ f, w.Means f ↔ ∀ p, f p = Complex.exp (t * Complex.I) * p :=
  ⟨t, .ang t, .ang, fun _ => Iff.rfl⟩

/-- A half turn is not the identity. -/
example : ¬ ∀ p : ℂ, Complex.exp (Real.pi * Complex.I) * p = p := by
  intro h
  have := h 1
  rw [Complex.exp_pi_mul_I] at this
  norm_num at this

/-- A pose by a rotation matrix and a translation. -/
example : (Val.tfm ⟨⟨3 / 5, 4 / 5, -(4 / 5), 3 / 5⟩, ⟨1, 2⟩⟩).Means
    fun p => (⟨3 / 5, 4 / 5⟩ : ℂ) * p + ⟨1, 2⟩ :=
  means_tfm.2 ⟨⟨3 / 5, 4 / 5⟩, by rw [Cx.unit_iff]; norm_num, rfl, fun _ => rfl⟩

end Verif.Tfp.Cpp
