import Verif.Model.Spatial
import Verif.Prop.Conv
import Verif.Prop.Lnv
import Verif.Prop.Expv

/-!
# The pose classes of C++ (C102)

What an object stands for is given by `Val.Means`: a map of the points, defined with Mathlib's
quaternions, dual numbers and matrices, and not with the functions of the library.
-/

namespace Verif.Tf.Cpp

open scoped Quaternion Matrix
open Quaternion NormedSpace

/-- The class of a value, `Vec3` and the angles having none. -/
def Val.ty : Val → Option Ty
  | .quat _ => some .quat
  | .rotmat _ => some .rotmat
  | .axang _ => some .axang
  | .duqu _ => some .duqu
  | .qutr _ => some .qutr
  | .tfm _ => some .tfm
  | _ => none

/-- The unit vector of a coordinate axis. -/
def dir : Ax → V3
  | .X => ⟨1, 0, 0⟩
  | .Y => ⟨0, 1, 0⟩
  | .Z => ⟨0, 0, 1⟩

/-- An axis and an angle: the axis is a unit vector, or the zero vector for a number of full turns. -/
def AxangOk (a : Axang) : Prop :=
  vnorm a.axis = 1 ∨ a.axis = ⟨0, 0, 0⟩ ∧ ∃ k : ℤ, a.angle = k * (2 * Real.pi)

/-- The value is a proper one and `f` is the map of the points it stands for. -/
def Val.Means : Val → (V3 → V3) → Prop
  | .vec v, f => ∀ p, (f p).pure = p.pure + v.pure
  | .ang a t, f => Rotates f (exp ((t / 2) • (dir a).pure))
  | .quat q, f => ‖q.den‖ = 1 ∧ Rotates f q.den
  | .rotmat R, f => R.den ∈ Matrix.specialOrthogonalGroup (Fin 3) ℝ ∧ ∀ p, (f p).den = R.den *ᵥ p.den
  | .axang a, f => AxangOk a ∧ Rotates f (exp ((a.angle / 2) • a.axis.pure))
  | .duqu S, f => S.den * dconj S.den = 1 ∧ ∀ p, (f p).point = S.den * p.point * dconj' S.den
  | .qutr E, f => ‖E.q.den‖ = 1 ∧ ∀ p, (f p).pure = E.q.den * p.pure * star E.q.den + E.v.pure
  | .tfm T, f => T.R.den ∈ Matrix.specialOrthogonalGroup (Fin 3) ℝ ∧
      ∀ p, (f p).den = T.R.den *ᵥ p.den + T.v.den

/-! ## The meaning with the functions of the library -/

theorem point_inj {a b : V3} (h : a.point = b.point) : a = b :=
  V3.pure_inj (congrArg TrivSqZeroExt.snd h)

theorem means_quat {q : Quat} {f : V3 → V3} : (Val.quat q).Means f ↔ Unit q ∧ f = qrot q := by
  rw [Val.Means, ← Unit.iff_norm]
  refine and_congr_right fun hu => ⟨fun h => h.ext (rotates_qrot hu), fun h => h ▸ rotates_qrot hu⟩

theorem means_rotmat {R : M3} {f : V3 → V3} : (Val.rotmat R).Means f ↔ IsRot R ∧ f = rot9 R := by
  refine and_congr_right fun _ => ⟨fun h => ?_, fun h p => ?_⟩
  · funext p
    exact V3.den_inj ((h p).trans (C24_matrix_ops R m3ident p).1.symm)
  · rw [h, (C24_matrix_ops R m3ident p).1]

theorem means_tfm {T : Tfm} {f : V3 → V3} : (Val.tfm T).Means f ↔ T.Valid ∧ f = tfmTf T := by
  refine and_congr_right fun _ => ⟨fun h => ?_, fun h p => ?_⟩
  · funext p
    exact V3.den_inj ((h p).trans (C26_actions.1 T p).symm)
  · rw [h, C26_actions.1 T p]; rfl

theorem means_qutr {E : Qutr} {f : V3 → V3} : (Val.qutr E).Means f ↔ E.Valid ∧ f = qutrTf E := by
  rw [Val.Means, ← Unit.iff_norm]
  refine and_congr_right fun hv => ⟨fun h => ?_, fun h p => ?_⟩
  · funext p
    exact V3.pure_inj ((h p).trans (C26_actions.2.1 E p hv).symm)
  · rw [h, C26_actions.2.1 E p hv]

theorem means_duqu {S : Duqu} {f : V3 → V3} : (Val.duqu S).Means f ↔ S.Valid ∧ f = duquTf S := by
  rw [Val.Means, ← Duqu.valid_iff]
  refine and_congr_right fun hv => ⟨fun h => ?_, fun h p => ?_⟩
  · funext p
    exact point_inj ((h p).trans (C26_actions.2.2.1 S p hv).symm)
  · rw [h, C26_actions.2.2.1 S p hv]

theorem ang_den (a : Ax) (t : ℝ) : exp ((t / 2) • (dir a).pure) = (angle2axang a t).den := by
  cases a <;> rfl

theorem means_ang {a : Ax} {t : ℝ} {f : V3 → V3} :
    (Val.ang a t).Means f ↔ f = rot9 (angle2rotmat a t) := by
  have h5 := (C30_axis_angle a t).2.2.2.2
  rw [Val.Means, ang_den]
  exact ⟨fun h => h.ext h5, fun h => h ▸ h5⟩

/-- An axis and an angle that are proper have the quaternion of the rotation up to the sign. -/
theorem axang_facts {a : Axang} (h : AxangOk a) :
    Unit (axang2quat a) ∧ Rotates (qrot (axang2quat a)) a.den ∧ Rotates (rot9 (rotmatExpAa a)) a.den := by
  rcases h with h | ⟨h, k, hk⟩
  · exact ⟨(C30_axang2quat a h).2, (C30_axang a h).2.2.2, (C30_axang a h).2.1⟩
  · have hs : Real.sin (a.angle / 2) = 0 := by
      rw [hk, show (k : ℝ) * (2 * Real.pi) / 2 = k * Real.pi by ring]; exact Real.sin_int_mul_pi k
    have hc : Real.cos (a.angle / 2) ^ 2 = 1 := by
      have := Real.sin_sq_add_cos_sq (a.angle / 2)
      rw [hs] at this; linarith
    have e : a.den = 1 := by
      rw [Axang.den, h]
      have : (⟨0, 0, 0⟩ : V3).pure = 0 := by ext <;> simp
      rw [this, smul_zero, exp_zero]
    refine ⟨?_, ?_, ?_⟩
    · rw [Unit]; simp only [axang2quat, hs]; linarith
    · intro v
      rw [e]
      have : qrot (axang2quat a) v = v := by
        simp only [axang2quat, hs]
        ext <;> simp [qrot]
      rw [this]; simp
    · intro v
      rw [e]
      have : rot9 (rotmatExpAa a) v = v := by
        ext <;> simp [rotmatExpAa, skewsymScal2, skewsymScalC, rot9, h]
      rw [this]; simp

theorem means_axang {a : Axang} {f : V3 → V3} :
    (Val.axang a).Means f ↔ AxangOk a ∧ f = qrot (axang2quat a) := by
  refine and_congr_right fun hv => ⟨fun h => ?_, fun h => ?_⟩
  · exact Rotates.ext h (axang_facts hv).2.1
  · rw [h]; exact (axang_facts hv).2.1

theorem quat2axang_ok {q : Quat} (h : Unit q) : AxangOk (quat2axang q) := by
  have hn : qnorm q ≠ 0 := by
    rw [C21_qnorm, (Unit.iff_norm _).1 h]; norm_num
  by_cases h0 : vnorm q.vec = 0
  · right
    have h1 : ¬ vnorm q.vec > 0 := by rw [h0]; norm_num
    refine ⟨by simp only [quat2axang, if_neg h1], ?_⟩
    simp only [quat2axang, h0, atan2]
    rcases le_or_gt 0 q.w with hw | hw
    · refine ⟨0, ?_⟩
      rw [show (⟨q.w, 0⟩ : ℂ) = (q.w : ℂ) from rfl, Complex.arg_ofReal_of_nonneg hw]
      simp
    · refine ⟨1, ?_⟩
      rw [show (⟨q.w, 0⟩ : ℂ) = (q.w : ℂ) from rfl, Complex.arg_ofReal_of_neg hw]
      simp
  · exact Or.inl ((C30_quat2axang q hn).2.1 h0).1

theorem rot9_quat {q : Quat} : rot9 (quat2rotmat q) = qrot q := funext fun _ => rot9_quat2rotmat q _

/-! ## No dual quaternion is ever constructed -/

theorem dq_none (n : Nat) : dqDefault n = none ∧ ∀ r d, dqFromXyzw n r d = none := by
  induction n with
  | zero => exact ⟨rfl, fun _ _ => rfl⟩
  | succ n ih => exact ⟨ih.2 _ _, fun r d => by rw [dqFromXyzw, ih.1]; rfl⟩

/-! ## C102 -/

/-- **C102 (conversions).** A constructor with one argument makes an object of its class that stands for
the same map of the points.  Missing from the property: `DualQuat` (`C102_violates_dualquat`), `QuatTran`
of a transformation matrix (`C102_violates_tfmat`), and `AxisAngle` of a rotation matrix with an angle
below 2^-13. -/
theorem C102_convert_partial (n : Nat) (ty : Ty) (v : Val) (o : Option Val) (h : Conv n ty v o)
    (f : V3 → V3) (hf : v.Means f) (hd : ty ≠ .duqu) (ht : ty = .qutr → ∀ T, v ≠ .tfm T)
    (ha : ty = .axang → ∀ R, v = .rotmat R → 1 / 2 ^ 13 ≤ rotmatAngle R) :
    ∃ w, o = some w ∧ w.ty = some ty ∧ w.Means f := by
  cases h with
  | quatQuat q => exact ⟨_, rfl, rfl, hf⟩
  | quatRotmat R =>
    obtain ⟨h1, h2⟩ := means_rotmat.1 hf
    have h3 := C25_rotmat2quat R h1
    refine ⟨_, rfl, rfl, means_quat.2 ⟨h3.1, ?_⟩⟩
    rw [h2, ← rot9_quat, h3.2.1]
  | quatAxang a =>
    obtain ⟨h1, h2⟩ := means_axang.1 hf
    exact ⟨_, rfl, rfl, means_quat.2 ⟨(axang_facts h1).1, h2⟩⟩
  | quatAng a t =>
    obtain ⟨-, h2, h3, -⟩ := C30_axis_angle a t
    refine ⟨_, rfl, rfl, means_quat.2 ⟨h2, ?_⟩⟩
    rw [means_ang.1 hf, h3, rot9_quat]
  | rotmatQuat q =>
    obtain ⟨h1, h2⟩ := means_quat.1 hf
    exact ⟨_, rfl, rfl, means_rotmat.2 ⟨C24_isRot q h1, by rw [h2, rot9_quat]⟩⟩
  | rotmatRotmat R => exact ⟨_, rfl, rfl, hf⟩
  | rotmatAxang a =>
    obtain ⟨h1, h2⟩ := means_axang.1 hf
    obtain ⟨h3, h4, h5⟩ := axang_facts h1
    have e : rot9 (rotmatExpAa a) = qrot (axang2quat a) := h5.ext h4
    refine ⟨_, rfl, rfl, means_rotmat.2 ⟨?_, by rw [h2, e]⟩⟩
    rw [M3.ext_rot (A := rotmatExpAa a) (B := quat2rotmat (axang2quat a)) fun v => by
      rw [e, rot9_quat]]
    exact C24_isRot _ h3
  | rotmatAng a t =>
    obtain ⟨-, h2, h3, -⟩ := C30_axis_angle a t
    refine ⟨_, rfl, rfl, means_rotmat.2 ⟨?_, means_ang.1 hf⟩⟩
    rw [h3]; exact C24_isRot _ h2
  | axangQuat q =>
    obtain ⟨h1, h2⟩ := means_quat.1 hf
    refine ⟨_, rfl, rfl, means_axang.2 ⟨quat2axang_ok h1, ?_⟩⟩
    rw [C30_quat_axang_quat q h1, h2]
  | axangRotmat R =>
    obtain ⟨h1, h2⟩ := means_rotmat.1 hf
    obtain ⟨a, e, hu, hr⟩ := C71_rotmat2axang_partial R h1 (ha rfl R rfl)
    exact ⟨.axang a, by rw [e]; rfl, rfl, Or.inl hu, h2 ▸ hr⟩
  | axangAxang a => exact ⟨_, rfl, rfl, hf⟩
  | duquDuqu | duquQutr | duquTfm | duquVec => exact absurd rfl hd
  | qutrQutr E => exact ⟨_, rfl, rfl, hf⟩
  | qutrDuqu S =>
    obtain ⟨h1, h2⟩ := means_duqu.1 hf
    exact ⟨_, rfl, rfl, means_qutr.2 ⟨(C26_conversions.2.1 S h1).1, h2.trans (funext fun p =>
      C26_point.2.1 S p h1)⟩⟩
  | qutrTfm T => exact absurd rfl (ht rfl T)
  | tfmTfm T => exact ⟨_, rfl, rfl, hf⟩
  | tfmDuqu S =>
    obtain ⟨h1, h2⟩ := means_duqu.1 hf
    exact ⟨_, rfl, rfl, means_tfm.2 ⟨(C26_conversions.2.1 S h1).2, h2.trans (funext fun p =>
      C26_point.2.2.1 S p h1)⟩⟩
  | tfmQutr E =>
    obtain ⟨h1, h2⟩ := means_qutr.1 hf
    exact ⟨_, rfl, rfl, means_tfm.2 ⟨(C26_conversions.1 E h1).2, h2.trans (funext fun p =>
      (C26_point.1 E p).symm)⟩⟩

/-- **C102 (rotation and translation).** A constructor from a rotation and a translation makes a pose that
rotates first and then translates, for every class but `DualQuat`. -/
theorem C102_pair_partial (n : Nat) (ty : Ty) (r : Val) (v : V3) (o : Option Val) (h : Pair n ty r v o)
    (f : V3 → V3) (hf : r.Means f) (hd : ty ≠ .duqu) :
    ∃ w, o = some w ∧ w.ty = some ty ∧ ∃ g, w.Means g ∧ ∀ p, (g p).pure = (f p).pure + v.pure := by
  have key : ∀ q : Quat, Unit q → f = qrot q → ∀ p, (qutrTf ⟨q, v⟩ p).pure = (f p).pure + v.pure := by
    intro q hq h p
    rw [C26_actions.2.1 ⟨q, v⟩ _ hq, h, (C23_qrot q p hq).1]
  cases h with
  | duquQuat | duquAng | duquAxang => exact absurd rfl hd
  | qutrQuat q =>
    obtain ⟨h1, h2⟩ := means_quat.1 hf
    exact ⟨_, rfl, rfl, _, means_qutr.2 ⟨h1, rfl⟩, key q h1 h2⟩
  | qutrAng a t =>
    obtain ⟨-, h2, h3, -⟩ := C30_axis_angle a t
    exact ⟨_, rfl, rfl, _, means_qutr.2 ⟨h2, rfl⟩, key _ h2 (by rw [means_ang.1 hf, h3, rot9_quat])⟩
  | tfmQuat q =>
    obtain ⟨h1, h2⟩ := means_quat.1 hf
    refine ⟨_, rfl, rfl, _, means_tfm.2 ⟨C24_isRot q h1, rfl⟩, fun p => ?_⟩
    rw [C26_point.1]
    exact key q h1 h2 p

/-- **C102 (components).** An axis and an angle from components rotate by the angle about the direction of
the axis, which need not be a unit vector; the nine numbers of a rotation matrix are given by rows. -/
theorem C102_components (x y z t : ℝ) (hn : x ^ 2 + y ^ 2 + z ^ 2 ≠ 0) :
    (∃ a, axangOf x y z t = some a ∧ vnorm a.axis = 1 ∧
      (∃ c : ℝ, 0 < c ∧ a.axis.pure = c • (⟨x, y, z⟩ : V3).pure) ∧ a.angle = t) ∧
    ∀ r11 r12 r13 r21 r22 r23 r31 r32 r33 : ℝ, (rotmatOf r11 r12 r13 r21 r22 r23 r31 r32 r33).den =
      !![r11, r12, r13; r21, r22, r23; r31, r32, r33] := by
  constructor
  · have hp : 0 < x * x + y * y + z * z := by
      have h0 : 0 ≤ x * x + y * y + z * z := by nlinarith [mul_self_nonneg x, mul_self_nonneg y, mul_self_nonneg z]
      apply lt_of_le_of_ne h0
      intro h; apply hn; linarith
    have hs : 0 < Real.sqrt (x * x + y * y + z * z) := Real.sqrt_pos.2 hp
    have hq := Real.mul_self_sqrt hp.le
    refine ⟨⟨⟨x / Real.sqrt (x * x + y * y + z * z), y / Real.sqrt (x * x + y * y + z * z),
      z / Real.sqrt (x * x + y * y + z * z)⟩, t⟩, ?_, ?_, ⟨1 / Real.sqrt (x * x + y * y + z * z),
      one_div_pos.2 hs, ?_⟩, rfl⟩
    · simp only [axangOf, if_neg hs.ne']
    · generalize Real.sqrt (x * x + y * y + z * z) = s at *
      rw [vnorm, Real.sqrt_eq_one, vdot]
      field_simp
      linarith
    · ext <;> simp [div_eq_inv_mul]
  · intro r11 r12 r13 r21 r22 r23 r31 r32 r33
    ext i j; fin_cases i <;> fin_cases j <;> rfl

/-- **C102 (default constructors)** make the identity, for every class but `DualQuat`. -/
theorem C102_default_partial (n : Nat) (ty : Ty) (o : Option Val) (h : Default n ty o) (hd : ty ≠ .duqu) :
    ∃ w, o = some w ∧ w.ty = some ty ∧ w.Means id := by
  have hq : Unit ⟨0, 0, 0, 1⟩ := by norm_num [Unit]
  have hi : IsRot m3ident := by
    have := C24_isRot _ hq
    have e : quat2rotmat ⟨0, 0, 0, 1⟩ = m3ident := by
      ext <;> norm_num [quat2rotmat, skewsymScalC, Quat.vec, m3ident]
    rwa [e] at this
  cases h with
  | quat =>
    refine ⟨_, rfl, rfl, means_quat.2 ⟨hq, ?_⟩⟩
    funext p; ext <;> simp [qrot]
  | rotmat =>
    refine ⟨_, rfl, rfl, means_rotmat.2 ⟨hi, ?_⟩⟩
    funext p; ext <;> simp [rot9, rotmatOf]
  | axang =>
    have e : axangOf 0 0 1 0 = some ⟨⟨0, 0, 1⟩, 0⟩ := by norm_num [axangOf]
    refine ⟨.axang ⟨⟨0, 0, 1⟩, 0⟩, by rw [e]; rfl, rfl, means_axang.2 ⟨Or.inl ?_, ?_⟩⟩
    · norm_num [vnorm, vdot]
    · funext p; ext <;> simp [qrot, axang2quat]
  | duqu => exact absurd rfl hd
  | qutr =>
    refine ⟨_, rfl, rfl, means_qutr.2 ⟨hq, ?_⟩⟩
    funext p
    rw [← C26_point.1]
    ext <;> simp [qutr2tfmat, tfmTf, quat2rotmat, skewsymScalC, Quat.vec]
  | tfm =>
    refine ⟨_, rfl, rfl, means_tfm.2 ⟨hi, ?_⟩⟩
    funext p; ext <;> simp [tfmTf, tfmident, m3ident]

/-- **C102 (products)** stand for one map after the other. -/
theorem C102_mul (a b c : Val) (h : Mul a b c) (f g : V3 → V3) (hf : a.Means f) (hg : b.Means g) :
    c.Means (f ∘ g) := by
  cases h with
  | rotmat A B =>
    refine ⟨?_, fun p => ?_⟩
    · rw [(C24_matrix_ops A B ⟨0, 0, 0⟩).2.1]
      exact mul_mem hf.1 hg.1
    · rw [(C24_matrix_ops A B p).2.1, Function.comp, hf.2, hg.2, Matrix.mulVec_mulVec]
  | quat a b =>
    obtain ⟨h1, h2⟩ := means_quat.1 hf
    obtain ⟨h3, h4⟩ := means_quat.1 hg
    refine means_quat.2 ⟨(C21_qmulnorm a b h1 h3).2, ?_⟩
    funext p
    rw [C23_compose a b p h1 h3, h2, h4]; rfl
  | tfm A B =>
    obtain ⟨h1, h2⟩ := means_tfm.1 hf
    obtain ⟨h3, h4⟩ := means_tfm.1 hg
    refine means_tfm.2 ⟨((C27_tfm A B A).2.2.2.2 h1 h3).1, ?_⟩
    funext p
    rw [h2, h4]; exact (tfm_comp A B p).symm
  | duqu A B =>
    obtain ⟨h1, h2⟩ := means_duqu.1 hf
    obtain ⟨h3, h4⟩ := means_duqu.1 hg
    refine means_duqu.2 ⟨(C26_duqu A B h1 h3).1, ?_⟩
    funext p
    rw [h2, h4]; exact (duqu_comp A B h1 h3 p).symm
  | qutr A B =>
    obtain ⟨h1, h2⟩ := means_qutr.1 hf
    obtain ⟨h3, h4⟩ := means_qutr.1 hg
    refine means_qutr.2 ⟨(C27_qutr A B A h1 h3).2.2.2.2.2.1, ?_⟩
    funext p
    rw [h2, h4]; exact (qutr_comp A B h1 h3 p).symm

/-- **C102 (members).** Rotating or transforming a point applies the map; the translation is the image of
the origin; sums and quotients of vectors are taken by elements. -/
theorem C102_members (a : Val) (f : V3 → V3) (hf : a.Means f) :
    (∀ p q, Apply a p q → q = f p) ∧ (∀ v, Trans a v → v = f ⟨0, 0, 0⟩) ∧
    (∀ u v : V3, (vecAdd u v).pure = u.pure + v.pure) ∧
    ∀ (u : V3) (b : ℝ), b ≠ 0 → (vecDiv u b).pure = b⁻¹ • u.pure := by
  refine ⟨fun p q h => ?_, fun v h => ?_, fun u v => ?_, fun u b _ => ?_⟩
  · cases h with
    | quat => rw [(means_quat.1 hf).2]
    | qutr => rw [(means_qutr.1 hf).2]
    | tfm => rw [(means_tfm.1 hf).2]
    | rotmat => rw [(means_rotmat.1 hf).2]
  · cases h with
    | duqu S =>
      obtain ⟨h1, h2⟩ := means_duqu.1 hf
      rw [h2, C26_point.2.2.1 S _ h1]
      ext <;> simp [tfmTf, duqu2tfmat]
    | tfm T =>
      rw [(means_tfm.1 hf).2]
      ext <;> simp [tfmTf]
  · ext <;> simp [vecAdd]
  · ext <;> simp [vecDiv, div_eq_inv_mul]

/-- **C102 (conjugates)** stand for the inverse map, for every class but `DualQuat`. -/
theorem C102_inverse_partial (n : Nat) (E : Qutr) (o : Option Val) (h : Inv n (.qutr E) o)
    (f : V3 → V3) (hf : (Val.qutr E).Means f) :
    ∃ w g, o = some w ∧ w.Means g ∧ (∀ p, g (f p) = p) ∧ ∀ p, f (g p) = p := by
  cases h
  obtain ⟨h1, h2⟩ := means_qutr.1 hf
  obtain ⟨-, -, -, h4, h5, -, h7⟩ := C27_qutr E E E h1 h1
  have hi : ∀ p, qutrTf qutrident p = p := by
    intro p
    rw [← C26_point.1]
    ext <;> simp [qutr2tfmat, tfmTf, quat2rotmat, skewsymScalC, Quat.vec, qutrident, qident]
  refine ⟨_, _, rfl, means_qutr.2 ⟨h7, rfl⟩, fun p => ?_, fun p => ?_⟩
  · rw [h2, ← qutr_comp _ _ h7 h1, h5, hi]
  · rw [h2, ← qutr_comp _ _ h1 h7, h4, hi]

/-- **C102 fails** for `DualQuat`: the default constructor calls `from_xyzw`, which declares a `DualQuat`
and so calls the default constructor; every other constructor, and `conj`, declares one as well.  None of
them returns, whatever number of nested calls is available. -/
theorem C102_violates_dualquat (n : Nat) :
    (∀ o, Default n .duqu o → o = none) ∧ (∀ v o, Conv n .duqu v o → o = none) ∧
    (∀ r v o, Pair n .duqu r v o → o = none) ∧ ∀ S o, Inv n (.duqu S) o → o = none := by
  have h := (dq_none n).1
  refine ⟨fun o ho => ?_, fun v o ho => ?_, fun r v o ho => ?_, fun S o ho => ?_⟩
  · cases ho; rw [h]; rfl
  · cases ho <;> simp [dqFromDuqu, dqFromQv, dqFromTfmat, dqFromXyz, h]
  · cases ho <;> simp [dqFromQv, dqFromAngle, h]
  · cases ho; simp [dqConj, h]

/-- **C102 fails** for `QuatTran` of a transformation matrix: the eight numbers of a dual quaternion are
written into the seven of the object, whatever the matrix. -/
theorem C102_violates_tfmat (n : Nat) (T : Tfm) (o : Option Val) (h : Conv n .qutr (.tfm T) o) :
    o = none := by
  cases h; rfl

/-- A quarter turn about z as an angle, made into a quaternion and then into a pose with translation
(1, 2, 3), takes the point (1, 0, 0) to (1, 3, 3). -/
example : ∃ f, (Val.ang .Z (Real.pi / 2)).Means f ∧
    Pair 5 .qutr (.ang .Z (Real.pi / 2)) ⟨1, 2, 3⟩ (some (.qutr ⟨angle2quat .Z (Real.pi / 2), ⟨1, 2, 3⟩⟩)) ∧
    f ⟨1, 0, 0⟩ = ⟨0, 1, 0⟩ := by
  refine ⟨_, means_ang.2 rfl, .qutrAng _ _ _, ?_⟩
  ext <;> simp [rot9, angle2rotmat]

/-- A rotation matrix with its map; that its angle is at least 2^-13 is shown in `Verif.Prop.Lnv`. -/
example : (Val.rotmat (quat2rotmat ⟨3 / 5, 0, 0, 4 / 5⟩)).Means (qrot ⟨3 / 5, 0, 0, 4 / 5⟩) :=
  means_rotmat.2 ⟨C24_isRot _ (by norm_num [Unit]), rot9_quat.symm⟩

end Verif.Tf.Cpp
