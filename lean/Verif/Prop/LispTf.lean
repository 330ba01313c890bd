import Verif.Model.LispTf
import Verif.Prop.Conv
import Verif.Prop.Rigid

/-!
# C167: orientations of the Lisp library turn points alike in every form

Specification: an orientation stands for a rotation of points, given by quaternions of Mathlib and
its exponential, or by a rotation matrix; whatever it is converted to has to turn points so.
-/

namespace Verif.LispTf

open Verif.Tf
open scoped Quaternion
open Quaternion Matrix

/-- `f` is the rotation that the orientation stands for. -/
def Turns : Ori → (V3 → V3) → Prop
  | .null, f => Rotates f 1
  | .cplx re im, f => Rotates f ⟨re, im, 0, 0⟩
  | .quat q, f => Rotates f q.den
  | .axang a, f => Rotates f a.den
  | .ang a t, f => Rotates f (angle2axang a t).den
  | .eul z y x, f =>
      Rotates f ((angle2axang .Z z).den * (angle2axang .Y y).den * (angle2axang .X x).den)
  | .mat R, f => ∀ p, (f p).den = R.den *ᵥ p.den

/-- Orientations are proper: of length one, with an axis of length one, or rotation matrices. -/
def Ok : Ori → Prop
  | .null => True
  | .cplx re im => re ^ 2 + im ^ 2 = 1
  | .quat q => Unit q
  | .axang a => vnorm a.axis = 1
  | .ang _ _ => True
  | .eul _ _ _ => True
  | .mat R => IsRot R

/-- One orientation stands for one rotation. -/
theorem Turns.unique {o : Ori} {f g : V3 → V3} (hf : Turns o f) (hg : Turns o g) : f = g := by
  cases o with
  | mat R =>
    funext p
    have := (hf p).trans (hg p).symm
    simp only [V3.den] at this
    have h0 := congrFun this 0
    have h1 := congrFun this 1
    have h2 := congrFun this 2
    simp at h0 h1 h2
    exact V3.ext h0 h1 h2
  | _ => exact Rotates.ext hf hg

/-- The quaternion of an orientation is of length one and turns points as the orientation. -/
theorem C167_quaternion (o : Ori) (h : Ok o) :
    Unit (quaternion o) ∧ Turns o (qrot (quaternion o)) := by
  cases o with
  | null =>
    have u : Unit (quaternion .null) := by simp [quaternion, Tf.Unit]
    refine ⟨u, ?_⟩
    have e : (quaternion .null).den = 1 := by ext <;> simp [quaternion]
    simpa only [Turns, e] using rotates_qrot u
  | cplx re im =>
    have u : Unit (quaternion (.cplx re im)) := by
      simp only [Ok] at h
      simp only [quaternion, Tf.Unit]; linarith
    exact ⟨u, rotates_qrot u⟩
  | quat q => exact ⟨h, rotates_qrot h⟩
  | axang a => exact ⟨(C30_axang2quat a h).2, (C30_axang a h).2.2.2⟩
  | ang a t =>
    have := C30_axis_angle a t
    refine ⟨this.2.1, ?_⟩
    simp only [Turns, ← this.2.2.2.1]
    exact rotates_qrot this.2.1
  | eul z y x =>
    have := C30_euler .Z .Y .X z y x
    exact ⟨this.2.1, this.2.2.1⟩
  | mat R =>
    have := C25_rotmat2quat R h
    refine ⟨this.1, fun p => ?_⟩
    rw [← C24_acts]
    show (quat2rotmat (rotmat2quat R)).den *ᵥ _ = _
    rw [this.2.1]

/-- A transform of an orientation and a translation turns points as the orientation and then moves
them by the translation; so does the dual quaternion of them. -/
theorem C167_pair (o : Ori) (h : Ok o) (v : V3) (f : V3 → V3) (hf : Turns o f) :
    (∀ p, qutrTf (tf2 o v) p = vadd (f p) v) ∧
    ∀ S, duqu2 o v = some S → ∀ p, duquTf S p = vadd (f p) v := by
  obtain ⟨u, t⟩ := C167_quaternion o h
  have e := t.unique hf
  have key : ∀ p, qutrTf (tf2 o v) p = vadd (f p) v := by
    intro p; rw [qutrTf_eq, ← e]; rfl
  refine ⟨key, fun S hS p => ?_⟩
  have hd : S = qutr2duqu (tf2 o v) := by
    cases o <;> simp_all [duqu2, tf2]
  rw [hd, C26_point.2.2.2 (tf2 o v) p u, key]

/-- Rotation matrices of orientations turn points as the orientations, and so do transforms of
points by orientations. -/
theorem C167_matrix (o : Ori) (h : Ok o) :
    (∀ R, rotationMatrix o = some R → Turns o (rot9 R)) ∧
    ∀ p p' f, Turns o f → transformPt o p = some p' → p' = f p := by
  have hR : ∀ R, rotationMatrix o = some R → Turns o (rot9 R) := by
    intro R e
    cases o with
    | quat q => cases e; exact rotates_rotmat h
    | axang a => cases e; exact (C30_axang a h).2.1
    | ang a t => cases e; exact (C30_axis_angle a t).2.2.2.2
    | _ => cases e
  refine ⟨hR, fun p p' f hf e => ?_⟩
  cases o with
  | quat q => cases e; exact congrFun ((rotates_qrot h).ext hf) p
  | ang a t => cases e; exact congrFun ((hR _ rfl).unique hf) p
  | mat R =>
    cases e
    have : Turns (.mat R) (rot9 R) := fun p => (C24_matrix_ops R m3ident p).1
    exact congrFun (this.unique hf) p
  | _ => cases e

/-- The axis and angle of an orientation turn points as the orientation. -/
theorem C167_axis (o : Ori) (h : Ok o) (a : Axang) (e : axisAngle o = some a) :
    Turns o (qrot (quaternion (.axang a))) ∧ Turns o (axangRot a) := by
  have key : ∀ (x y z t : ℝ), x * x + y * y + z * z = 1 →
      mkAxang x y z t = some ⟨⟨x, y, z⟩, t⟩ := by
    intro x y z t hn
    simp [mkAxang, hn]
  have hang : ∀ b t, axisAngle (.ang b t) = some a →
      Turns (.ang b t) (qrot (quaternion (.axang a))) ∧ Turns (.ang b t) (axangRot a) := by
    intro b t e
    have ea : a = angle2axang b t := by
      cases b <;> simp only [axisAngle] at e <;> rw [key _ _ _ _ (by norm_num)] at e <;>
        exact (Option.some.inj e).symm
    have hk : vnorm (angle2axang b t).axis = 1 := by
      cases b <;> simp [angle2axang, vnorm, vdot]
    rw [ea]
    exact ⟨(C30_axang _ hk).2.2.2, (C30_axang _ hk).1⟩
  cases o with
  | quat q =>
    cases e
    have hq : Unit q := h
    have e1 : quaternion (.axang (quat2axang q)) = q := C30_quat_axang_quat q hq
    have hn : qnorm q ≠ 0 := by rw [C21_qnorm, (Unit.iff_norm _).1 hq]; norm_num
    rw [e1]
    refine ⟨rotates_qrot hq, ?_⟩
    show Rotates _ _
    by_cases hv : vnorm q.vec = 0
    · have hs := vnorm_sq q.vec
      rw [hv] at hs
      simp only [vdot, Quat.vec] at hs
      have hx : q.x = 0 := by nlinarith [mul_self_nonneg q.x, mul_self_nonneg q.y, mul_self_nonneg q.z]
      have hy : q.y = 0 := by nlinarith [mul_self_nonneg q.x, mul_self_nonneg q.y, mul_self_nonneg q.z]
      have hz : q.z = 0 := by nlinarith [mul_self_nonneg q.x, mul_self_nonneg q.y, mul_self_nonneg q.z]
      have hw : q.w * q.w + 0 * 0 = 1 := by
        have := hq
        simp only [Tf.Unit, hx, hy, hz] at this
        linarith
      have hc : Real.cos (quat2axang q).angle = 1 := by
        have : (quat2axang q).angle = 2 * atan2 0 q.w := by simp [quat2axang, hv]
        rw [this, Real.cos_two_mul, (atan2_unit hw).2]
        nlinarith
      have ha : (quat2axang q).axis = ⟨0, 0, 0⟩ := by simp [quat2axang, hv]
      have h1 : axangRot (quat2axang q) = qrot q := by
        funext v
        ext <;> simp [axangRot, ha, hc, cross, qrot, hx, hy, hz]
      rw [h1]
      exact rotates_qrot hq
    · obtain ⟨h1, h2⟩ := (C30_quat2axang q hn).2.1 hv
      rw [qnormalize_unit hq] at h2
      rw [← h2]
      exact (C30_axang _ h1).1
  | ang b t => exact hang b t e
  | _ => cases e

/-- Euler angles of an orientation turn points as the orientation. Missing: quaternions with a pitch
of a right angle, for which it does not hold (`C30_violates_quat2eulerzyx`). -/
theorem C167_euler_partial (o : Ori) (h : Ok o)
    (hg : ∀ q, o = .quat q → (quat2rotmat q).m0 ^ 2 + (quat2rotmat q).m1 ^ 2 ≠ 0)
    (z y x : ℝ) (e : eulerZyx o = some (z, y, x)) : Turns o (qrot (quaternion (.eul z y x))) := by
  have h0 : ∀ a, (angle2axang a 0).den = 1 := by
    intro a; cases a <;> simp [Axang.den, angle2axang]
  cases o with
  | null =>
    cases e
    have := (C30_euler .Z .Y .X 0 0 0).2.2.1
    simp only [h0, one_mul] at this
    exact this
  | quat q =>
    obtain ⟨e0, e1, e2, h1, _, h2⟩ := C30_quat2eulerzyx_partial q h (hg q rfl)
    have e' : (e0, e1, e2) = (z, y, x) := Option.some.inj (h1.symm.trans e)
    obtain ⟨rfl, e''⟩ := Prod.mk.inj e'
    obtain ⟨rfl, rfl⟩ := Prod.mk.inj e''
    have h4 := (C30_euler .Z .Y .X e0 e1 e2).2.2.2.2
    have h3 : qrot (quaternion (.eul e0 e1 e2)) = qrot q := by
      funext p
      rw [← rot9_quat2rotmat, ← rot9_quat2rotmat, ← h2, h4]; rfl
    rw [h3]
    exact rotates_qrot h
  | ang a t =>
    cases a <;> simp only [eulerZyx, Option.some.injEq, Prod.mk.injEq] at e <;>
      obtain ⟨e0, e1, e2⟩ := e <;> subst e0 e1 e2
    · have := (C30_euler .Z .Y .X 0 0 t).2.2.1
      simp only [h0, one_mul] at this
      exact this
    · have := (C30_euler .Z .Y .X 0 t 0).2.2.1
      simp only [h0, one_mul, mul_one] at this
      exact this
    · have := (C30_euler .Z .Y .X t 0 0).2.2.1
      simp only [h0, mul_one] at this
      exact this
  | _ => cases e

/-- Products of orientations turn points by the second and then by the first. -/
theorem C167_product (a b : Ori) (ha : Ok a) (hb : Ok b) (q : Quat) (e : mulO a b = some q)
    (f g : V3 → V3) (hf : Turns a f) (hg : Turns b g) : Unit q ∧ qrot q = f ∘ g := by
  obtain ⟨ua, ta⟩ := C167_quaternion a ha
  obtain ⟨ub, tb⟩ := C167_quaternion b hb
  have hq : q = qmul (quaternion a) (quaternion b) := by
    cases a <;> cases b <;> cases e <;> rfl
  rw [hq]
  refine ⟨(C21_qmulnorm _ _ ua ub).2, ?_⟩
  funext p
  rw [C23_compose _ _ _ ua ub, ta.unique hf, tb.unique hg]; rfl

/-- The inverse of an orientation turns points back. -/
theorem C167_inverse (o : Ori) (h : Ok o) (q : Quat) (e : inverseO o = some q)
    (f : V3 → V3) (hf : Turns o f) (p : V3) : qrot q (f p) = p ∧ f (qrot q p) = p := by
  obtain ⟨u, t⟩ := C167_quaternion o h
  have hq : q = qinv (quaternion o) := by cases o <;> cases e <;> rfl
  have hc : q = qconj (quaternion o) := by
    have h1 : qdot (quaternion o) (quaternion o) = 1 := by
      have := u
      simp only [Tf.Unit] at this
      simp only [qdot]; linarith
    rw [hq]; simp [qinv, h1, qconj]
  rw [← t.unique hf, hc]
  exact C23_inverse _ p u

/-- The transform of an orientation alone, and its dual quaternion, turn points as the orientation.
Missing: rotations about the z axis, for which it does not hold (`C167_tf_violates`). -/
theorem C167_tf_partial (o : Ori) (h : Ok o) :
    ((∀ t, o ≠ .ang .Z t) → ∀ E, tf1 o = some E → Turns o (qutrTf E)) ∧
    ∀ S, duqu1 o = some S → Turns o (duquTf S) := by
  obtain ⟨u, t⟩ := C167_quaternion o h
  have key : qutrTf (tf2 o ⟨0, 0, 0⟩) = qrot (quaternion o) := by
    funext p; rw [qutrTf_eq]; ext <;> simp [tf2, vadd]
  constructor
  · intro hz E e
    have : E = tf2 o ⟨0, 0, 0⟩ := by
      cases o with
      | ang a s => cases a <;> first | exact absurd rfl (hz s) | (cases e; rfl)
      | cplx _ _ => cases e
      | mat _ => cases e
      | _ => cases e; rfl
    rw [this, key]
    exact t
  · intro S e
    have : S = qutr2duqu (tf2 o ⟨0, 0, 0⟩) := by
      cases o <;> cases e <;> ext <;> simp [qutr2duqu, tf2, qmulVQ, quaternion, vdot]
    have h2 : duquTf S = qrot (quaternion o) := by
      funext p; rw [this, C26_point.2.2.2 (tf2 o ⟨0, 0, 0⟩) p u, key]
    rw [h2]
    exact t

/-- Which conversions there are of which kinds of orientations. -/
theorem C167_defined (o : Ori) (v p : V3) :
    ((tf1 o).isSome ↔ (∀ a b, o ≠ .cplx a b) ∧ ∀ R, o ≠ .mat R) ∧
    ((duqu2 o v).isSome ↔ (∀ a b, o ≠ .cplx a b) ∧ o ≠ .null) ∧
    ((∃ q, o = .quat q) ∨ (∃ a t, o = .ang a t) →
      (rotationMatrix o).isSome ∧ (axisAngle o).isSome ∧ (inverseO o).isSome ∧
      (transformPt o p).isSome ∧ (Ok o → (eulerZyx o).isSome) ∧
      (mulO (.quat ⟨0, 0, 0, 1⟩) o).isSome ∧ ∀ b t, (mulO (.ang b t) o).isSome ↔ ∃ a t, o = .ang a t) ∧
    (∀ a z y x, (mulO (.quat a) (.axang ⟨v, z⟩)).isSome ∧ (mulO (.quat a) (.eul z y x)).isSome ∧
      (rotationMatrix (.axang ⟨v, z⟩)).isSome) ∧
    (eulerZyx .null).isSome ∧ (duqu1 .null).isSome ∧ (∀ q, (duqu1 (.quat q)).isSome) ∧
    ∀ R, (transformPt (.mat R) p).isSome := by
  refine ⟨?_, ?_, ?_, ?_, rfl, rfl, fun _ => rfl, fun _ => rfl⟩
  · cases o with
    | ang a t => cases a <;> simp [tf1]
    | _ => simp [tf1]
  · cases o <;> simp [duqu2]
  · rintro (⟨q, rfl⟩ | ⟨a, t, rfl⟩)
    · refine ⟨rfl, rfl, rfl, rfl, fun h => ?_, rfl, fun b t => by simp [mulO]⟩
      have hn : qnorm q ≠ 0 := by rw [C21_qnorm, (Unit.iff_norm _).1 h]; norm_num
      simp [eulerZyx, quat2eulerzyx, hn]
    · cases a <;> simp [rotationMatrix, axisAngle, inverseO, transformPt, eulerZyx, mulO, mkAxang]
  · intro a z y x; exact ⟨rfl, rfl, rfl⟩

/-- Violated: the transform of a rotation about the z axis turns points about the y axis. -/
theorem C167_tf_violates :
    ∃ t E p f, tf1 (.ang .Z t) = some E ∧ Turns (.ang .Z t) f ∧ qutrTf E p ≠ f p ∧
      Turns (.ang .Y t) (qutrTf E) := by
  refine ⟨Real.pi, _, ⟨0, 1, 0⟩, _, rfl, (C167_quaternion (.ang .Z Real.pi) trivial).2, ?_, ?_⟩
  · intro hc
    have := congrArg V3.y hc
    simp [qutrTf, qrot, quaternion, angle2quat] at this
    norm_num at this
  · exact (C167_tf_partial (.ang .Y Real.pi) trivial).1 (by simp) _ rfl

/-- Violated: Euler angles transform no points, and have no rotation matrix. -/
theorem C167_transform_violates (z y x : ℝ) (p : V3) :
    transformPt (.eul z y x) p = none ∧ rotationMatrix (.eul z y x) = none ∧
    (rotationMatrix .null).isNone ∧ (eulerZyx (.eul z y x)).isNone :=
  ⟨rfl, rfl, rfl, rfl⟩

/-- A transform made human-readable and converted back moves points alike. Missing: transforms with
a pitch of a right angle. -/
theorem C167_readable_partial (E : Qutr) (h : Unit E.q)
    (hg : (quat2rotmat E.q).m0 ^ 2 + (quat2rotmat E.q).m1 ^ 2 ≠ 0) :
    ∃ r, readable E = some r ∧ ∀ p, qutrTf (ofReadable r) p = qutrTf E p := by
  obtain ⟨e0, e1, e2, h1, _, h2⟩ := C30_quat2eulerzyx_partial E.q h hg
  refine ⟨⟨e0, e1, e2, E.v⟩, by simp [readable, eulerZyx, h1], fun p => ?_⟩
  have t := C167_euler_partial (.quat E.q) h (by rintro q ⟨⟩; exact hg) e0 e1 e2 h1
  rw [qutrTf_eq, qutrTf_eq]
  have : qrot (quaternion (.eul e0 e1 e2)) = qrot E.q := t.unique (rotates_qrot h)
  show vadd (qrot (quaternion (.eul e0 e1 e2)) p) E.v = _
  rw [this]

/-- Roll, pitch and yaw turn about x, then about y, then about z. A human-readable transform that is
printed and read again moves points as before. Missing: yaws that differ from the pitch, for which it
does not hold (`C167_print_violates`). -/
theorem C167_print_partial :
    (∀ r p y, Turns (mkRpy r p y) fun v =>
      qrot (quaternion (.ang .Z y)) (qrot (quaternion (.ang .Y p)) (qrot (quaternion (.ang .X r)) v))) ∧
    ∀ r, r.z = r.y → ∀ p, qutrTf (reread r) p = qutrTf (ofReadable r) p := by
  constructor
  · intro r p y
    have hz := (C167_quaternion (.ang .Z y) trivial).2
    have hy := (C167_quaternion (.ang .Y p) trivial).2
    have hx := (C167_quaternion (.ang .X r) trivial).2
    exact Rotates.comp (g := qrot (quaternion (.ang .X r)))
      (f := fun v => qrot (quaternion (.ang .Z y)) (qrot (quaternion (.ang .Y p)) v))
      (Rotates.comp hz hy) hx
  · intro r h p
    simp only [reread, ofReadable, tf2, mkRpy, h]

/-- Violated: a human-readable transform that is printed and read again has its pitch for its yaw;
here, no yaw instead of half a turn. -/
theorem C167_print_violates :
    ∃ E r p, Unit E.q ∧ readable E = some r ∧ qutrTf (ofReadable r) p = qutrTf E p ∧
      qutrTf (reread r) p ≠ qutrTf E p := by
  have hu : Unit (⟨0, 0, 1, 0⟩ : Quat) := by norm_num [Tf.Unit]
  have hn : qnorm ⟨0, 0, 1, 0⟩ = 1 := by rw [C21_qnorm, (Unit.iff_norm _).1 hu]
  obtain ⟨r, hr, hp⟩ := C167_readable_partial ⟨⟨0, 0, 1, 0⟩, ⟨0, 0, 0⟩⟩ hu
    (by norm_num [quat2rotmat, skewsymScalC, Quat.vec])
  refine ⟨_, r, ⟨1, 0, 0⟩, hu, hr, hp _, ?_⟩
  have hy : r.y = 0 ∧ r.x = 0 ∧ r.v = ⟨0, 0, 0⟩ := by
    simp only [readable, eulerZyx, quat2eulerzyx, hn] at hr
    norm_num at hr
    rw [← hr]
    exact ⟨rfl, (congrArg Complex.arg (Complex.ext rfl rfl)).trans Complex.arg_one, rfl⟩
  have e : qrot (quaternion (.eul 0 0 0)) = id := by
    have := (C167_euler_partial .null trivial (by simp) 0 0 0 rfl).unique
      (C167_quaternion .null trivial).2
    rw [this]; funext p; ext <;> simp [qrot, quaternion]
  intro hc
  rw [qutrTf_eq, qutrTf_eq] at hc
  simp only [reread, tf2, mkRpy, hy.1, hy.2.1, hy.2.2, e] at hc
  have := congrArg V3.x hc
  simp [vadd, qrot] at this
  norm_num at this

/-- Orientations of all kinds that are proper. -/
example : Ok .null ∧ Ok (.cplx 0 1) ∧ Ok (.quat ⟨0, 1, 0, 0⟩) ∧ Ok (.axang ⟨⟨0, 0, 1⟩, 1⟩) ∧
    Ok (.ang .Z 1) ∧ Ok (.eul 1 2 3) ∧ Ok (.mat (quat2rotmat ⟨0, 1, 0, 0⟩)) := by
  refine ⟨trivial, ?_, ?_, ?_, trivial, trivial, C24_isRot _ ?_⟩ <;>
    norm_num [Ok, Tf.Unit, vnorm, vdot]

/-- A product of two kinds, and a quaternion without a pitch of a right angle. -/
example : (mulO (.quat ⟨0, 1, 0, 0⟩) (.ang .Z 1)).isSome ∧
    (quat2rotmat ⟨0, 0, 1, 0⟩).m0 ^ 2 + (quat2rotmat ⟨0, 0, 1, 0⟩).m1 ^ 2 ≠ 0 :=
  ⟨rfl, by norm_num [quat2rotmat, skewsymScalC, Quat.vec]⟩

end Verif.LispTf
